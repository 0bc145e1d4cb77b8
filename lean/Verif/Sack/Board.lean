import Verif.Sack.Props
/-! # Theorems about the scoreboard (C33, C58, C59, C60) -/
namespace Verif.Sack
open Verif.Tcp

/-- **C33 (shape).** In every reachable state the holes are non-empty, in order, separated from each
other, inside the outstanding range `[snd_una, snd_max)` and below the highest SACKed byte, and the
counter is their number. -/
theorem scoreboard_shape {s : Tcb} {R : Ghost} (h : Reach s R) :
    (∀ c ∈ s.holes, off s.una c.start < off s.una c.stop ∧ off s.una c.stop < off s.una s.fack ∧
      off s.una s.fack ≤ off s.una s.max) ∧
    s.holes.Pairwise (fun a b => off s.una a.stop < off s.una b.start) ∧
    s.ctl.num = s.holes.length := by
  have I := reach_inv h
  refine ⟨fun c hc => ?_, I.ok.ord, I.ok.num⟩
  have hne : s.holes ≠ [] := fun e => by rw [e] at hc; simp at hc
  exact ⟨(I.ok.hole c hc).ne, (I.ok.hole c hc).top, I.fack hne⟩

/-- The ACK moves `snd_una` exactly when it acknowledges new outstanding data. -/
theorem ack_una {s : Tcb} {R : Ghost} (h : Reach s R) (E : Env) (w : BitVec 32) (o : Bool)
    (S : List Blk) : (ackIn E s w o S).max = s.max ∧ (ackIn E s w o S).una =
      if 0 < off s.una w ∧ off s.una w ≤ off s.una s.max then w else s.una := by
  have I := reach_inv h
  by_cases hw : seqGT w s.max = true
  · have hb : ¬ off s.una w ≤ off s.una s.max := by
      intro hc
      have := (gt_iff (u := s.una) I.win hc (Nat.le_refl _)).mp hw
      omega
    unfold ackIn; rw [if_pos hw, if_neg (fun hc => hb hc.2)]
    exact ⟨rfl, rfl⟩
  · have hw' : seqGT w s.max = false := by simpa using hw
    have P := mid_post E I hw' o S
    rw [ackIn_eq E s hw']
    have h2 := not_gt_max I.win hw'
    have h3 := off_lt s.una w
    have hwin := I.win
    by_cases hle : seqLEQ w s.una = true
    · rw [if_pos hle]
      rw [leq_una] at hle
      rw [if_neg (by omega)]
      exact ⟨P.max, P.una⟩
    · rw [if_neg hle]
      rw [leq_una] at hle
      rw [if_pos (by omega)]
      exact ⟨P.max, rfl⟩

/-- **C33 (acknowledged bytes).** After an ACK, no hole contains a byte below the new `snd_una`, nor,
unless a hole could not be allocated, a byte of a SACK block of this ACK that lies in the outstanding
data - whatever else the (possibly hostile) ACK carries. -/
theorem scoreboard_acked {s : Tcb} {R : Ghost} (h : Reach s R) (E : Env) (w : BitVec 32)
    (S : List Blk) {c : Hole} (hc : c ∈ (ackIn E s w true S).holes) :
    off s.una (ackIn E s w true S).una ≤ off s.una c.start ∧
    (seqGT w s.max = false → Recent s.una s.max w →
      (ackIn E s w true S).ctl.fails = s.ctl.fails →
      ∀ b ∈ S, Believable s.una s.max w b → ∀ x, InR b.start b.stop x → ¬ InR c.start c.stop x) := by
  have I := reach_inv h
  constructor
  · have hu := (ack_una h E w true S).2
    rw [hu]
    by_cases hcond : 0 < off s.una w ∧ off s.una w ≤ off s.una s.max
    · rw [if_pos hcond]
      have hw : seqGT w s.max = false := by
        by_contra hg
        have := (gt_iff (u := s.una) I.win hcond.2 (Nat.le_refl _)).mp (by simpa using hg)
        omega
      have P := mid_post E I hw true S
      refine P.acked hcond.1 hcond.2 c ?_
      rw [ackIn_eq E s hw] at hc
      by_cases hle : seqLEQ w s.una = true
      · rw [if_pos hle] at hc; exact hc
      · rw [if_neg hle] at hc; exact hc
    · rw [if_neg hcond, off_self]; omega
  · intro hw hrec hfl b hb hB x hx hx'
    have e : (ackIn E s w true S).holes = (doack E s w S).holes ∧
        (ackIn E s w true S).ctl = (doack E s w S).ctl := by
      rw [ackIn_eq E s hw]
      by_cases hle : seqLEQ w s.una = true
      · rw [if_pos hle]; exact ⟨rfl, rfl⟩
      · rw [if_neg hle]; exact ⟨rfl, rfl⟩
    rw [e.1] at hc
    rw [e.2] at hfl
    have hm : b ∈ collect s w S := by
      unfold collect
      exact List.mem_append_right _ (List.mem_filter.mpr ⟨hb, accept_complete I.win hrec hB⟩)
    have hne : collect s w S ≠ [] := fun e => by rw [e] at hm; simp at hm
    exact (doack_post E I hw hne).2.gone b hm (Or.inl hfl) x hx ⟨c, hc, hx'⟩

/-- **C33 (limit).** The number of holes never grows beyond the configured maximum. -/
theorem scoreboard_limit {s : Tcb} {R : Ghost} (h : Reach s R) (E : Env) (w : BitVec 32) (o : Bool)
    (S : List Blk) (hl : (s.holes.length : Int) ≤ E.limit) :
    ((ackIn E s w o S).holes.length : Int) ≤ E.limit := by
  have I := reach_inv h
  have I' := inv_ack E I w o S
  rw [← I'.ok.num]
  rw [← I.ok.num] at hl
  by_cases hw : seqGT w s.max = true
  · unfold ackIn; rw [if_pos hw]; exact hl
  · have hw' : seqGT w s.max = false := by simpa using hw
    have P := (mid_post E I hw' o S).limit hl
    rw [ackIn_eq E s hw']
    by_cases hle : seqLEQ w s.una = true
    · rw [if_pos hle]; exact P
    · rw [if_neg hle]; exact P

/-! ## C58: nothing is forgotten, nothing extra is kept -/

/-- What a (non-ignored) ACK does to the set of bytes in holes.  `S` are the SACK blocks it carried. -/
structure Exact (s : Tcb) (w : BitVec 32) (S : List Blk) (s' : Tcb) (noFail recent : Prop) : Prop where
  /-- a byte missing before and not reported now is still missing -/
  keep : ∀ x, InHoles s.holes x → off s.una s'.una ≤ off s.una x →
    (∀ b ∈ S, Believable s.una s.max w b → ¬ InR b.start b.stop x) → InHoles s'.holes x
  /-- without allocation failures: the bytes in holes are exactly those below the highest SACKed byte
  that were missing or unknown before and were not reported now -/
  exact : noFail → recent → s'.holes ≠ [] → ∀ x, InHoles s'.holes x ↔
    (InHoles s.holes x ∨ InR (base s w) s'.fack x) ∧ off s.una s'.una ≤ off s.una x ∧
    ∀ b ∈ S, Believable s.una s.max w b → ¬ InR b.start b.stop x
  /-- the highest SACKed byte -/
  high : noFail → recent → s'.holes ≠ [] → off s.una (base s w) ≤ off s.una s'.fack ∧
    off s.una s'.fack ≤ off s.una s.max ∧
    ∀ b ∈ S, Believable s.una s.max w b → off s.una b.stop ≤ off s.una s'.fack

theorem ack_exact {s : Tcb} {R : Ghost} (h : Reach s R) (E : Env) {w : BitVec 32}
    (hw : seqGT w s.max = false) (o : Bool) (S : List Blk) :
    Exact s w (if o then S else []) (ackIn E s w o S)
      ((ackIn E s w o S).ctl.fails = s.ctl.fails) (Recent s.una s.max w) := by
  have I := reach_inv h
  have hu := (ack_una h E w o S).2
  have h2 := not_gt_max I.win hw
  have hwin := I.win
  have hlt := off_lt s.una w
  have e : (ackIn E s w o S).holes = (doack E s w (if o then S else [])).holes ∧
      (ackIn E s w o S).ctl = (doack E s w (if o then S else [])).ctl ∧
      (ackIn E s w o S).fack = (doack E s w (if o then S else [])).fack := by
    rw [ackIn_eq E s hw]
    by_cases hle : seqLEQ w s.una = true
    · rw [if_pos hle]; exact ⟨rfl, rfl, rfl⟩
    · rw [if_neg hle]; exact ⟨rfl, rfl, rfl⟩
  have A : ∀ x, InHoles (ackIn E s w o S).holes x →
      off s.una (ackIn E s w o S).una ≤ off s.una x := by
    intro x hx
    obtain ⟨c, hc, hxc⟩ := hx
    have Pm := mid_post E I hw o S
    have hc' : c ∈ (mid E s w o S).holes := by rw [e.1] at hc; exact hc
    have hcn := (Pm.ok.hole c hc').ne
    have hx1 := (inR_iff (u := s.una) (Nat.le_of_lt hcn)).mp hxc
    rw [hu]
    by_cases hcond : 0 < off s.una w ∧ off s.una w ≤ off s.una s.max
    · rw [if_pos hcond]
      have := Pm.acked hcond.1 hcond.2 c hc'
      omega
    · rw [if_neg hcond, off_self]; omega
  generalize hs' : ackIn E s w o S = s' at *
  generalize hS : (if o = true then S else []) = T at *
  by_cases hne : collect s w T = []
  · rw [doack_none hne] at e
    have hfil : ∀ b ∈ T, accept s.una s.max w b = false := by
      intro b hb
      unfold collect at hne
      have := (List.append_eq_nil_iff.mp hne).2
      rw [List.filter_eq_nil_iff] at this
      simpa using this b hb
    have hack : s.holes ≠ [] → ¬ (0 < off s.una w ∧ off s.una w ≤ off s.una s.max) := by
      intro hn hcond
      unfold collect at hne
      have h1 := (List.append_eq_nil_iff.mp hne).1
      have : seqLT s.una w = true := una_lt.mpr (by omega)
      have hl : s.holes.isEmpty = false := by
        cases hs : s.holes with
        | nil => exact absurd hs hn
        | cons => rfl
      rw [this, hl] at h1; simp at h1
    refine ⟨fun x hx _ _ => by rw [e.1]; exact hx, ?_, ?_⟩
    · intro _ hrec hn x
      rw [e.1] at hn ⊢
      have hb : base s w = s.fack := by
        unfold base
        cases hs : s.holes with
        | nil => exact absurd hs hn
        | cons => rfl
      rw [hb, e.2.2]
      constructor
      · intro hx
        refine ⟨Or.inl hx, A x (by rw [e.1]; exact hx), ?_⟩
        intro b hbm hB
        have := accept_complete I.win hrec hB
        rw [hfil b hbm] at this; simp at this
      · rintro ⟨h1 | h1, _⟩
        · exact h1
        · simp [InR, off_self] at h1
    · intro _ hrec hn
      rw [e.1] at hn
      have hb : base s w = s.fack := by
        unfold base
        cases hs : s.holes with
        | nil => exact absurd hs hn
        | cons => rfl
      rw [hb, e.2.2]
      refine ⟨Nat.le_refl _, I.fack hn, ?_⟩
      intro b hbm hB
      have := accept_complete I.win hrec hB
      rw [hfil b hbm] at this; simp at this
  · obtain ⟨hbm, P⟩ := doack_post E I hw hne
    have hcol : ∀ b ∈ collect s w T, (b = ⟨s.una, w⟩ ∧ 0 < off s.una w ∧
        off s.una w ≤ off s.una s.max) ∨ (b ∈ T ∧ Believable s.una s.max w b) := by
      intro b hb
      rcases (collect_ok I hw hb).2 with ⟨h1, _, h3, h4⟩ | h
      · exact Or.inl ⟨h1, h3, h4⟩
      · exact Or.inr h
    refine ⟨?_, ?_, ?_⟩
    · intro x hx hn1 hn2
      rw [e.1]
      refine P.keep x (Or.inl hx) ?_
      rintro ⟨b, hb, hxb⟩
      rcases hcol b hb with ⟨rfl, h5⟩ | ⟨h1, h2⟩
      · rw [hu, if_pos h5] at hn1
        have : off s.una x < off s.una w := hxb
        omega
      · exact hn2 b h1 h2 hxb
    · intro hfl hrec hn x
      rw [e.2.1] at hfl
      constructor
      · intro hx
        refine ⟨?_, A x hx, ?_⟩
        · rw [e.1] at hx; rw [e.2.2]; exact P.old x hx
        · intro b hb hB hxb
          rw [e.1] at hx
          exact P.gone b (List.mem_append_right _ (List.mem_filter.mpr
            ⟨hb, accept_complete I.win hrec hB⟩)) (Or.inl hfl) x hxb hx
      · rintro ⟨h1, h3, h4⟩
        rw [e.1]
        rw [e.2.2] at h1
        refine P.keep x h1 ?_
        rintro ⟨b, hb, hxb⟩
        rcases hcol b hb with ⟨rfl, h5⟩ | ⟨h5, h6⟩
        · rw [hu, if_pos h5] at h3
          have : off s.una x < off s.una w := hxb
          omega
        · exact h4 b h5 h6 hxb
    · intro hfl hrec hn
      rw [e.2.1] at hfl
      rw [e.2.2]
      refine ⟨P.mono, P.fack, ?_⟩
      intro b hb hB
      exact P.top hfl b (List.mem_append_right _ (List.mem_filter.mpr
            ⟨hb, accept_complete I.win hrec hB⟩))

/-- **C58 (no byte is forgotten).** A byte that is missing stays in a hole until it is acknowledged,
cumulatively or by a SACK block inside the outstanding data - also when memory for holes runs out and
whatever the peer sends. -/
theorem missing_kept {s : Tcb} {R : Ghost} (h : Reach s R) (E : Env) (w : BitVec 32) (o : Bool)
    (S : List Blk) {x : BitVec 32} (hx : InHoles s.holes x)
    (h1 : off s.una (ackIn E s w o S).una ≤ off s.una x)
    (h2 : ∀ b ∈ S, Believable s.una s.max w b → ¬ InR b.start b.stop x) :
    InHoles (ackIn E s w o S).holes x := by
  have I := reach_inv h
  by_cases hw : seqGT w s.max = true
  · unfold ackIn; rw [if_pos hw]; exact hx
  · have hw' : seqGT w s.max = false := by simpa using hw
    refine (ack_exact h E hw' o S).keep x hx h1 ?_
    intro b hb hB
    cases o with
    | true => exact h2 b hb hB
    | false => simp at hb

/-- **C58 (exactness over histories).** As long as holes could be allocated: the bytes in holes are
exactly the outstanding bytes below the highest SACKed one that the peer has not reported. -/
theorem holes_exact {s : Tcb} {R : Ghost} (h : Reach s R) :
    (s.holes = [] → ∀ x, ¬ R.seen x) ∧
    (R.clean → s.holes ≠ [] → ∀ x, InHoles s.holes x ↔ InR s.una s.fack x ∧ ¬ R.seen x) ∧
    (R.clean → ∀ x, R.seen x → off s.una x < off s.una s.fack) := by
  induction h with
  | start iss fack => exact ⟨fun _ _ h => h, fun _ h => absurd rfl h, fun _ _ h => h.elim⟩
  | send n _ hn ih => exact ih
  | rexmit len ok h hl ih =>
    obtain ⟨_, P2, P3, P4, P5, P6, _⟩ := inv_sendHole (reach_inv h) ok hl
    rw [P4, P6]
    refine ⟨fun e => ih.1 (P3.mp e), fun hc hn x => ?_, ih.2.2⟩
    rw [P2 x]; exact ih.2.1 hc (fun e => hn (P3.mpr e)) x
  | clear _ ih => exact ⟨fun _ _ h => h, fun _ h => absurd rfl h, fun _ _ h => h.elim⟩
  | @ack s R E w o S h ih =>
    have I := reach_inv h
    have I' := inv_ack E I w o S
    refine ⟨fun he x hx => hx.1 he, ?_, ?_⟩
    all_goals
      by_cases hw : seqGT w s.max = true
    · -- ignored
      have e : ackIn E s w o S = s := by unfold ackIn; rw [if_pos hw]
      rw [e]
      intro hcl hn x
      have hcl' : R.clean := hcl.1
      rw [ih.2.1 hcl' hn x]
      have hF := I.fack hn
      have : (seenAck R s s w o S).seen x ↔ R.seen x := by
        constructor
        · rintro ⟨_, _, h | h⟩
          · exact h
          · rw [hw] at h; exact absurd h.1 (by simp)
        · intro hx
          refine ⟨hn, ?_, Or.inl hx⟩
          have := ih.2.2 hcl' x hx
          show off s.una x < off s.una s.max
          omega
      rw [this]
    · have hw' : seqGT w s.max = false := by simpa using hw
      rintro ⟨hcl, hcl2⟩ hn x
      have hcl3 : (ackIn E s w o S).ctl.fails = s.ctl.fails ∧ Recent s.una s.max w := by
        rcases hcl2 with h | h
        · exact absurd h hw
        · exact h
      have X := ack_exact h E hw' o S
      have hex := X.exact hcl3.1 hcl3.2 hn
      have hhi := X.high hcl3.1 hcl3.2 hn
      obtain ⟨hmax, hu⟩ := ack_una h E w o S
      have hum : off s.una (ackIn E s w o S).una ≤ off s.una s.max := by
        rw [hu]
        by_cases hcond : 0 < off s.una w ∧ off s.una w ≤ off s.una s.max
        · rw [if_pos hcond]; exact hcond.2
        · rw [if_neg hcond, off_self]; omega
      have huf : off s.una (ackIn E s w o S).una ≤ off s.una (ackIn E s w o S).fack := by
        obtain ⟨c, t, hct⟩ := List.exists_cons_of_ne_nil hn
        have hcm : c ∈ (ackIn E s w o S).holes := by rw [hct]; simp
        have hc1 := (I'.ok.hole c hcm).ne
        have hx : InHoles (ackIn E s w o S).holes c.start :=
          ⟨c, hcm, (inR_iff (u := (ackIn E s w o S).una) (by omega)).mpr (by omega)⟩
        obtain ⟨g1, g2, _⟩ := (hex c.start).mp hx
        rcases g1 with ⟨c', hc', hx'⟩ | g1
        · have o := I.ok.hole c' hc'
          have o1 := o.ne; have o2 := o.top
          have := (inR_iff (u := s.una) (Nat.le_of_lt o1)).mp hx'
          have hne : s.holes ≠ [] := fun e => by rw [e] at hc'; simp at hc'
          have hb : base s w = s.fack := by
            unfold base
            cases hs : s.holes with
            | nil => exact absurd hs hne
            | cons => rfl
          rw [hb] at hhi
          omega
        · have := (inR_iff (u := s.una) hhi.1).mp g1
          omega
      rw [hex x, inR_iff (u := s.una) huf]
      have hseen : off s.una (ackIn E s w o S).una ≤ off s.una x →
          off s.una x < off s.una (ackIn E s w o S).fack →
          ((seenAck R s (ackIn E s w o S) w o S).seen x ↔ (R.seen x ∨
            ∃ b ∈ (if o then S else []), Believable s.una s.max w b ∧ InR b.start b.stop x)) := by
        intro k1 k2
        constructor
        · rintro ⟨_, _, h | ⟨_, ho, h⟩⟩
          · exact Or.inl h
          · right; rw [if_pos ho]; exact h
        · intro hh
          refine ⟨hn, ?_, ?_⟩
          · rw [hmax, inR_iff (u := s.una) hum]
            have := hhi.2.1
            omega
          · rcases hh with h | ⟨b, hb, h⟩
            · exact Or.inl h
            · cases o with
              | false => simp at hb
              | true => exact Or.inr ⟨hw', rfl, b, hb, h⟩
      by_cases he : s.holes = []
      · have hb : base s w = (ackIn E s w o S).una := by
          rw [hu]
          unfold base
          rw [he]
          simp only [List.isEmpty_nil, if_true]
          by_cases h1 : off s.una w ≤ off s.una s.max
          · rw [if_pos h1]
            by_cases h0 : 0 < off s.una w
            · rw [if_pos ⟨h0, h1⟩]
            · rw [if_neg (fun hc => h0 hc.1)]
              exact off_inj (u := s.una) (by rw [off_self]; omega)
          · rw [if_neg h1, if_neg (fun hc => h1 hc.2)]
        have hno : ¬ InHoles s.holes x := by rw [he]; simp [InHoles]
        rw [hb, inR_iff (u := s.una) huf]
        constructor
        · rintro ⟨h1 | h1, h2, h3⟩
          · exact absurd h1 hno
          · refine ⟨h1, fun hs => ?_⟩
            rcases (hseen h1.1 h1.2).mp hs with h | ⟨b, hb, h4, h5⟩
            · exact ih.1 he x h
            · exact h3 b hb h4 h5
        · rintro ⟨h1, h2⟩
          refine ⟨Or.inr h1, h1.1, fun b hb h4 h5 => h2 ((hseen h1.1 h1.2).mpr (Or.inr ⟨b, hb, h4, h5⟩))⟩
      · have hb : base s w = s.fack := by
          unfold base
          cases hs : s.holes with
          | nil => exact absurd hs he
          | cons => rfl
        rw [hb] at hhi ⊢
        rw [ih.2.1 hcl he x, inR_iff (u := s.una) hhi.1,
          inR_iff (u := s.una) (a := s.una) (b := s.fack) (by rw [off_self]; omega), off_self]
        have h3 := ih.2.2 hcl x
        constructor
        · rintro ⟨h1, h2, h4⟩
          have k : off s.una x < off s.una (ackIn E s w o S).fack := by
            have := hhi.1
            omega
          refine ⟨⟨h2, k⟩, fun hs => ?_⟩
          rcases (hseen h2 k).mp hs with h | ⟨b, hb, h5, h6⟩
          · rcases h1 with h1 | h1
            · exact h1.2 h
            · have := h3 h; omega
          · exact h4 b hb h5 h6
        · rintro ⟨⟨h1, h2⟩, h4⟩
          refine ⟨?_, h1, fun b hb h5 h6 => h4 ((hseen h1 h2).mpr (Or.inr ⟨b, hb, h5, h6⟩))⟩
          by_cases hlt : off s.una x < off s.una s.fack
          · exact Or.inl ⟨⟨by omega, hlt⟩, fun hR => h4 ((hseen h1 h2).mpr (Or.inl hR))⟩
          · exact Or.inr ⟨by omega, h2⟩
    · have e : ackIn E s w o S = s := by unfold ackIn; rw [if_pos hw]
      rw [e]
      rintro hcl x ⟨hn, _, h | h⟩
      · exact ih.2.2 hcl.1 x h
      · rw [hw] at h; exact absurd h.1 (by simp)
    · have hw' : seqGT w s.max = false := by simpa using hw
      rintro ⟨hcl, hcl2⟩ x ⟨hn, hin, hx⟩
      have hcl3 : (ackIn E s w o S).ctl.fails = s.ctl.fails ∧ Recent s.una s.max w := by
        rcases hcl2 with h | h
        · exact absurd h hw
        · exact h
      have hhi := (ack_exact h E hw' o S).high hcl3.1 hcl3.2 hn
      obtain ⟨hmax, hu⟩ := ack_una h E w o S
      have hum : off s.una (ackIn E s w o S).una ≤ off s.una s.max := by
        rw [hu]
        by_cases hcond : 0 < off s.una w ∧ off s.una w ≤ off s.una s.max
        · rw [if_pos hcond]; exact hcond.2
        · rw [if_neg hcond, off_self]; omega
      rw [hmax, inR_iff (u := s.una) hum] at hin
      have hlt : off s.una x < off s.una (ackIn E s w o S).fack := by
        rcases hx with h | ⟨_, ho, b, hb, hB, hxb⟩
        · have h1 := ih.2.2 hcl x h
          have hne : s.holes ≠ [] := fun e => ih.1 e x h
          have hb : base s w = s.fack := by
            unfold base
            cases hs : s.holes with
            | nil => exact absurd hs hne
            | cons => rfl
          rw [hb] at hhi
          have := hhi.1
          omega
        · have h1 := hhi.2.2 b (by rw [if_pos ho]; exact hb) hB
          have := (inR_iff (u := s.una) (Nat.le_of_lt hB.1)).mp hxb
          omega
      have huf : off s.una (ackIn E s w o S).una ≤ off s.una (ackIn E s w o S).fack := by omega
      have e1 := off_shift (u := s.una) (v := (ackIn E s w o S).una) (x := (ackIn E s w o S).fack) huf
      have e2 := off_shift (u := s.una) (v := (ackIn E s w o S).una) (x := x) hin.1
      omega

/-! ## C59: what is retransmitted -/

/-- **C59.** `ofp_tcp_sack_output` returns the lowest hole with bytes not yet retransmitted, nothing if
there is none, and the number of bytes of holes retransmitted so far. -/
theorem next_hole {s : Tcb} {R : Ghost} (h : Reach s R) :
    (match (output s).2.1 with
     | none => ∀ c ∈ s.holes, c.rxmit = c.stop
     | some c => ∃ A B, s.holes = A ++ c :: B ∧ c.rxmit ≠ c.stop ∧ ∀ a ∈ A, a.rxmit = a.stop) ∧
    (output s).2.2 = ((s.holes.map fun c => off c.start c.rxmit).sum : Nat) := by
  have I := reach_inv h
  obtain ⟨P1, P2, P3, P4, P5, P6, P7, P8, P9⟩ := inv_output I
  have hnf : ∀ c ∈ s.holes, (seqLT c.rxmit c.stop = true ↔ ¬ full c) := by
    intro c hc
    have hne : s.holes ≠ [] := fun e => by rw [e] at hc; simp at hc
    exact not_full_iff I.win (I.fack hne) (I.ok.hole c hc)
  constructor
  · rw [P2]
    cases hf : s.holes.find? (fun h => seqLT h.rxmit h.stop) with
    | none =>
      intro c hc
      have := List.find?_eq_none.mp hf c hc
      by_contra hn
      exact this ((hnf c hc).mpr hn)
    | some c =>
      obtain ⟨h1, A, B, h2, h3⟩ := List.find?_eq_some_iff_append.mp hf
      refine ⟨A, B, h2, (hnf c (by rw [h2]; simp)).mp h1, fun a ha => ?_⟩
      have := h3 a ha
      by_contra hn
      have := (hnf a (by rw [h2]; simp [ha])).mpr hn
      simp_all
  · rw [P9, I.ok.bytes]
    have key : ∀ l : List Hole, (∀ c ∈ l, off s.una c.start ≤ off s.una c.rxmit) →
        (l.map (rx s.una)).sum = ((l.map fun c => off c.start c.rxmit).sum : Nat) := by
      intro l hl
      induction l with
      | nil => rfl
      | cons a t ih =>
        have h1 := hl a (by simp)
        simp only [List.map_cons, List.sum_cons]
        rw [ih (fun c hc => hl c (by simp [hc])), off_shift h1]
        unfold rx
        omega
    exact key s.holes fun c hc => (I.ok.hole c hc).lo

/-- **C59 (progress mark).** The retransmission mark of every hole stays inside the hole. -/
theorem rexmit_mark {s : Tcb} {R : Ghost} (h : Reach s R) {c : Hole} (hc : c ∈ s.holes) :
    off s.una c.start ≤ off s.una c.rxmit ∧ off s.una c.rxmit ≤ off s.una c.stop :=
  ⟨((reach_inv h).ok.hole c hc).lo, ((reach_inv h).ok.hole c hc).hi⟩

/-! ## C60: moving `snd_nxt` past data the peer has -/

theorem adjustLoop_ok {u : BitVec 32} {F M : Nat} (hM : M < 2 ^ 31) {fack nxt : BitVec 32}
    (hFk : off u fack = F) (hF : F ≤ M) (hn : off u nxt < F) (t : List Hole) : ∀ cur : Hole,
    (∀ c ∈ cur :: t, HoleOk u F c) →
    (cur :: t).Pairwise (fun a b => off u a.stop < off u b.start) →
    (∀ x, off u x < off u cur.start → off u nxt ≤ off u x → adjustLoop nxt fack cur t = nxt) →
    off u nxt ≤ off u (adjustLoop nxt fack cur t) ∧ off u (adjustLoop nxt fack cur t) ≤ F ∧
    (∀ c ∈ cur :: t, off u nxt < off u c.stop → off u c.start ≤ off u nxt ∨
      off u (adjustLoop nxt fack cur t) ≤ off u c.start) ∧
    (∀ c ∈ cur :: t, off u c.start ≤ off u nxt → off u nxt < off u c.stop →
      adjustLoop nxt fack cur t = nxt) ∧
    (adjustLoop nxt fack cur t = fack ∨ (∃ c ∈ cur :: t, InR c.start c.stop (adjustLoop nxt fack cur t)) ∨
      (adjustLoop nxt fack cur t = nxt ∧ off u nxt < off u cur.start)) := by
  induction t with
  | nil =>
    intro cur ho hord _
    have o := ho cur (by simp)
    have o1 := o.ne; have o2 := o.top
    have g := lt_iff (u := u) (x := nxt) (y := cur.stop) hM (by omega) (by omega)
    simp only [adjustLoop]
    by_cases hc : seqLT nxt cur.stop = true
    · rw [if_pos hc]
      rw [g] at hc
      refine ⟨Nat.le_refl _, by omega, ?_, fun _ _ _ _ => rfl, ?_⟩
      · intro c hcm _; simp at hcm; subst hcm; omega
      · by_cases hl : off u nxt < off u cur.start
        · exact Or.inr (Or.inr ⟨rfl, hl⟩)
        · exact Or.inr (Or.inl ⟨cur, by simp, (inR_iff (u := u) (by omega)).mpr (by omega)⟩)
    · rw [if_neg hc]
      rw [g] at hc
      refine ⟨by omega, by omega, ?_, ?_, Or.inl rfl⟩
      · intro c hcm h; simp at hcm; subst hcm; omega
      · intro c hcm _ h; simp at hcm; subst hcm; omega
  | cons p t ih =>
    intro cur ho hord _
    have o := ho cur (by simp)
    have o1 := o.ne; have o2 := o.top
    have q := ho p (by simp)
    have q1 := q.ne; have q2 := q.top
    obtain ⟨r1, r2⟩ := List.pairwise_cons.mp hord
    have r3 := r1 p (by simp)
    have g := lt_iff (u := u) (x := nxt) (y := cur.stop) hM (by omega) (by omega)
    have g' := geq_iff (u := u) (x := nxt) (y := p.start) hM (by omega) (by omega)
    have hge : ∀ c ∈ p :: t, off u p.start ≤ off u c.start := by
      intro c hcm
      rcases List.mem_cons.mp hcm with rfl | hcm
      · exact Nat.le_refl _
      · have := (List.pairwise_cons.mp r2).1 c hcm; omega
    simp only [adjustLoop]
    by_cases hc : seqLT nxt cur.stop = true
    · rw [if_pos hc]
      rw [g] at hc
      refine ⟨Nat.le_refl _, by omega, ?_, fun _ _ _ _ => rfl, ?_⟩
      · intro c hcm _; omega
      · by_cases hl : off u nxt < off u cur.start
        · exact Or.inr (Or.inr ⟨rfl, hl⟩)
        · exact Or.inr (Or.inl ⟨cur, by simp, (inR_iff (u := u) (by omega)).mpr (by omega)⟩)
    · rw [if_neg hc]
      rw [g] at hc
      by_cases hp : seqGEQ nxt p.start = true
      · rw [if_pos hp]
        rw [g'] at hp
        obtain ⟨i1, i2, i3, i4, i5⟩ := ih p (fun c h => ho c (by simp [List.mem_cons.mp h])) r2
          (fun x h1 h2 => by omega)
        refine ⟨i1, i2, ?_, ?_, ?_⟩
        · intro c hcm h
          rcases List.mem_cons.mp hcm with rfl | hcm
          · omega
          · exact i3 c hcm h
        · intro c hcm h1 h2
          rcases List.mem_cons.mp hcm with rfl | hcm
          · omega
          · exact i4 c hcm h1 h2
        · rcases i5 with h | ⟨c, h1, h2⟩ | h
          · exact Or.inl h
          · exact Or.inr (Or.inl ⟨c, by simp [List.mem_cons.mp h1], h2⟩)
          · omega
      · rw [if_neg hp]
        rw [g'] at hp
        refine ⟨by omega, by omega, ?_, ?_, ?_⟩
        · intro c hcm h
          rcases List.mem_cons.mp hcm with rfl | hcm
          · omega
          · have := hge c hcm; omega
        · intro c hcm h1 h2
          rcases List.mem_cons.mp hcm with rfl | hcm
          · omega
          · have := hge c hcm; omega
        · exact Or.inr (Or.inl ⟨p, by simp, (inR_iff (u := u) (by omega)).mpr (by omega)⟩)

/-- **C60.** `ofp_tcp_sack_adjust` only moves `snd_nxt` forward, never past a missing byte, not beyond
the highest SACKed byte, and it ends on a missing byte or above all SACKed data (unless `snd_nxt` was
before the first hole). -/
theorem adjust_safe {s : Tcb} {R : Ghost} (h : Reach s R) {nxt : BitVec 32}
    (hn : off s.una nxt ≤ off s.una s.max) :
    off s.una nxt ≤ off s.una (adjust s nxt) ∧ off s.una (adjust s nxt) ≤ off s.una s.max ∧
    (∀ x, InHoles s.holes x → off s.una nxt ≤ off s.una x →
      off s.una (adjust s nxt) ≤ off s.una x) ∧
    (s.holes ≠ [] → off s.una s.fack ≤ off s.una (adjust s nxt) ∨ InHoles s.holes (adjust s nxt) ∨
      (adjust s nxt = nxt ∧ ∀ c ∈ s.holes, off s.una nxt < off s.una c.start)) := by
  have I := reach_inv h
  unfold adjust
  cases hs : s.holes with
  | nil => exact ⟨Nat.le_refl _, hn, fun x h hx => by simp [InHoles] at h, fun h => absurd rfl h⟩
  | cons cur t =>
    have hne : s.holes ≠ [] := by rw [hs]; simp
    have hF := I.fack hne
    have g := geq_iff (u := s.una) (x := nxt) (y := s.fack) I.win hn hF
    have ho := I.ok.hole
    have hord := I.ok.ord
    rw [hs] at ho hord
    simp only
    by_cases hc : seqGEQ nxt s.fack = true
    · rw [if_pos hc]
      rw [g] at hc
      exact ⟨Nat.le_refl _, hn, fun x _ hx => hx, fun _ => Or.inl hc⟩
    · rw [if_neg hc]
      rw [g] at hc
      have key : ∀ x, off s.una x < off s.una cur.start → off s.una nxt ≤ off s.una x →
          adjustLoop nxt s.fack cur t = nxt := by
        intro x h1 h2
        have o := ho cur (by simp)
        have o1 := o.ne; have o2 := o.top
        have : seqLT nxt cur.stop = true := (lt_iff (u := s.una) I.win hn (by omega)).mpr (by omega)
        cases t with
        | nil => simp [adjustLoop, this]
        | cons p t => simp [adjustLoop, this]
      obtain ⟨i1, i2, i3, i4, i5⟩ := adjustLoop_ok I.win rfl hF (by omega) t cur ho hord key
      refine ⟨i1, by omega, ?_, fun _ => ?_⟩
      · rintro x ⟨c, hcm, hxc⟩ hx
        have o1 := (ho c hcm).ne
        have hx1 := (inR_iff (u := s.una) (Nat.le_of_lt o1)).mp hxc
        rcases i3 c hcm (by omega) with h1 | h1
        · rw [i4 c hcm h1 (by omega)]; exact hx
        · omega
      · rcases i5 with h1 | h1 | ⟨h1, h2⟩
        · exact Or.inl (by rw [h1]; exact Nat.le_refl _)
        · exact Or.inr (Or.inl h1)
        · refine Or.inr (Or.inr ⟨h1, fun c hcm => ?_⟩)
          rcases List.mem_cons.mp hcm with rfl | hcm
          · exact h2
          · have := (List.pairwise_cons.mp hord).1 c hcm
            have := (ho cur (by simp)).ne
            omega

/-! ## A concrete history: 1000 bytes sent across the wrap of the sequence numbers, blocks
[100,200), [300,400) and a hostile one reported, 20 bytes retransmitted, then 50 acknowledged. -/

/-- The history up to the first retransmission. -/
def demo1 : Tcb :=
  ackIn ⟨128, fun _ => true⟩ ⟨0xffffff00#32, 0xffffff00#32 + 1000#32, 0#32, [], ⟨0, none, 0, 0, 0⟩⟩
    0xffffff00#32 true [⟨0x2c#32, 0x90#32⟩, ⟨0xffffff64#32, 0xffffffc8#32⟩, ⟨5#32, 0x7fffffff#32⟩]

example : demo1.holes.map (fun h => (off demo1.una h.start, off demo1.una h.stop)) =
    [(0, 100), (200, 300)] ∧ demo1.ctl.num = 2 ∧ off demo1.una demo1.fack = 400 := by decide +kernel

example : ∃ s R, Reach s R ∧ s.holes.map (fun h => (off s.una h.start, off s.una h.stop, off s.una h.rxmit)) =
    [(0, 50, 0), (150, 250, 150)] ∧ s.ctl.bytes = 0 := by
  have r1 := Reach.send (s := ⟨0xffffff00#32, 0xffffff00#32, 0#32, [], ⟨0, none, 0, 0, 0⟩⟩) 1000
    (.start 0xffffff00#32 0#32) (by decide)
  have r2 := Reach.ack ⟨128, fun _ => true⟩ 0xffffff00#32 true
    [⟨0x2c#32, 0x90#32⟩, ⟨0xffffff64#32, 0xffffffc8#32⟩, ⟨5#32, 0x7fffffff#32⟩] r1
  have r3 := Reach.rexmit 20 true r2 (by
    intro h hh
    have : (some h : Option Hole) = some ⟨0, 0xffffff00#32, 0xffffff64#32, 0xffffff00#32⟩ := by
      rw [← hh]; decide +kernel
    simp at this; subst this; decide +kernel)
  have r4 := Reach.ack ⟨128, fun _ => true⟩ 0xffffff32#32 false [] r3
  exact ⟨_, _, r4, by decide +kernel, by decide +kernel⟩

end Verif.Sack

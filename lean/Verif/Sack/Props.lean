import Verif.Sack.Ack
/-!
# The sender's SACK scoreboard: theorems (C33, C58, C59, C60)
-/
namespace Verif.Sack
open Verif.Tcp

/-! ## `doack` -/

theorem inBlks_perm {l l' : List Blk} (h : ∀ b, b ∈ l ↔ b ∈ l') (x : BitVec 32) :
    InBlks l x ↔ InBlks l' x := by
  unfold InBlks
  simp only [h]

theorem doack_none {E : Env} {s : Tcb} {w : BitVec 32} {sacks : List Blk}
    (h : collect s w sacks = []) : doack E s w sacks = s := by
  unfold doack
  simp only [h]
  rfl

/-- Where new holes start: `snd_fack`, or, with an empty scoreboard, the new `snd_una`. -/
def base (s : Tcb) (w : BitVec 32) : BitVec 32 :=
  if s.holes.isEmpty then (if off s.una w ≤ off s.una s.max then w else s.una) else s.fack

theorem collect_ok {s : Tcb} (I : Inv s) {w : BitVec 32} (hw : seqGT w s.max = false)
    {sacks : List Blk} {b : Blk} (hb : b ∈ collect s w sacks) :
    BlkOk s.una (off s.una s.max) b ∧
    ((b = ⟨s.una, w⟩ ∧ s.holes ≠ [] ∧ 0 < off s.una w ∧ off s.una w ≤ off s.una s.max) ∨
      (b ∈ sacks ∧ Believable s.una s.max w b)) := by
  unfold collect at hb
  rcases List.mem_append.mp hb with h | h
  · by_cases hc : (seqLT s.una w && !s.holes.isEmpty) = true
    · rw [if_pos hc] at h
      simp only [Bool.and_eq_true, Bool.not_eq_true', List.isEmpty_eq_false_iff] at hc
      have h1 := una_lt.mp hc.1
      have h2 := not_gt_max I.win hw
      have h4 : off s.una w ≤ off s.una s.max := by
        rcases h2 with h2 | h2
        · exact h2
        · exfalso
          obtain ⟨c, t, hct⟩ := List.exists_cons_of_ne_nil hc.2
          have hcc := I.ok.hole c (by rw [hct]; simp)
          have := hcc.ne; have := hcc.top; have := I.fack hc.2
          omega
      have e := List.mem_singleton.mp h
      subst e
      refine ⟨⟨?_, h4⟩, Or.inl ⟨rfl, hc.2, h1.1, h4⟩⟩
      show off s.una s.una < _
      rw [off_self]; exact h1.1
    · rw [if_neg hc] at h; simp at h
  · obtain ⟨h1, h2⟩ := List.mem_filter.mp h
    have hB := accept_sound I.win h2
    exact ⟨⟨hB.1, hB.2.1⟩, Or.inr ⟨h1, hB⟩⟩

theorem doack_post (E : Env) {s : Tcb} (I : Inv s) {w : BitVec 32} (hw : seqGT w s.max = false)
    {sacks : List Blk} (hne : collect s w sacks ≠ []) :
    off s.una (base s w) ≤ off s.una s.max ∧
    AckPost E s w (collect s w sacks) (base s w) (doack E s w sacks) := by
  obtain ⟨b0, t0, hbt⟩ := List.exists_cons_of_ne_nil hne
  have hb0 := (collect_ok I hw (sacks := sacks) (b := b0) (by rw [hbt]; simp)).1
  have hmax : 0 < off s.una s.max := by have := hb0.1; have := hb0.2; omega
  have h2 := not_gt_max I.win hw
  -- the base
  have hbase : (if s.holes.isEmpty then seqMax s.una w else s.fack) = base s w := by
    unfold base
    by_cases he : s.holes.isEmpty = true
    · rw [if_pos he, if_pos he]
      by_cases hwm : off s.una w ≤ off s.una s.max
      · rw [if_pos hwm]
        apply off_inj (u := s.una)
        rw [off_max I.win (by rw [off_self]; omega) hwm, off_self]
        omega
      · rw [if_neg hwm]
        have h3 : off s.una s.max + 2 ^ 31 ≤ off s.una w := by
          rcases h2 with h | h
          · exact absurd h hwm
          · exact h
        have := off_lt s.una w
        have hg : seqGT s.una w = true := gt_una.mpr (by
          rw [off_swap (by omega)]; omega)
        unfold seqMax
        rw [if_pos hg]
    · rw [if_neg he, if_neg he]
  have hbm : off s.una (base s w) ≤ off s.una s.max := by
    unfold base
    by_cases he : s.holes.isEmpty = true
    · rw [if_pos he]
      by_cases hwm : off s.una w ≤ off s.una s.max
      · rw [if_pos hwm]; exact hwm
      · rw [if_neg hwm, off_self]; omega
    · rw [if_neg he]
      exact I.fack (by intro h; rw [h] at he; exact he rfl)
  have hok : Ok s.una (off s.una (base s w)) s.holes s.ctl := by
    unfold base
    by_cases he : s.holes.isEmpty = true
    · have he' : s.holes = [] := by simpa using he
      rw [he']
      have := I.ok
      rw [he'] at this
      exact ok_nil this
    · rw [if_neg he]; exact I.ok
  refine ⟨hbm, ?_⟩
  unfold doack
  simp only [hbase]
  generalize hB : collect s w sacks = B at *
  have hperm := exsort_perm B.length B
  have hall : ∀ b ∈ B, BlkOk s.una (off s.una s.max) b := fun b hb =>
    (collect_ok I hw (sacks := sacks) (by rw [hB]; exact hb)).1
  have hsort := exsort_sorted (u := s.una) I.win B.length B (Nat.le_refl _)
    (fun b hb => (hall b hb).2)
  have hmem : ∀ b, b ∈ (exsort B.length B).reverse ↔ b ∈ B := fun b => by
    rw [List.mem_reverse]; exact hperm.mem_iff
  have hrev : (exsort B.length B).reverse.Pairwise
      fun a b => off s.una b.stop ≤ off s.una a.stop := List.pairwise_reverse.mpr hsort
  generalize (exsort B.length B).reverse = L at *
  cases L with
  | nil => have := (hmem b0).mpr (by rw [hbt]; simp); simp at this
  | cons top rest =>
    have P := apply_ok E I.win w hok hbm top rest (fun b hb => hall b ((hmem b).mp hb)) hrev
    exact ⟨P.una, P.max, P.ok, P.fack, P.mono, P.fails, P.limit, P.old,
      fun x hx hn => P.keep x hx (fun h => hn ((inBlks_perm hmem x).mp h)),
      fun b hb => P.gone b ((hmem b).mpr hb), fun h b hb => P.top h b ((hmem b).mpr hb)⟩

/-! ## The connection's history -/

/-- Bytes of the hole not yet retransmitted from, in order of sequence numbers: how the sender picks
what to retransmit.  One step of `ofp_tcp_output` with SACK (src/ofp_tcp_output.c:236-279,
1007-1009, 1297-1304): ask for the next hole, send `len` bytes of it, `ok` tells whether the packet
could be sent (otherwise `rxmit` is set back). -/
def sendHole (s : Tcb) (len : Nat) (ok : Bool) : Tcb :=
  match (output s).2.1 with
  | none => (output s).1
  | some h => if ok then rexmit (output s).1 h.id len else (output s).1

/-- What the peer has reported: `seen` are the bytes it selectively acknowledged (and `una` has not
passed), since the scoreboard was last empty; `clean`: no hole allocation failed and no processed
acknowledgement was absurdly old. -/
structure Ghost where
  seen : BitVec 32 → Prop
  clean : Prop

/-- Effect of an acknowledgement on what the peer has reported. -/
def seenAck (R : Ghost) (s s' : Tcb) (w : BitVec 32) (sackOpt : Bool) (sacks : List Blk) : Ghost where
  seen := fun x => s'.holes ≠ [] ∧ InR s'.una s'.max x ∧
    (R.seen x ∨ (seqGT w s.max = false ∧ sackOpt = true ∧ ∃ b ∈ sacks, Believable s.una s.max w b ∧
      InR b.start b.stop x))
  clean := R.clean ∧ (seqGT w s.max = true ∨ (s'.ctl.fails = s.ctl.fails ∧ Recent s.una s.max w))

/-- Every history of a connection: it starts with nothing outstanding and an empty scoreboard; it
sends (keeping less than 2^31 bytes outstanding), receives acknowledgements with arbitrary numbers
and SACK blocks, retransmits from holes, and drops the scoreboard. -/
inductive Reach : Tcb → Ghost → Prop
  | start (iss fack : BitVec 32) : Reach ⟨iss, iss, fack, [], ⟨0, none, 0, 0, 0⟩⟩
      ⟨fun _ => False, True⟩
  | send {s : Tcb} {R : Ghost} (n : Nat) : Reach s R → off s.una s.max + n < 2 ^ 31 →
      Reach { s with
        max := s.max + BitVec.ofNat 32 n } R
  | ack {s : Tcb} {R : Ghost} (E : Env) (w : BitVec 32) (sackOpt : Bool) (sacks : List Blk) :
      Reach s R → Reach (ackIn E s w sackOpt sacks)
        (seenAck R s (ackIn E s w sackOpt sacks) w sackOpt sacks)
  | rexmit {s : Tcb} {R : Ghost} (len : Nat) (ok : Bool) : Reach s R →
      (∀ h, (output s).2.1 = some h → len ≤ off h.rxmit h.stop) → Reach (sendHole s len ok) R
  | clear {s : Tcb} {R : Ghost} : Reach s R → Reach (freeHoles s) { R with
      seen := fun _ => False }

theorem inv_send {s : Tcb} (I : Inv s) {n : Nat} (h : off s.una s.max + n < 2 ^ 31) :
    Inv { s with
      max := s.max + BitVec.ofNat 32 n } := by
  have e : off s.una (s.max + BitVec.ofNat 32 n) = off s.una s.max + n :=
    off_add (M := off s.una s.max + n) h (Nat.le_refl _)
  exact ⟨by show off s.una _ < _; rw [e]; exact h, I.ok, fun hh => by
    show off s.una s.fack ≤ off s.una _
    rw [e]; have := I.fack hh; omega⟩

theorem freeLoop_nil (l : List Hole) : ∀ c : Ctl, (l.map Hole.id).Nodup → HintOk l c.hint →
    (freeLoop l c).hint = none ∧ (freeLoop l c).num = c.num - l.length := by
  induction l with
  | nil => intro c _ h; exact ⟨h, by simp [freeLoop]⟩
  | cons a t ih =>
    intro c hn h
    have hr := hint_rem (A := []) hn h
    simp only [List.nil_append] at hr
    obtain ⟨i1, i2⟩ := ih (hintRem c a.id t) (by simp at hn; exact hn.2) hr
    refine ⟨i1, ?_⟩
    simp only [freeLoop]
    rw [i2]
    simp only [hintRem, List.length_cons]
    omega

theorem inv_free {s : Tcb} (I : Inv s) : Inv (freeHoles s) := by
  obtain ⟨h1, h2⟩ := freeLoop_nil s.holes s.ctl I.ok.ids I.ok.hint
  refine ⟨I.win, ⟨by simp [freeHoles], List.Pairwise.nil, ?_, rfl, List.nodup_nil,
    by simp [freeHoles], h1⟩, fun h => absurd rfl h⟩
  show (freeLoop s.holes s.ctl).num = 0
  rw [h2, I.ok.num]; omega

/-- The new `snd_una` never passes `snd_max`; holes are shifted to the new base. -/
theorem inv_una {s : Tcb} {w : BitVec 32} (hm : off s.una s.max < 2 ^ 31)
    (ok : Ok s.una (off s.una s.fack) s.holes s.ctl)
    (hf : s.holes ≠ [] → off s.una s.fack ≤ off s.una s.max)
    (hw : off s.una w ≤ off s.una s.max) (hst : ∀ h ∈ s.holes, off s.una w ≤ off s.una h.start) :
    Inv { s with
      una := w } := by
  have hsh : ∀ x, off s.una w ≤ off s.una x → off w x = off s.una x - off s.una w := fun x h => off_shift h
  have hfk : s.holes ≠ [] → off s.una w ≤ off s.una s.fack := by
    intro hne
    obtain ⟨c, t, hct⟩ := List.exists_cons_of_ne_nil hne
    have hm : c ∈ s.holes := by rw [hct]; simp
    have := hst c hm; have := (ok.hole c hm).ne; have := (ok.hole c hm).top
    omega
  refine ⟨by show off w s.max < _; rw [hsh _ hw]; omega, ?_, fun hne => ?_⟩
  · show Ok w (off w s.fack) s.holes s.ctl
    refine ⟨?_, ?_, ok.num, ?_, ok.ids, ok.fresh, ok.hint⟩
    · intro h hh
      have hne : s.holes ≠ [] := fun hc => by rw [hc] at hh; simp at hh
      have o := ok.hole h hh
      have := o.ne; have := o.lo; have := o.hi; have := o.top; have := hst h hh; have := hfk hne
      refine ⟨?_, ?_, ?_, ?_⟩
      · rw [hsh _ (by omega), hsh _ (by omega)]; omega
      · rw [hsh _ (by omega), hsh _ (by omega)]; omega
      · rw [hsh _ (by omega), hsh _ (by omega)]; omega
      · rw [hsh _ (by omega), hsh _ (by omega)]; omega
    · refine List.Pairwise.imp_of_mem ?_ ok.ord
      intro a b ha hb hab
      have := hst a ha; have := hst b hb; have := (ok.hole a ha).ne
      rw [hsh _ (by omega), hsh _ (by omega)]; omega
    · rw [ok.bytes]
      congr 1
      apply List.map_congr_left
      intro h hh
      have o := ok.hole h hh
      have := o.lo; have := hst h hh
      unfold rx
      rw [hsh _ (by omega), hsh _ (by omega)]
      omega
  · show off w s.fack ≤ off w s.max
    rw [hsh _ (hfk hne), hsh _ hw]
    have := hf hne
    omega

/-- State after the scoreboard update, before `snd_una` moves. -/
def mid (E : Env) (s : Tcb) (w : BitVec 32) (sackOpt : Bool) (sacks : List Blk) : Tcb :=
  doack E s w (if sackOpt then sacks else [])

theorem ackIn_eq (E : Env) (s : Tcb) {w : BitVec 32} (hw : seqGT w s.max = false) (sackOpt : Bool)
    (sacks : List Blk) : ackIn E s w sackOpt sacks =
      if seqLEQ w s.una then mid E s w sackOpt sacks else { mid E s w sackOpt sacks with
        una := w } := by
  unfold ackIn mid
  rw [if_neg (by rw [hw]; simp)]
  by_cases h : (sackOpt || !s.holes.isEmpty) = true
  · simp only [h, if_true]
  · simp only [h, Bool.false_eq_true, if_false]
    have h' : sackOpt = false ∧ s.holes = [] := by simpa using h
    have e : doack E s w (if sackOpt = true then sacks else []) = s := by
      apply doack_none
      simp [collect, h'.1, h'.2]
    rw [e]

/-- Facts about the state after the update, in both cases (blocks or none). -/
structure MidPost (s : Tcb) (w : BitVec 32) (sackOpt : Bool) (sacks : List Blk) (E : Env) (s' : Tcb) :
    Prop where
  una : s'.una = s.una
  max : s'.max = s.max
  ok : Ok s.una (off s.una s'.fack) s'.holes s'.ctl
  fack : s'.holes ≠ [] → off s.una s'.fack ≤ off s.una s.max
  fails : s.ctl.fails ≤ s'.ctl.fails
  limit : s.ctl.num ≤ E.limit → s'.ctl.num ≤ E.limit
  acked : 0 < off s.una w → off s.una w ≤ off s.una s.max →
    ∀ h ∈ s'.holes, off s.una w ≤ off s.una h.start

theorem mid_post (E : Env) {s : Tcb} (I : Inv s) {w : BitVec 32} (hw : seqGT w s.max = false)
    (sackOpt : Bool) (sacks : List Blk) : MidPost s w sackOpt sacks E (mid E s w sackOpt sacks) := by
  unfold mid
  generalize (if sackOpt = true then sacks else []) = S
  by_cases hne : collect s w S = []
  · rw [doack_none hne]
    refine ⟨rfl, rfl, I.ok, I.fack, Nat.le_refl _, fun h => h, ?_⟩
    intro h1 h2 h hh
    exfalso
    have hl : s.holes.isEmpty = false := by
      cases hs : s.holes with
      | nil => rw [hs] at hh; simp at hh
      | cons => rfl
    have hlt : seqLT s.una w = true := una_lt.mpr ⟨h1, by have := I.win; omega⟩
    rw [collect, hl, hlt] at hne
    simp at hne
  · obtain ⟨hb, P⟩ := doack_post E I hw hne
    refine ⟨P.una, P.max, P.ok, fun _ => P.fack, P.fails, P.limit, ?_⟩
    intro h1 h2 h hh
    have o := P.ok.hole h hh
    have o1 := o.ne
    by_cases he : s.holes = []
    · -- the only holes are above the base
      have hb : base s w = w := by
        unfold base; rw [he]; simp [h2]
      have hx : InR h.start h.stop h.start := by
        rw [inR_iff (u := s.una) (Nat.le_of_lt o1)]; omega
      rcases P.old h.start ⟨h, hh, hx⟩ with ⟨h', hm', _⟩ | hin
      · rw [he] at hm'; simp at hm'
      · rw [hb] at hin
        have hmono := P.mono
        rw [hb] at hmono
        exact ((inR_iff (u := s.una) hmono).mp hin).1
    · by_contra hc
      have hlt : seqLT s.una w = true := una_lt.mpr ⟨h1, by have := I.win; omega⟩
      have hl : s.holes.isEmpty = false := by
        cases hs : s.holes with
        | nil => exact absurd hs he
        | cons => rfl
      have hmem : (⟨s.una, w⟩ : Blk) ∈ collect s w S := by
        unfold collect; rw [hl, hlt]; simp
      have hx : InR h.start h.stop h.start := by
        rw [inR_iff (u := s.una) (Nat.le_of_lt o1)]; omega
      refine P.gone _ hmem (Or.inr (off_self _)) h.start ?_ ⟨h, hh, hx⟩
      show off s.una h.start < off s.una w
      omega

theorem inv_ack (E : Env) {s : Tcb} (I : Inv s) (w : BitVec 32) (sackOpt : Bool) (sacks : List Blk) :
    Inv (ackIn E s w sackOpt sacks) := by
  by_cases hw : seqGT w s.max = true
  · unfold ackIn; rw [if_pos hw]; exact I
  · have hw' : seqGT w s.max = false := by simpa using hw
    rw [ackIn_eq E s hw']
    have P := mid_post E I hw' sackOpt sacks
    generalize mid E s w sackOpt sacks = s1 at *
    have hm1 : off s1.una s1.max < 2 ^ 31 := by rw [P.una, P.max]; exact I.win
    have ok1 : Ok s1.una (off s1.una s1.fack) s1.holes s1.ctl := by rw [P.una]; exact P.ok
    have f1 : s1.holes ≠ [] → off s1.una s1.fack ≤ off s1.una s1.max := by
      rw [P.una, P.max]; exact P.fack
    by_cases hle : seqLEQ w s.una = true
    · rw [if_pos hle]
      exact ⟨hm1, ok1, f1⟩
    · rw [if_neg hle]
      rw [leq_una] at hle
      have h2 := not_gt_max I.win hw'
      have h3 : 0 < off s.una w ∧ off s.una w ≤ off s.una s.max := by omega
      exact inv_una hm1 ok1 f1 (by rw [P.una, P.max]; exact h3.2)
        (by rw [P.una]; exact P.acked h3.1 h3.2)

/-! ## Picking the next hole -/

theorem not_full_iff {u : BitVec 32} {F M : Nat} (hM : M < 2 ^ 31) (hF : F ≤ M) {h : Hole}
    (o : HoleOk u F h) : seqLT h.rxmit h.stop = true ↔ ¬ full h := by
  have := o.ne; have := o.lo; have := o.hi; have := o.top
  rw [lt_iff (u := u) hM (by omega) (by omega)]
  unfold full
  constructor
  · intro h1 h2; rw [h2] at h1; omega
  · intro h1
    have : off u h.rxmit ≠ off u h.stop := fun e => h1 (off_inj e)
    omega

theorem nextHole_eq {u : BitVec 32} {F M : Nat} (hM : M < 2 ^ 31) (hF : F ≤ M) (l : List Hole)
    (ho : ∀ h ∈ l, HoleOk u F h) (hn : (l.map Hole.id).Nodup) (o : Option Nat) (hh : HintOk l o) :
    nextHole l o = l.find? fun h => seqLT h.rxmit h.stop := by
  induction l with
  | nil => cases o <;> rfl
  | cons a t ih =>
    have hna := not_full_iff hM hF (ho a (by simp))
    rcases hh with h | ⟨hf, h⟩
    · rw [h]; simp [nextHole]
    · have hfa : seqLT a.rxmit a.stop = false := by
        by_contra hc
        exact hna.mp (by simpa using hc) hf
      rw [List.find?_cons, hfa]
      simp only [List.map_cons, List.nodup_cons] at hn
      have := ih (fun x hx => ho x (by simp [hx])) hn.2 h
      rw [← this]
      cases o with
      | none => rfl
      | some i =>
        obtain ⟨y, hy, rfl⟩ := hint_mem h
        have : a.id ≠ y.id := fun e => hn.1 (e ▸ List.mem_map_of_mem hy)
        simp only [nextHole]
        rw [List.dropWhile_cons]
        simp [this]

theorem hint_found (l : List Hole) (hn : (l.map Hole.id).Nodup) {p : Hole → Bool}
    (hp : ∀ h ∈ l, p h = false → full h) {h : Hole} (hf : l.find? p = some h) :
    HintOk l (some h.id) := by
  induction l with
  | nil => simp at hf
  | cons a t ih =>
    rw [List.find?_cons] at hf
    by_cases hpa : p a = true
    · rw [hpa] at hf
      simp only [Option.some.injEq] at hf
      exact Or.inl (by rw [hf])
    · have hpa' : p a = false := by simpa using hpa
      rw [hpa'] at hf
      simp only [List.map_cons, List.nodup_cons] at hn
      exact Or.inr ⟨hp a (by simp) hpa', ih hn.2 (fun x hx => hp x (by simp [hx])) hf⟩

theorem inv_output {s : Tcb} (I : Inv s) : Inv (output s).1 ∧
    (output s).2.1 = s.holes.find? (fun h => seqLT h.rxmit h.stop) ∧ (output s).1.holes = s.holes ∧
    (output s).1.una = s.una ∧ (output s).1.max = s.max ∧ (output s).1.fack = s.fack ∧
    (output s).1.ctl.fails = s.ctl.fails ∧ (output s).1.ctl.bytes = s.ctl.bytes ∧
    (output s).2.2 = s.ctl.bytes := by
  by_cases hne : s.holes = []
  · have hn : nextHole s.holes s.ctl.hint = none := by
      rw [hne]; cases s.ctl.hint <;> rfl
    unfold output
    rw [hn]
    exact ⟨I, by rw [hne]; rfl, rfl, rfl, rfl, rfl, rfl, rfl, rfl⟩
  · have hF := I.fack hne
    have e := nextHole_eq I.win hF s.holes I.ok.hole I.ok.ids _ I.ok.hint
    unfold output
    rw [e]
    cases hc : s.holes.find? (fun h => seqLT h.rxmit h.stop) with
    | none => exact ⟨I, rfl, rfl, rfl, rfl, rfl, rfl, rfl, rfl⟩
    | some h =>
      refine ⟨⟨I.win, ⟨I.ok.hole, I.ok.ord, I.ok.num, I.ok.bytes, I.ok.ids, I.ok.fresh, ?_⟩, I.fack⟩,
        rfl, rfl, rfl, rfl, rfl, rfl, rfl, rfl⟩
      refine hint_found s.holes I.ok.ids ?_ hc
      intro x hx hp
      by_contra hnf
      rw [(not_full_iff I.win hF (I.ok.hole x hx)).mpr hnf] at hp
      exact absurd hp (by simp)

theorem map_update {l : List Hole} {h : Hole} {f : Hole → Hole} (hn : (l.map Hole.id).Nodup)
    (hm : h ∈ l) : ∃ A B, l = A ++ h :: B ∧
      (l.map fun x => if x.id = h.id then f x else x) = A ++ f h :: B := by
  obtain ⟨A, B, rfl⟩ := List.append_of_mem hm
  refine ⟨A, B, rfl, ?_⟩
  obtain ⟨_, n2⟩ := nodup_mid.mp hn
  rw [List.map_append, List.map_cons, if_pos rfl]
  congr 1
  · conv => rhs; rw [← List.map_id A]
    apply List.map_congr_left
    intro x hx
    rw [if_neg (n2 x (by simp [hx]))]; rfl
  · congr 1
    conv => rhs; rw [← List.map_id B]
    apply List.map_congr_left
    intro x hx
    rw [if_neg (n2 x (by simp [hx]))]; rfl

theorem inv_rexmit {s : Tcb} (I : Inv s) {h : Hole} (hm : h ∈ s.holes)
    (hid : s.ctl.hint = some h.id) {len : Nat} (hl : len ≤ off h.rxmit h.stop) :
    Inv (rexmit s h.id len) ∧ ∀ x, InHoles (rexmit s h.id len).holes x ↔ InHoles s.holes x := by
  have hne : s.holes ≠ [] := fun hc => by rw [hc] at hm; simp at hm
  have hF := I.fack hne
  have o := I.ok.hole h hm
  have o1 := o.ne; have o2 := o.lo; have o3 := o.hi; have o4 := o.top
  rw [off_shift (u := s.una) o3] at hl
  have e1 : off s.una (h.rxmit + BitVec.ofNat 32 len) = off s.una h.rxmit + len :=
    off_add (M := off s.una s.max) I.win (by omega)
  obtain ⟨A, B, hAB, hmap⟩ := map_update (f := fun x => { x with
    rxmit := x.rxmit + BitVec.ofNat 32 len }) I.ok.ids hm
  have ok := I.ok
  rw [hAB] at ok
  have o' : HoleOk s.una (off s.una s.fack) { h with
      rxmit := h.rxmit + BitVec.ofNat 32 len } := by
    refine ⟨o1, ?_, ?_, o4⟩
    · show off s.una h.start ≤ off s.una (h.rxmit + _); omega
    · show off s.una (h.rxmit + _) ≤ off s.una h.stop; omega
  have hf : full h → full { h with
      rxmit := h.rxmit + BitVec.ofNat 32 len } := by
    intro hf
    show h.rxmit + BitVec.ofNat 32 len = h.stop
    apply off_inj (u := s.una)
    have : h.rxmit = h.stop := hf
    rw [this] at e1 hl ⊢
    omega
  have R := ok_repl (x' := { h with
      rxmit := h.rxmit + BitVec.ofNat 32 len }) I.win hF ok rfl o' (Nat.le_refl _) (Nat.le_refl _) hf
  constructor
  · refine ⟨I.win, ?_, fun _ => hF⟩
    show Ok s.una (off s.una s.fack) (s.holes.map _) _
    rw [hmap]
    refine ok_ctl R rfl rfl ?_ (Nat.le_refl _)
    show s.ctl.bytes + (len : Int) = s.ctl.bytes - rex h + rex _
    rw [rex_eq I.win hF o, rex_eq I.win hF o']
    show _ = _ - ((off s.una h.rxmit : Int) - off s.una h.start) +
      ((off s.una (h.rxmit + BitVec.ofNat 32 len) : Int) - off s.una h.start)
    rw [e1]
    omega
  · intro x
    show InHoles (s.holes.map _) x ↔ _
    rw [hmap, hAB, inHoles_mid, inHoles_mid]

theorem inv_sendHole {s : Tcb} (I : Inv s) {len : Nat} (ok : Bool)
    (hl : ∀ h, (output s).2.1 = some h → len ≤ off h.rxmit h.stop) : Inv (sendHole s len ok) ∧
    (∀ x, InHoles (sendHole s len ok).holes x ↔ InHoles s.holes x) ∧
    ((sendHole s len ok).holes = [] ↔ s.holes = []) ∧
    (sendHole s len ok).una = s.una ∧ (sendHole s len ok).max = s.max ∧
    (sendHole s len ok).fack = s.fack ∧ (sendHole s len ok).ctl.fails = s.ctl.fails := by
  obtain ⟨P1, P2, P3, P4, P5, P6, P7, P8, P9⟩ := inv_output I
  unfold sendHole
  cases hc : (output s).2.1 with
  | none => exact ⟨P1, fun x => by rw [P3], by rw [P3], P4, P5, P6, P7⟩
  | some h =>
    cases ok with
    | false => exact ⟨P1, fun x => by simp [P3], by simp [P3], P4, P5, P6, P7⟩
    | true =>
      simp only [if_true]
      rw [hc] at P2
      have hm : h ∈ s.holes := List.mem_of_find?_eq_some P2.symm
      have hhint : (output s).1.ctl.hint = some h.id := by
        unfold output at hc ⊢
        cases hn : nextHole s.holes s.ctl.hint with
        | none => rw [hn] at hc; simp at hc
        | some h' => rw [hn] at hc; simp at hc; simp [hc]
      obtain ⟨Q1, Q2⟩ := inv_rexmit P1 (h := h) (by rw [P3]; exact hm) hhint (hl h hc)
      refine ⟨Q1, fun x => by rw [Q2 x, P3], ?_, P4, P5, P6, P7⟩
      show (output s).1.holes.map _ = [] ↔ _
      rw [List.map_eq_nil_iff, P3]

theorem reach_inv {s : Tcb} {R : Ghost} (h : Reach s R) : Inv s := by
  induction h with
  | start iss fack =>
    refine ⟨by show off iss iss < _; rw [off_self]; decide, ⟨by simp, List.Pairwise.nil, rfl, rfl, List.nodup_nil, by simp, rfl⟩,
      fun h => absurd rfl h⟩
  | send n _ hn ih => exact inv_send ih hn
  | ack E w o S _ ih => exact inv_ack E ih w o S
  | rexmit len ok _ hl ih => exact (inv_sendHole ih ok hl).1
  | clear _ ih => exact inv_free ih

end Verif.Sack

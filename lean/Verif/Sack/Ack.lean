import Verif.Sack.Sweep
/-! # `ofp_tcp_sack_doack`: sorting, acceptance of blocks, and the whole function -/
namespace Verif.Sack
open Verif.Tcp

variable {u : BitVec 32} {M : Nat}

theorem mem_tw {α : Type} {p : α → Bool} {l : List α} {x : α} (h : x ∈ l.takeWhile p) :
    p x = true := by
  induction l with
  | nil => simp at h
  | cons a t ih =>
    rw [List.takeWhile_cons] at h
    by_cases hp : p a = true
    · rw [if_pos hp] at h
      rcases List.mem_cons.mp h with rfl | h
      · exact hp
      · exact ih h
    · rw [if_neg hp] at h; simp at h

theorem pass_perm (x : Blk) (l : List Blk) : List.Perm ((pass x l).1 :: (pass x l).2) (x :: l) := by
  induction l generalizing x with
  | nil => exact List.Perm.refl _
  | cons y r ih =>
    unfold pass
    by_cases h : seqGT x.stop y.stop = true
    · rw [if_pos h]
      exact (List.Perm.swap _ _ _).trans ((ih y).cons x)
    · rw [if_neg h]
      exact (List.Perm.swap _ _ _).trans (((ih x).cons y).trans (List.Perm.swap _ _ _))

theorem exsort_perm (n : Nat) (l : List Blk) : List.Perm (exsort n l) l := by
  induction n generalizing l with
  | zero => exact List.Perm.refl _
  | succ n ih =>
    cases l with
    | nil => exact List.Perm.refl _
    | cons x r =>
      unfold exsort
      exact ((ih _).cons _).trans (pass_perm x r)

theorem pass_le (hM : M < 2 ^ 31) (x : Blk) (l : List Blk) (hx : off u x.stop ≤ M)
    (hl : ∀ b ∈ l, off u b.stop ≤ M) :
    off u (pass x l).1.stop ≤ off u x.stop ∧ ∀ b ∈ (pass x l).2, off u (pass x l).1.stop ≤ off u b.stop := by
  induction l generalizing x with
  | nil => exact ⟨Nat.le_refl _, by simp [pass]⟩
  | cons y r ih =>
    have hy := hl y (by simp)
    have hr : ∀ b ∈ r, off u b.stop ≤ M := fun b h => hl b (by simp [h])
    have g := gt_iff hM hx hy
    unfold pass
    by_cases h : seqGT x.stop y.stop = true
    · rw [if_pos h]
      obtain ⟨i1, i2⟩ := ih y hy hr
      rw [g] at h
      refine ⟨by show off u (pass y r).1.stop ≤ _; omega, ?_⟩
      intro b hb
      rcases List.mem_cons.mp hb with rfl | hb
      · show off u (pass y r).1.stop ≤ _; omega
      · exact i2 b hb
    · rw [if_neg h]
      obtain ⟨i1, i2⟩ := ih x hx hr
      rw [g] at h
      refine ⟨i1, ?_⟩
      intro b hb
      rcases List.mem_cons.mp hb with rfl | hb
      · show off u (pass x r).1.stop ≤ _; omega
      · exact i2 b hb

theorem exsort_sorted (hM : M < 2 ^ 31) (n : Nat) (l : List Blk) (hn : l.length ≤ n)
    (hl : ∀ b ∈ l, off u b.stop ≤ M) :
    (exsort n l).Pairwise fun a b => off u a.stop ≤ off u b.stop := by
  induction n generalizing l with
  | zero =>
    have : l = [] := List.length_eq_zero_iff.mp (by omega)
    rw [this]; exact List.Pairwise.nil
  | succ n ih =>
    cases l with
    | nil => exact List.Pairwise.nil
    | cons x r =>
      unfold exsort
      have hp := pass_perm x r
      have hlen : (pass x r).2.length = r.length := by
        have := hp.length_eq; simpa using this
      have hm : ∀ b ∈ (pass x r).2, off u b.stop ≤ M := fun b hb =>
        hl b (hp.subset (by simp [hb]))
      rw [List.pairwise_cons]
      refine ⟨?_, ih _ (by simp at hn; omega) hm⟩
      intro b hb
      have hb' := (exsort_perm n _).subset hb
      exact (pass_le hM x r (hl x (by simp)) fun b h => hl b (by simp [h])).2 b hb'

/-! ## Differences with one end out of the window -/

theorem diff_cases (u x : BitVec 32) : (off u x < 2 ^ 31 ∧ diff x u = off u x) ∨
    (2 ^ 31 ≤ off u x ∧ diff x u = (off u x : Int) - 2 ^ 32) := by
  unfold diff off
  rw [BitVec.toInt_eq_toNat_cond]
  split
  · left; exact ⟨by omega, rfl⟩
  · right; exact ⟨by omega, rfl⟩

theorem off_swap {a b : BitVec 32} (h : off a b ≠ 0) : off b a = 2 ^ 32 - off a b := by
  unfold off at *
  simp only [BitVec.toNat_sub] at *
  have := a.isLt; have := b.isLt
  omega

theorem gt_una {u x : BitVec 32} : seqGT x u = true ↔ 0 < off u x ∧ off u x < 2 ^ 31 := by
  unfold seqGT
  have := off_lt u x
  rcases diff_cases u x with ⟨h1, h2⟩ | ⟨h1, h2⟩ <;> rw [h2] <;> simp only [decide_eq_true_eq] <;> omega

theorem leq_una {u x : BitVec 32} : seqLEQ x u = true ↔ off u x = 0 ∨ 2 ^ 31 ≤ off u x := by
  unfold seqLEQ
  have := off_lt u x
  rcases diff_cases u x with ⟨h1, h2⟩ | ⟨h1, h2⟩ <;> rw [h2] <;> simp only [decide_eq_true_eq] <;> omega

theorem una_lt {u x : BitVec 32} : seqLT u x = true ↔ 0 < off u x ∧ off u x ≤ 2 ^ 31 := by
  unfold seqLT
  have h0 := off_lt u x
  by_cases hz : off u x = 0
  · have : x = u := off_inj (u := u) (by rw [hz, off_self])
    subst this
    simp [diff, off_self]
  · have hs := off_swap hz
    rcases diff_cases x u with ⟨h1, h2⟩ | ⟨h1, h2⟩ <;> rw [h2] <;> simp only [decide_eq_true_eq] <;> omega

/-- Not beyond `max`, seen from `u`. -/
theorem not_gt_max {u m w : BitVec 32} (hm : off u m < 2 ^ 31) (h : seqGT w m = false) :
    off u w ≤ off u m ∨ off u m + 2 ^ 31 ≤ off u w := by
  by_contra hc
  have hc1 : ¬ off u w ≤ off u m := fun h => hc (Or.inl h)
  have hc2 : ¬ off u m + 2 ^ 31 ≤ off u w := fun h => hc (Or.inr h)
  have h1 : off m w = off u w - off u m := off_shift (by omega)
  have : seqGT w m = true := gt_una.mpr (by omega)
  rw [h] at this; exact absurd this (by simp)

/-! ## Acceptance of SACK blocks -/

theorem accept_sound {una max w : BitVec 32} {b : Blk} (hm : off una max < 2 ^ 31)
    (h : accept una max w b = true) : Believable una max w b := by
  unfold accept at h
  simp only [Bool.and_eq_true] at h
  obtain ⟨⟨⟨⟨⟨a1, a2⟩, a3⟩, a4⟩, a5⟩, a6⟩ := h
  have a2' := gt_una.mp a2
  have a5' := gt_una.mp a5
  have hle : seqGT b.stop max = false := by
    have := (seq_laws b.stop max).2.1
    rw [this, a6]; rfl
  have s2 := not_gt_max (u := una) hm hle
  have hstop : off una b.stop ≤ off una max := by omega
  have hs : off una b.start < off una b.stop := by
    have M1 : (2 ^ 31 - 1 : Nat) < 2 ^ 31 := by decide
    exact (gt_iff (u := una) M1 (by omega) (by omega)).mp a1
  refine ⟨hs, hstop, a2'.1, fun hw => ?_⟩
  exact (gt_iff (u := una) hm (by omega) hw).mp a3

/-- The acknowledgement number is not so old that it looks new when compared with the newest
data: at most 2^31 behind the highest sequence number sent. -/
def Recent (una max w : BitVec 32) : Prop :=
  off una w ≤ off una max ∨ off w max < 2 ^ 31

theorem accept_complete {una max w : BitVec 32} {b : Blk} (hm : off una max < 2 ^ 31)
    (hw : Recent una max w) (h : Believable una max w b) : accept una max w b = true := by
  obtain ⟨h1, h2, h3, h4⟩ := h
  unfold accept
  simp only [Bool.and_eq_true]
  refine ⟨⟨⟨⟨⟨?_, ?_⟩, ?_⟩, ?_⟩, ?_⟩, ?_⟩
  · exact (gt_iff (u := una) hm (by omega) (by omega)).mpr h1
  · exact gt_una.mpr (by omega)
  · by_cases hwm : off una w ≤ off una max
    · exact (gt_iff (u := una) hm (by omega) (by omega)).mpr (h4 hwm)
    · have hw' : off w max < 2 ^ 31 := by
        rcases hw with h | h
        · exact absurd h hwm
        · exact h
      have e1 : off w max = off una max + 2 ^ 32 - off una w := off_shift_below (by omega)
      have e2 : off w b.start = off una b.start + 2 ^ 32 - off una w := off_shift_below (by omega)
      have := off_lt una w
      exact gt_una.mpr (by omega)
  · exact (lt_iff (u := una) hm (by omega) (by omega)).mpr (by omega)
  · exact gt_una.mpr (by omega)
  · exact (leq_iff (u := una) hm (by omega) (by omega)).mpr h2

/-! ## The invariant of a connection -/

/-- Scoreboard invariant of a connection. -/
structure Inv (s : Tcb) : Prop where
  win : off s.una s.max < 2 ^ 31
  ok : Ok s.una (off s.una s.fack) s.holes s.ctl
  fack : s.holes ≠ [] → off s.una s.fack ≤ off s.una s.max

theorem ok_nil {F F' : Nat} {c : Ctl} {v : BitVec 32} (ok : Ok u F [] c) : Ok v F' [] c :=
  ⟨by simp, List.Pairwise.nil, ok.num, ok.bytes, ok.ids, by simp, ok.hint⟩

theorem ok_mono {F F' : Nat} {c : Ctl} {l : List Hole} (h : F ≤ F') (ok : Ok u F l c) :
    Ok u F' l c :=
  ⟨fun x hx => ⟨(ok.hole x hx).ne, (ok.hole x hx).lo, (ok.hole x hx).hi,
    Nat.lt_of_lt_of_le (ok.hole x hx).top h⟩, ok.ord, ok.num, ok.bytes, ok.ids, ok.fresh, ok.hint⟩

/-- The highest sequence number selectively acknowledged, `una` when nothing is. -/
def Tcb.high (s : Tcb) : BitVec 32 := if s.holes.isEmpty then s.una else s.fack

/-- What `doack` does: invariant, counters, and the exact set of bytes in the holes.
`B` are the blocks taken into account (with the cumulative acknowledgement). -/
structure AckPost (E : Env) (s : Tcb) (w : BitVec 32) (B : List Blk) (f0 : BitVec 32) (s' : Tcb) :
    Prop where
  una : s'.una = s.una
  max : s'.max = s.max
  ok : Ok s.una (off s.una s'.fack) s'.holes s'.ctl
  fack : off s.una s'.fack ≤ off s.una s.max
  mono : off s.una f0 ≤ off s.una s'.fack
  fails : s.ctl.fails ≤ s'.ctl.fails
  limit : s.ctl.num ≤ E.limit → s'.ctl.num ≤ E.limit
  old : ∀ x, InHoles s'.holes x → InHoles s.holes x ∨ InR f0 s'.fack x
  keep : ∀ x, InHoles s.holes x ∨ InR f0 s'.fack x → ¬ InBlks B x → InHoles s'.holes x
  gone : ∀ b ∈ B, (s'.ctl.fails = s.ctl.fails ∨ off s.una b.start = 0) →
    ∀ x, InR b.start b.stop x → ¬ InHoles s'.holes x
  top : s'.ctl.fails = s.ctl.fails → ∀ b ∈ B, off s.una b.stop ≤ off s.una s'.fack

theorem apply_ok (E : Env) {s : Tcb} (hm : off s.una s.max < 2 ^ 31) {f0 : BitVec 32}
    (w : BitVec 32) (ok : Ok s.una (off s.una f0) s.holes s.ctl)
    (hf : off s.una f0 ≤ off s.una s.max) (top : Blk) (rest : List Blk) (hb : ∀ b ∈ top :: rest, BlkOk s.una (off s.una s.max) b)
    (hs : (top :: rest).Pairwise fun a b => off s.una b.stop ≤ off s.una a.stop) :
    AckPost E s w (top :: rest) f0 (apply E s f0 (top :: rest)) := by
  obtain ⟨t1, t2⟩ := hb top (by simp)
  obtain ⟨hs1, hs2⟩ := List.pairwise_cons.mp hs
  have hsL := lt_iff (u := s.una) (x := f0) (y := top.start) hm hf (by omega)
  -- the common end: the remaining blocks `rem` are swept over
  have fin : ∀ (fk : BitVec 32) (hl : List Hole) (c : Ctl) (rem : List Blk),
      Ok s.una (off s.una fk) hl c → off s.una fk ≤ off s.una s.max → off s.una f0 ≤ off s.una fk →
      (∀ b ∈ rem, b ∈ top :: rest) → rem.Pairwise (fun a b => off s.una b.stop ≤ off s.una a.stop) →
      s.ctl.fails ≤ c.fails → (s.ctl.num ≤ E.limit → c.num ≤ E.limit) →
      (∀ x, InHoles hl x → InHoles s.holes x ∨ InR f0 fk x) →
      (∀ x, InHoles s.holes x ∨ InR f0 fk x → ¬ InBlks (top :: rest) x → InHoles hl x) →
      (∀ b ∈ top :: rest, b ∈ rem ∨ ((∀ x, InR b.start b.stop x → ¬ InHoles hl x) ∧
        (off s.una b.stop ≤ off s.una fk ∨ s.ctl.fails < c.fails))) →
      (∀ b ∈ rem, off s.una b.stop ≤ off s.una fk ∨ s.ctl.fails < c.fails) →
      AckPost E s w (top :: rest) f0 (finish E s fk hl c rem) := by
    intro fk hl c rem k1 k2 k3 k4 k5 k6 k7 k8 k9 k10 k11
    have Q := sweep_ok (F := off s.una fk) hm k2 E rem hl.reverse [] c
      (fun b h => hb b (k4 b h)) k5 (by simpa using k1) (by simp)
    simp only [List.reverse_reverse, List.append_nil] at Q
    obtain ⟨Q1, Q2, Q3, Q4, Q5, Q6⟩ := Q
    refine ⟨rfl, rfl, Q1, k2, k3, Nat.le_trans k6 Q2, fun h => Q3 (k7 h), ?_, ?_, ?_, ?_⟩
    · exact fun x hx => k8 x (Q4 x hx)
    · intro x hx hn
      refine Q5 x (k9 x hx hn) ?_
      rintro ⟨b, h1, h2⟩; exact hn ⟨b, k4 b h1, h2⟩
    · intro b hbm hcond x hx hin
      rcases k10 b hbm with h | h
      · refine Q6 b h ?_ x hx hin
        rcases hcond with hc | hc
        · left
          have hc' : (sweep E rem hl.reverse [] c).2.fails = s.ctl.fails := hc
          omega
        · exact Or.inr hc
      · exact h.1 x hx (Q4 x hin)
    · intro hc b hbm
      have hc' : (sweep E rem hl.reverse [] c).2.fails = s.ctl.fails := hc
      show off s.una b.stop ≤ off s.una fk
      rcases k10 b hbm with h | h
      · rcases k11 b h with h | h <;> omega
      · rcases h.2 with h | h <;> omega
  simp only [apply]
  by_cases c1 : seqLT f0 top.start = true
  · rw [if_pos c1]
    rw [hsL] at c1
    rcases alloc_cases E s.ctl f0 top.start with ⟨e1, e2⟩ | ⟨e1, e2, e3⟩
    · simp only [e1, e2]
      -- allocation failed
      have adv : ∀ rem : List Blk, (∀ b ∈ rem, b ∈ top :: rest) →
          (∀ b, rem.head? = some b → off s.una b.start ≤ off s.una f0) →
          off s.una (advance f0 rem) ≤ off s.una s.max ∧ off s.una f0 ≤ off s.una (advance f0 rem) ∧
          (∀ x, InR f0 (advance f0 rem) x → InBlks rem x) := by
        intro rem h1 h2
        cases rem with
        | nil => exact ⟨hf, Nat.le_refl _, fun x hx => absurd hx (by simp [advance, InR, off_self])⟩
        | cons b l =>
          obtain ⟨b1, b2⟩ := hb b (h1 b (by simp))
          have b3 := h2 b rfl
          have g := lt_iff (u := s.una) (x := f0) (y := b.stop) hm hf b2
          simp only [advance]
          by_cases hc : seqLT f0 b.stop = true
          · rw [if_pos hc]
            rw [g] at hc
            refine ⟨b2, by omega, fun x hx => ⟨b, by simp, ?_⟩⟩
            have := (inR_iff (u := s.una) (by omega)).mp hx
            exact (inR_iff (u := s.una) (by omega)).mpr (by omega)
          · rw [if_neg hc]
            exact ⟨hf, Nat.le_refl _, fun x hx => absurd hx (by simp [InR, off_self])⟩
      have hsub : ∀ b ∈ (top :: rest).dropWhile (fun b => seqLT f0 b.start), b ∈ top :: rest :=
        fun b h => (List.dropWhile_sublist _).subset h
      have hhead : ∀ b, ((top :: rest).dropWhile (fun b => seqLT f0 b.start)).head? = some b →
          off s.una b.start ≤ off s.una f0 := by
        intro b h
        have hbm := hsub b (List.mem_of_mem_head? (by rw [h]; rfl))
        obtain ⟨b1, b2⟩ := hb b hbm
        have hn : ¬ seqLT f0 b.start = true := by
          have := List.head?_dropWhile_not (fun b : Blk => seqLT f0 b.start) (top :: rest)
          rw [h] at this
          simpa using this
        rw [lt_iff (u := s.una) hm hf (by omega)] at hn
        omega
      obtain ⟨A1, A2, A3⟩ := adv _ hsub hhead
      refine fin _ s.holes _ _ (ok_mono A2 (ok_ctl ok rfl rfl rfl (Nat.le_succ _))) A1 A2 hsub
        (hs.sublist (List.dropWhile_sublist _)) (Nat.le_succ _) (fun h => h)
        (fun x h => Or.inl h) ?_ ?_ (fun b _ => Or.inr (Nat.lt_succ_self _))
      · intro x hx hn
        rcases hx with h | h
        · exact h
        · obtain ⟨b, h1, h2⟩ := A3 x h
          exact absurd ⟨b, hsub b h1, h2⟩ hn
      · intro b hbm
        by_cases hin : b ∈ (top :: rest).dropWhile (fun b => seqLT f0 b.start)
        · exact Or.inl hin
        · right
          obtain ⟨b1, b2⟩ := hb b hbm
          refine ⟨?_, Or.inr (Nat.lt_succ_self _)⟩
          have hlt : seqLT f0 b.start = true := by
            have hsp := List.takeWhile_append_dropWhile (p := fun b : Blk => seqLT f0 b.start)
              (l := top :: rest)
            rw [← hsp] at hbm
            rcases List.mem_append.mp hbm with h | h
            · exact mem_tw (p := fun b : Blk => seqLT f0 b.start) h
            · exact absurd h hin
          rw [lt_iff (u := s.una) hm hf (by omega)] at hlt
          rintro x hx ⟨h, hm', hx'⟩
          have hh := ok.hole h hm'
          have h1 := hh.ne; have h2 := hh.top
          have h3 := (inR_iff (u := s.una) (Nat.le_of_lt h1)).mp hx'
          have h4 := (inR_iff (u := s.una) (Nat.le_of_lt b1)).mp hx
          omega
    · simp only [e1, e2]
      -- new hole at the end
      have newOk : HoleOk s.una (off s.una top.stop) ⟨s.ctl.fresh, f0, top.start, f0⟩ :=
        ⟨c1, Nat.le_refl _, Nat.le_of_lt c1, t1⟩
      have hrx : rx s.una ⟨s.ctl.fresh, f0, top.start, f0⟩ = 0 := by simp [rx]
      refine fin top.stop (s.holes ++ [⟨s.ctl.fresh, f0, top.start, f0⟩])
        (hintIns { s.ctl with
          num := s.ctl.num + 1
          fresh := s.ctl.fresh + 1 } s.ctl.fresh) rest ?_ t2 (by omega)
        (fun b h => by simp [h]) hs2 (by exact Nat.le_refl s.ctl.fails) ?_ ?_ ?_ ?_ (fun b h => Or.inl (hs1 b h))
      · refine ⟨?_, ?_, ?_, ?_, ?_, ?_, hint_app ok.hint⟩
        · intro h hh
          rcases List.mem_append.mp hh with hh | hh
          · have := ok.hole h hh
            exact ⟨this.ne, this.lo, this.hi, by have := this.top; omega⟩
          · rw [List.mem_singleton.mp hh]; exact newOk
        · rw [List.pairwise_append]
          refine ⟨ok.ord, List.pairwise_singleton _ _, ?_⟩
          intro a ha b hb'
          rw [List.mem_singleton.mp hb']
          exact (ok.hole a ha).top
        · have := ok.num
          show s.ctl.num + 1 = _
          simp only [List.length_append, List.length_singleton]
          omega
        · show s.ctl.bytes = _
          rw [List.map_append, List.sum_append, ok.bytes]
          simp [hrx]
        · rw [List.map_append, List.nodup_append]
          refine ⟨ok.ids, by simp, ?_⟩
          intro i hi j hj
          obtain ⟨h, hh, rfl⟩ := List.mem_map.mp hi
          have := ok.fresh h hh
          simp at hj
          omega
        · intro h hh
          show h.id < s.ctl.fresh + 1
          rcases List.mem_append.mp hh with hh | hh
          · have := ok.fresh h hh; omega
          · rw [List.mem_singleton.mp hh]; exact Nat.lt_succ_self _
      · intro _; show s.ctl.num + 1 ≤ _; omega
      · intro x hx
        rcases inHoles_append.mp hx with h | h
        · exact Or.inl h
        · obtain ⟨h', hm', hx'⟩ := h
          rw [List.mem_singleton.mp hm'] at hx'
          right
          have := (inR_iff (u := s.una) (Nat.le_of_lt c1)).mp hx'
          exact (inR_iff (u := s.una) (by omega)).mpr (by omega)
      · intro x hx hn
        rcases hx with h | h
        · exact inHoles_append.mpr (Or.inl h)
        · have h1 := (inR_iff (u := s.una) (by omega)).mp h
          refine inHoles_append.mpr (Or.inr ⟨_, List.mem_singleton.mpr rfl, ?_⟩)
          refine (inR_iff (u := s.una) (Nat.le_of_lt c1)).mpr ⟨h1.1, ?_⟩
          by_contra hc
          exact hn ⟨top, by simp, (inR_iff (u := s.una) (Nat.le_of_lt t1)).mpr (by omega)⟩
      · intro b hbm
        rcases List.mem_cons.mp hbm with rfl | h
        · right
          refine ⟨?_, Or.inl (Nat.le_refl _)⟩
          intro x hx hin
          have h4 := (inR_iff (u := s.una) (Nat.le_of_lt t1)).mp hx
          obtain ⟨h, hm', hx'⟩ := hin
          rcases List.mem_append.mp hm' with hh | hh
          · have hok := ok.hole h hh
            have h1 := hok.ne; have h2 := hok.top
            have h3 := (inR_iff (u := s.una) (Nat.le_of_lt h1)).mp hx'
            omega
          · rw [List.mem_singleton.mp hh] at hx'
            have := (inR_iff (u := s.una) (Nat.le_of_lt c1)).mp hx'
            omega
        · exact Or.inl h
  · rw [if_neg c1]
    rw [hsL] at c1
    have g := lt_iff (u := s.una) (x := f0) (y := top.stop) hm hf t2
    have hadv : off s.una (advance f0 (top :: rest)) = max (off s.una f0) (off s.una top.stop) := by
      simp only [advance]
      by_cases hc : seqLT f0 top.stop = true
      · rw [if_pos hc]; rw [g] at hc; omega
      · rw [if_neg hc]; rw [g] at hc; omega
    refine fin _ s.holes s.ctl (top :: rest) (ok_mono (by omega) ok) (by omega) (by omega)
      (fun b h => h) hs (Nat.le_refl _) (fun h => h) (fun x h => Or.inl h) ?_
      (fun b h => Or.inl h) ?_
    · intro x hx hn
      rcases hx with h | h
      · exact h
      · refine absurd ⟨top, by simp, ?_⟩ hn
        have := (inR_iff (u := s.una) (by omega)).mp h
        exact (inR_iff (u := s.una) (Nat.le_of_lt t1)).mpr (by omega)
    · intro b hbm
      left
      rcases List.mem_cons.mp hbm with rfl | h
      · omega
      · have := hs1 b h; omega

end Verif.Sack

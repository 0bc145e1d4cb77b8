import Mathlib.Tactic.ByContra
import Verif.Sack.Model
/-! # Sequence arithmetic relative to a base, and list facts about holes -/
namespace Verif.Sack
open Verif.Tcp

theorem seqOf_off (u x : BitVec 32) : seqOf u (off u x) = x := by
  unfold seqOf off
  rw [BitVec.ofNat_toNat, BitVec.setWidth_eq, BitVec.add_comm, BitVec.sub_add_cancel]

theorem off_self (u : BitVec 32) : off u u = 0 := by simp [off]

theorem off_inj {u x y : BitVec 32} (h : off u x = off u y) : x = y := by
  rw [← seqOf_off u x, ← seqOf_off u y, h]

theorem off_lt (u x : BitVec 32) : off u x < 2 ^ 32 := (x - u).isLt

section cmp
variable {u x y : BitVec 32} {M : Nat}

theorem cmp_all (hM : M < 2 ^ 31) (hx : off u x ≤ M) (hy : off u y ≤ M) :
    (seqLT x y = decide (off u x < off u y)) ∧ (seqLEQ x y = decide (off u x ≤ off u y)) ∧
    (seqGT x y = decide (off u x > off u y)) ∧ (seqGEQ x y = decide (off u x ≥ off u y)) := by
  have h := seq_compare u (off u x) (off u y) (by omega) (by omega)
  simp only [seqOf_off] at h
  exact ⟨h.1, h.2.1, h.2.2.1, h.2.2.2.1⟩

theorem lt_iff (hM : M < 2 ^ 31) (hx : off u x ≤ M) (hy : off u y ≤ M) :
    seqLT x y = true ↔ off u x < off u y := by rw [(cmp_all hM hx hy).1]; simp
theorem leq_iff (hM : M < 2 ^ 31) (hx : off u x ≤ M) (hy : off u y ≤ M) :
    seqLEQ x y = true ↔ off u x ≤ off u y := by rw [(cmp_all hM hx hy).2.1]; simp
theorem gt_iff (hM : M < 2 ^ 31) (hx : off u x ≤ M) (hy : off u y ≤ M) :
    seqGT x y = true ↔ off u y < off u x := by rw [(cmp_all hM hx hy).2.2.1]; simp
theorem geq_iff (hM : M < 2 ^ 31) (hx : off u x ≤ M) (hy : off u y ≤ M) :
    seqGEQ x y = true ↔ off u y ≤ off u x := by rw [(cmp_all hM hx hy).2.2.2]; simp

theorem off_min (hM : M < 2 ^ 31) (hx : off u x ≤ M) (hy : off u y ≤ M) :
    off u (seqMin x y) = min (off u x) (off u y) := by
  unfold seqMin
  by_cases h : seqLT x y = true
  · rw [if_pos h]; have := (lt_iff hM hx hy).mp h; omega
  · rw [if_neg h]
    have : ¬ off u x < off u y := fun hh => h ((lt_iff hM hx hy).mpr hh)
    omega

theorem off_max (hM : M < 2 ^ 31) (hx : off u x ≤ M) (hy : off u y ≤ M) :
    off u (seqMax x y) = max (off u x) (off u y) := by
  unfold seqMax
  by_cases h : seqGT x y = true
  · rw [if_pos h]; have := (gt_iff hM hx hy).mp h; omega
  · rw [if_neg h]
    have : ¬ off u y < off u x := fun hh => h ((gt_iff hM hx hy).mpr hh)
    omega

theorem diff_off (hM : M < 2 ^ 31) (hx : off u x ≤ M) (hy : off u y ≤ M) :
    diff x y = (off u x : Int) - off u y := by
  have h := diff_eq u (off u x) (off u y) (by omega) (by omega)
  simpa only [seqOf_off] using h

end cmp

/-- Change of base. -/
theorem off_shift {u v x : BitVec 32} (h : off u v ≤ off u x) : off v x = off u x - off u v := by
  unfold off at *
  simp only [BitVec.toNat_sub] at *
  have := u.isLt; have := v.isLt; have := x.isLt
  omega

/-- Change of base for numbers below the new base. -/
theorem off_shift_below {u v x : BitVec 32} (h : off u x < off u v) :
    off v x = off u x + 2 ^ 32 - off u v := by
  unfold off at *
  simp only [BitVec.toNat_sub] at *
  have := u.isLt; have := v.isLt; have := x.isLt
  omega

/-- A circular range whose ends are in order relative to `u`. -/
theorem inR_iff {u a b x : BitVec 32} (h : off u a ≤ off u b) :
    InR a b x ↔ off u a ≤ off u x ∧ off u x < off u b := by
  unfold InR
  rw [off_shift h]
  by_cases hx : off u a ≤ off u x
  · rw [off_shift hx]; omega
  · rw [off_shift_below (u := u) (by omega)]
    have := off_lt u b
    omega

theorem off_add {u x : BitVec 32} {n M : Nat} (hM : M < 2 ^ 31) (h : off u x + n ≤ M) :
    off u (x + BitVec.ofNat 32 n) = off u x + n := by
  unfold off at *
  simp only [BitVec.toNat_sub, BitVec.toNat_add, BitVec.toNat_ofNat] at *
  have := u.isLt; have := x.isLt
  omega

/-! ## Lists of holes -/

/-- All bytes of the hole were retransmitted. -/
def full (h : Hole) : Prop := h.rxmit = h.stop

/-- The hint is the first hole of a suffix before which everything is retransmitted. -/
def HintOk : List Hole → Option Nat → Prop
  | [], o => o = none
  | h :: t, o => o = some h.id ∨ (full h ∧ HintOk t o)

/-- A hole is well formed relative to base `u`, below `F`. -/
structure HoleOk (u : BitVec 32) (F : Nat) (h : Hole) : Prop where
  ne : off u h.start < off u h.stop
  lo : off u h.start ≤ off u h.rxmit
  hi : off u h.rxmit ≤ off u h.stop
  top : off u h.stop < F

/-- Bytes of a hole already retransmitted. -/
def rx (u : BitVec 32) (h : Hole) : Int := (off u h.rxmit : Int) - off u h.start

/-- Scoreboard invariant: list of holes and counters. -/
structure Ok (u : BitVec 32) (F : Nat) (l : List Hole) (c : Ctl) : Prop where
  hole : ∀ h ∈ l, HoleOk u F h
  ord : l.Pairwise fun a b => off u a.stop < off u b.start
  num : c.num = l.length
  bytes : c.bytes = (l.map (rx u)).sum
  ids : (l.map Hole.id).Nodup
  fresh : ∀ h ∈ l, h.id < c.fresh
  hint : HintOk l c.hint

theorem hint_mem {l : List Hole} {i : Nat} (h : HintOk l (some i)) : ∃ x ∈ l, x.id = i := by
  induction l with
  | nil => simp [HintOk] at h
  | cons a t ih =>
    rcases h with h | ⟨_, h⟩
    · exact ⟨a, by simp, by simpa using h.symm⟩
    · obtain ⟨x, h1, h2⟩ := ih h; exact ⟨x, by simp [h1], h2⟩

theorem hint_none {l : List Hole} (h : HintOk l none) : ∀ x ∈ l, full x := by
  induction l with
  | nil => simp
  | cons a t ih =>
    rcases h with h | ⟨hf, h⟩
    · simp at h
    · intro x hx
      rcases List.mem_cons.mp hx with rfl | hx
      · exact hf
      · exact ih h x hx

theorem hint_head {l : List Hole} {a : Hole} : HintOk (a :: l) (some a.id) := Or.inl rfl

theorem hint_first (l : List Hole) : HintOk l (l.head?.map Hole.id) := by
  cases l with
  | nil => rfl
  | cons a t => exact Or.inl rfl

/-- Replace one hole by a changed one of the same name. -/
theorem hint_repl {A B : List Hole} {x x' : Hole} {o : Option Nat} (hid : x'.id = x.id)
    (hf : full x → full x') (h : HintOk (A ++ x :: B) o) : HintOk (A ++ x' :: B) o := by
  induction A with
  | nil =>
    rcases h with h | ⟨h1, h2⟩
    · exact Or.inl (by rw [hid]; exact h)
    · exact Or.inr ⟨hf h1, h2⟩
  | cons a A ih =>
    rcases h with h | ⟨h1, h2⟩
    · exact Or.inl h
    · exact Or.inr ⟨h1, ih h2⟩

/-- Remove a hole; the hint moves on if it was there. -/
theorem hint_rem {A B : List Hole} {x : Hole} {o : Option Nat}
    (hn : ((A ++ x :: B).map Hole.id).Nodup) (h : HintOk (A ++ x :: B) o) :
    HintOk (A ++ B) (if o = some x.id then B.head?.map Hole.id else o) := by
  induction A with
  | nil =>
    rcases h with h | ⟨h1, h2⟩
    · simp only [List.nil_append] at *
      rw [if_pos h]; exact hint_first B
    · simp only [List.nil_append] at *
      by_cases e : o = some x.id
      · rw [if_pos e]; exact hint_first B
      · rw [if_neg e]; exact h2
  | cons a A ih =>
    simp only [List.cons_append, List.map_cons, List.nodup_cons] at hn
    rcases h with h | ⟨h1, h2⟩
    · have : o ≠ some x.id := by
        rintro rfl
        simp only [Option.some.injEq] at h
        exact hn.1 (by rw [← h]; exact List.mem_map_of_mem (by simp))
      rw [if_neg this]; exact Or.inl h
    · exact Or.inr ⟨h1, ih hn.2 h2⟩

/-- Insert a hole behind another one. -/
theorem hint_ins {A B : List Hole} {x x' t : Hole} {o : Option Nat} (hid : x'.id = x.id)
    (hf : full x → full x' ∧ full t) (h : HintOk (A ++ x :: B) o) :
    HintOk (A ++ x' :: t :: B) (if o.isNone then some t.id else o) := by
  induction A with
  | nil =>
    rcases h with h | ⟨h1, h2⟩
    · rw [h]; simp only [Option.isNone_some, Bool.false_eq_true, if_false]
      exact Or.inl (by rw [hid])
    · refine Or.inr ⟨(hf h1).1, ?_⟩
      cases o with
      | none => exact Or.inl rfl
      | some i => exact Or.inr ⟨(hf h1).2, h2⟩
  | cons a A ih =>
    rcases h with h | ⟨h1, h2⟩
    · rw [h]; exact Or.inl rfl
    · exact Or.inr ⟨h1, ih h2⟩

/-- Append a hole at the end. -/
theorem hint_app {A : List Hole} {t : Hole} {o : Option Nat} (h : HintOk A o) :
    HintOk (A ++ [t]) (if o.isNone then some t.id else o) := by
  induction A with
  | nil => simp only [HintOk] at h; rw [h]; exact Or.inl rfl
  | cons a A ih =>
    rcases h with h | ⟨h1, h2⟩
    · rw [h]; exact Or.inl rfl
    · exact Or.inr ⟨h1, ih h2⟩

theorem rex_eq {u : BitVec 32} {F M : Nat} {h : Hole} (hM : M < 2 ^ 31) (hF : F ≤ M)
    (ok : HoleOk u F h) : rex h = rx u h := by
  have := ok.ne; have := ok.lo; have := ok.hi; have := ok.top
  exact diff_off hM (by omega) (by omega)

theorem rx_sum (u : BitVec 32) (A B : List Hole) (x : Hole) :
    ((A ++ x :: B).map (rx u)).sum = ((A ++ B).map (rx u)).sum + rx u x := by
  simp only [List.map_append, List.map_cons, List.sum_append, List.sum_cons]
  omega

/-- Byte `x` is in one of the holes. -/
def InHoles (l : List Hole) (x : BitVec 32) : Prop := ∃ h ∈ l, InR h.start h.stop x

theorem inHoles_append {A B : List Hole} {x : BitVec 32} :
    InHoles (A ++ B) x ↔ InHoles A x ∨ InHoles B x := by
  unfold InHoles
  constructor
  · rintro ⟨h, hm, hx⟩
    rcases List.mem_append.mp hm with hm | hm
    · exact Or.inl ⟨h, hm, hx⟩
    · exact Or.inr ⟨h, hm, hx⟩
  · rintro (⟨h, hm, hx⟩ | ⟨h, hm, hx⟩)
    · exact ⟨h, by simp [hm], hx⟩
    · exact ⟨h, by simp [hm], hx⟩

theorem inHoles_cons {A : List Hole} {h : Hole} {x : BitVec 32} :
    InHoles (h :: A) x ↔ InR h.start h.stop x ∨ InHoles A x := by
  unfold InHoles
  simp

end Verif.Sack

import Verif.Snd.Model
/-!
# Sequence-number arithmetic and the shape of one pass of `ofp_tcp_output`
-/
namespace Verif.Snd
open Verif.Tcp

theorem seqOf_add (i : BitVec 32) (x n : Nat) : seqOf i x + BitVec.ofNat 32 n = seqOf i (x + n) := by
  unfold seqOf
  rw [BitVec.add_assoc, BitVec.ofNat_add]

theorem ofInt_nonneg (k : Int) (h : 0 ≤ k) : BitVec.ofInt 32 k = BitVec.ofNat 32 k.toNat := by
  obtain ⟨n, rfl⟩ := Int.eq_ofNat_of_zero_le h
  simp

theorem seqOf_addInt (i : BitVec 32) (x : Nat) (k : Int) (h : 0 ≤ k) :
    seqOf i x + BitVec.ofInt 32 k = seqOf i (x + k.toNat) := by
  rw [ofInt_nonneg k h, seqOf_add]

theorem seqOf_succ (i : BitVec 32) (x : Nat) : seqOf i x + 1 = seqOf i (x + 1) := seqOf_add i x 1

theorem seqOf_pred (i : BitVec 32) (x : Nat) : seqOf i (x + 1) - 1 = seqOf i x := by
  rw [← seqOf_succ, BitVec.add_sub_cancel]

theorem seqOf_subInt (i : BitVec 32) (x : Nat) (k : Int) (h : 0 ≤ k) :
    seqOf i (x + k.toNat) - BitVec.ofInt 32 k = seqOf i x := by
  rw [← seqOf_addInt i x k h, BitVec.add_sub_cancel]

/-- Offsets closer than 2^31 are compared correctly. -/
theorem lt_seqOf (i : BitVec 32) (x y : Nat) (h : x < y + 2 ^ 31) (h' : y < x + 2 ^ 31) :
    seqLT (seqOf i x) (seqOf i y) = decide (x < y) := (seq_compare i x y (by omega) (by omega)).1
theorem gt_seqOf (i : BitVec 32) (x y : Nat) (h : x < y + 2 ^ 31) (h' : y < x + 2 ^ 31) :
    seqGT (seqOf i x) (seqOf i y) = decide (y < x) := (seq_compare i x y (by omega) (by omega)).2.2.1
theorem leq_seqOf (i : BitVec 32) (x y : Nat) (h : x < y + 2 ^ 31) (h' : y < x + 2 ^ 31) :
    seqLEQ (seqOf i x) (seqOf i y) = decide (x ≤ y) := (seq_compare i x y (by omega) (by omega)).2.1
theorem diff_seqOf (i : BitVec 32) (x y : Nat) (h : x < y + 2 ^ 31) (h' : y < x + 2 ^ 31) :
    diff (seqOf i x) (seqOf i y) = (x : Int) - y := diff_eq i x y (by omega) (by omega)

theorem eq_seqOf (i : BitVec 32) (x y : Nat) (h : x < y + 2 ^ 31) (h' : y < x + 2 ^ 31) :
    (seqOf i x == seqOf i y) = decide (x = y) := by
  by_cases e : x = y
  · simp [e]
  · have d := diff_seqOf i x y h h'
    have : seqOf i x ≠ seqOf i y := by
      intro c
      rw [c] at d
      unfold diff at d
      simp at d
      omega
    simp [e, this]

/-- Every sequence number is an offset from a given one. -/
theorem as_seqOf (i : BitVec 32) (x : Nat) (a : BitVec 32) : a = seqOf i (x + (a - seqOf i x).toNat) := by
  rw [← seqOf_add, BitVec.ofNat_toNat, BitVec.setWidth_eq, BitVec.add_comm, BitVec.sub_add_cancel]

/-- A sequence number after `una` and not after `max`. -/
theorem between (i : BitVec 32) (x m : Nat) (a : BitVec 32) (hm : m < 2 ^ 31) (h1 : seqGT a (seqOf i x) = true)
    (h2 : seqGT a (seqOf i (x + m)) = false) : ∃ k, a = seqOf i (x + k) ∧ 0 < k ∧ k ≤ m := by
  have e := as_seqOf i x a
  generalize hk : (a - seqOf i x).toNat = k at e
  have hk2 : k < 2 ^ 32 := by rw [← hk]; exact (a - seqOf i x).isLt
  have hd : diff a (seqOf i x) > 0 := by unfold seqGT at h1; simpa using h1
  have hlt : k < 2 ^ 31 := by
    by_cases c : k < 2 ^ 31
    · exact c
    · unfold diff at hd
      rw [BitVec.toInt_eq_toNat_cond, hk] at hd
      rw [if_neg (by omega)] at hd
      omega
  refine ⟨k, e, ?_, ?_⟩
  · rw [e, diff_seqOf i (x + k) x (by omega) (by omega)] at hd
    omega
  · rw [e, gt_seqOf i (x + k) (x + m) (by omega) (by omega)] at h2
    simp at h2
    omega

/-- A sequence number not after `una`, equal to it. -/
theorem ne_eq_seq {a b : BitVec 32} (h : (a != b) = false) : a = b := by simpa using h

end Verif.Snd

import Verif.Mtrie.Remove
import Verif.Radix.Spec
/-! # Prefixes as bit lists and as block numbers -/
namespace Verif.Mtrie
open Verif.Radix

theorem bits4_length (a : BitVec 32) : (Spec.bits4 a).length = 32 := by simp [Spec.bits4]

theorem take_length (a : BitVec 32) (m : Nat) (h : m ≤ 32) : ((Spec.bits4 a).take m).length = m := by
  rw [List.length_take, bits4_length]; omega

theorem take_get (a : BitVec 32) (m i : Nat) (hm : m ≤ 32) (hi : i < m) :
    ((Spec.bits4 a).take m)[i]? = some (a.toNat.testBit (31 - i)) := by
  rw [List.getElem?_take, if_pos hi]
  unfold Spec.bits4
  rw [List.getElem?_map, List.getElem?_range (by omega)]
  simp only [Option.map_some, BitVec.getMsbD_eq_getLsbD, BitVec.getLsbD]
  have : i < 32 := by omega
  simp [this]

/-- Same prefix, same block. -/
theorem take_eq_iff (a b : BitVec 32) (m : Nat) (hm : m ≤ 32) :
    (Spec.bits4 a).take m = (Spec.bits4 b).take m ↔ blk a.toNat m = blk b.toNat m := by
  have ha := a.isLt
  have hb := b.isLt
  constructor
  · intro h
    unfold blk
    apply Nat.eq_of_testBit_eq
    intro j
    rw [Nat.testBit_div_two_pow, Nat.testBit_div_two_pow]
    by_cases hj : j < m
    · have e : j + (32 - m) = 31 - (m - 1 - j) := by omega
      have h1 := take_get a m (m - 1 - j) hm (by omega)
      have h2 := take_get b m (m - 1 - j) hm (by omega)
      rw [h, h2] at h1
      rw [e]
      exact (Option.some.inj h1).symm
    · rw [Nat.testBit_lt_two_pow (Nat.lt_of_lt_of_le ha (Nat.pow_le_pow_right (by omega) (by omega))),
        Nat.testBit_lt_two_pow (Nat.lt_of_lt_of_le hb (Nat.pow_le_pow_right (by omega) (by omega)))]
  · intro h
    apply List.ext_getElem?
    intro i
    by_cases hi : i < m
    · rw [take_get a m i hm hi, take_get b m i hm hi]
      have h1 : (blk a.toNat m).testBit (m - 1 - i) = (blk b.toNat m).testBit (m - 1 - i) := by rw [h]
      unfold blk at h1
      rw [Nat.testBit_div_two_pow, Nat.testBit_div_two_pow] at h1
      have e : m - 1 - i + (32 - m) = 31 - i := by omega
      rw [e] at h1
      rw [h1]
    · rw [List.getElem?_eq_none (by rw [take_length a m hm]; omega), List.getElem?_eq_none (by rw [take_length b m hm]; omega)]

theorem take_eq_len (a b : BitVec 32) (m k : Nat) (hm : m ≤ 32) (hk : k ≤ 32)
    (h : (Spec.bits4 a).take m = (Spec.bits4 b).take k) : m = k := by
  have := congrArg List.length h
  rwa [take_length a m hm, take_length b k hk] at this

/-- Rules of the tables that a user sees. -/
def rulesOf (T : Nat → Spec.Table Nat) : Rules := fun v a m =>
  if a < 2 ^ 32 ∧ m ≤ 32 ∧ net a m = a then T v ((Spec.bits4 (BitVec.ofNat 32 a)).take m) else none

theorem rulesOf_net (T : Nat → Spec.Table Nat) (v : Nat) (a : BitVec 32) (m : Nat) (hm : m ≤ 32) :
    rulesOf T v (net a.toNat m) m = T v ((Spec.bits4 a).take m) := by
  unfold rulesOf
  have hlt := net_lt a.toNat m a.isLt
  rw [if_pos ⟨hlt, hm, net_net _ _⟩]
  congr 1
  rw [take_eq_iff _ _ m hm, BitVec.toNat_ofNat, Nat.mod_eq_of_lt hlt, blk_net]

end Verif.Mtrie

import Verif.Syncache.Model
/-! # Cookies: the words -/
namespace Verif.Syncache

theorem or_shl_toNat (k : Nat) (hk : k ≤ 32) (a d : W) (ha : a.toNat < 2 ^ k) : (a ||| d <<< k).toNat = a.toNat + 2 ^ k * (d.toNat % 2 ^ (32 - k)) := by
  rw [BitVec.toNat_or, BitVec.toNat_shiftLeft, Nat.shiftLeft_eq]
  have e : d.toNat * 2 ^ k % 2 ^ 32 = 2 ^ k * (d.toNat % 2 ^ (32 - k)) := by
    have : (2 : Nat) ^ 32 = 2 ^ k * 2 ^ (32 - k) := by rw [← Nat.pow_add]; congr 1; omega
    rw [this, Nat.mul_comm, Nat.mul_mod_mul_left]
  rw [e, Nat.or_comm, ← Nat.two_pow_add_eq_or_of_lt ha, Nat.add_comm]

theorem and_mask (k : Nat) (x : W) (hk : k ≤ 32) : (x &&& BitVec.ofNat 32 (2 ^ k - 1)).toNat = x.toNat % 2 ^ k := by
  rw [BitVec.toNat_and, BitVec.toNat_ofNat]
  have : (2 : Nat) ^ k ≤ 2 ^ 32 := Nat.pow_le_pow_right (by omega) hk
  have p := Nat.two_pow_pos k
  rw [Nat.mod_eq_of_lt (by omega), Nat.and_two_pow_sub_one_eq_mod]

theorem and_not_mask (k : Nat) (hk : k ≤ 32) (a d : W) (ha : a.toNat < 2 ^ k) :
    (a ||| d <<< k) &&& ~~~(BitVec.ofNat 32 (2 ^ k - 1)) = d <<< k := by
  apply BitVec.eq_of_getLsbD_eq
  intro i hi
  have m : (BitVec.ofNat 32 (2 ^ k - 1)).getLsbD i = decide (i < k) := by
    rw [BitVec.getLsbD_ofNat, Nat.testBit_two_pow_sub_one]; simp [hi]
  have l : k ≤ i → a.getLsbD i = false := by
    intro h
    rw [BitVec.getLsbD]
    exact Nat.testBit_lt_two_pow (Nat.lt_of_lt_of_le ha (Nat.pow_le_pow_right (by omega) h))
  simp only [BitVec.getLsbD_and, BitVec.getLsbD_or, BitVec.getLsbD_not, m, hi, decide_true, Bool.true_and, BitVec.getLsbD_shiftLeft]
  by_cases h : i < k
  · simp [h]
  · simp [h, l (by omega)]

/-- The parameters of a cookie. -/
def params (p : Bool) (m : Nat) : W := bit p ||| ((31415#32 &&& 7) <<< 1) ||| (BitVec.ofNat 32 m <<< 4)

theorem params_toNat (p : Bool) {m : Nat} (hm : m < 8) : (params p m).toNat = (if p then 1 else 0) + 14 + 16 * m := by
  have h : (bit p ||| ((31415#32 &&& 7) <<< 1)).toNat = (if p then 1 else 0) + 14 := by cases p <;> decide
  unfold params
  rw [or_shl_toNat 4 (by omega) _ _ (by rw [h]; split <;> decide), h, BitVec.toNat_ofNat]
  have : m % 2 ^ 32 % 2 ^ (32 - 4) = m := by
    rw [Nat.mod_eq_of_lt (a := m) (by omega), Nat.mod_eq_of_lt (by omega)]
  rw [this]

theorem mssLoop_le (k p : Nat) : mssLoop k p ≤ k := by
  induction k with
  | zero => exact Nat.le_refl 0
  | succ k ih => unfold mssLoop; split <;> omega

theorem seven : ((31415#32 &&& 7) : W).toNat = 7 := by decide

/-- What the receiver of a cookie reads in it. -/
theorem params_read (p : Bool) {m : Nat} (hm : m < 8) (d : W) :
    ((params p m ||| d <<< 7) &&& 0x7f) = params p m ∧ (((params p m ||| d <<< 7) >>> 1) &&& 7).toNat = 7 ∧
    (((params p m ||| d <<< 7) >>> 4) &&& 7).toNat = m ∧ ((params p m ||| d <<< 7) &&& ~~~(0x7f : W)) = d <<< 7 ∧
    (decide (params p m &&& 1 ≠ 0)) = p := by
  have t := params_toNat p hm
  have lt : (params p m).toNat < 2 ^ 7 := by rw [t]; split <;> omega
  have x := or_shl_toNat 7 (by omega) (params p m) d lt
  have m7 := and_mask 7 (params p m ||| d <<< 7) (by omega)
  have e7 : BitVec.ofNat 32 (2 ^ 7 - 1) = 0x7f := by decide
  have e3 : BitVec.ofNat 32 (2 ^ 3 - 1) = 7 := by decide
  have e1 : BitVec.ofNat 32 (2 ^ 1 - 1) = 1 := by decide
  refine ⟨?_, ?_, ?_, ?_, ?_⟩
  · rw [e7] at m7
    apply BitVec.eq_of_toNat_eq
    rw [m7, x]; omega
  · have := and_mask 3 ((params p m ||| d <<< 7) >>> 1) (by omega)
    rw [e3] at this
    rw [this, BitVec.toNat_ushiftRight, Nat.shiftRight_eq_div_pow, x, t]
    split <;> omega
  · have := and_mask 3 ((params p m ||| d <<< 7) >>> 4) (by omega)
    rw [e3] at this
    rw [this, BitVec.toNat_ushiftRight, Nat.shiftRight_eq_div_pow, x, t]
    split <;> omega
  · have := and_not_mask 7 (by omega) (params p m) d lt
    rw [e7] at this; exact this
  · have := and_mask 1 (params p m) (by omega)
    rw [e1, t] at this
    cases p with
    | true =>
      simp only [if_true] at this
      refine decide_eq_true ?_
      intro h; rw [h] at this; simp at this; omega
    | false =>
      simp only [Bool.false_eq_true, if_false] at this
      refine decide_eq_false ?_
      intro h; apply h
      apply BitVec.eq_of_toNat_eq
      rw [this]; simp; omega

/-- The options in a timestamp. -/
def payload (sk : Bool) (s r : Nat) (d : W) : W := (bit sk <<< 1) ||| (BitVec.ofNat 32 s <<< 2) ||| (BitVec.ofNat 32 r <<< 6) ||| (d <<< 10)

theorem payload_toNat (sk : Bool) {s r : Nat} (hs : s < 16) (hr : r < 16) :
    ((bit sk <<< 1) ||| (BitVec.ofNat 32 s <<< 2) ||| (BitVec.ofNat 32 r <<< 6)).toNat = (if sk then 2 else 0) + 4 * s + 64 * r := by
  have h : (bit sk <<< 1).toNat = if sk then 2 else 0 := by cases sk <;> decide
  have a := or_shl_toNat 2 (by omega) (bit sk <<< 1) (BitVec.ofNat 32 s) (by rw [h]; split <;> decide)
  rw [h, BitVec.toNat_ofNat, Nat.mod_eq_of_lt (a := s) (by omega), Nat.mod_eq_of_lt (by omega)] at a
  have b := or_shl_toNat 6 (by omega) (bit sk <<< 1 ||| BitVec.ofNat 32 s <<< 2) (BitVec.ofNat 32 r) (by rw [a]; split <;> omega)
  rw [a, BitVec.toNat_ofNat, Nat.mod_eq_of_lt (a := r) (by omega), Nat.mod_eq_of_lt (by omega)] at b
  rw [b]

theorem payload_read (sk : Bool) {s r : Nat} (hs : s < 16) (hr : r < 16) (d : W) :
    (payload sk s r d &&& ~~~(0x3ff : W)) = d <<< 10 ∧ decide ((payload sk s r d >>> 1) &&& 1 ≠ 0) = sk ∧
    ((payload sk s r d >>> 2) &&& 0xf).toNat = s ∧ ((payload sk s r d >>> 6) &&& 0xf).toNat = r := by
  have t := payload_toNat sk hs hr
  have lt : ((bit sk <<< 1) ||| (BitVec.ofNat 32 s <<< 2) ||| (BitVec.ofNat 32 r <<< 6)).toNat < 2 ^ 10 := by rw [t]; split <;> omega
  have x := or_shl_toNat 10 (by omega) _ d lt
  rw [t] at x
  have e10 : BitVec.ofNat 32 (2 ^ 10 - 1) = 0x3ff := by decide
  have e4 : BitVec.ofNat 32 (2 ^ 4 - 1) = 0xf := by decide
  have e1 : BitVec.ofNat 32 (2 ^ 1 - 1) = 1 := by decide
  refine ⟨?_, ?_, ?_, ?_⟩
  · have := and_not_mask 10 (by omega) _ d lt
    rw [e10] at this; exact this
  · have := and_mask 1 (payload sk s r d >>> 1) (by omega)
    rw [e1, BitVec.toNat_ushiftRight, Nat.shiftRight_eq_div_pow] at this
    unfold payload at this ⊢
    rw [x] at this
    cases sk with
    | true =>
      simp only [if_true] at this
      refine decide_eq_true ?_
      intro h; rw [h] at this; simp at this; omega
    | false =>
      simp only [Bool.false_eq_true, if_false] at this
      refine decide_eq_false ?_
      intro h; apply h
      apply BitVec.eq_of_toNat_eq
      rw [this]; simp; omega
  · have := and_mask 4 (payload sk s r d >>> 2) (by omega)
    rw [e4] at this
    rw [this, BitVec.toNat_ushiftRight, Nat.shiftRight_eq_div_pow]
    unfold payload
    rw [x]
    split <;> omega
  · have := and_mask 4 (payload sk s r d >>> 6) (by omega)
    rw [e4] at this
    rw [this, BitVec.toNat_ushiftRight, Nat.shiftRight_eq_div_pow]
    unfold payload
    rw [x]
    split <;> omega

end Verif.Syncache

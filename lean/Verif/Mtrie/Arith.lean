import Verif.Mtrie.Model
/-! # Arithmetic of prefixes and table indices -/
namespace Verif.Mtrie

/-- The first `m` bits of an address, as a number. -/
def blk (x m : Nat) : Nat := x / 2 ^ (32 - m)

/-- The address of the network `x/m`. -/
def net (x m : Nat) : Nat := blk x m * 2 ^ (32 - m)

theorem pow_split (a b c : Nat) (h : a = b + c) : 2 ^ a = 2 ^ b * 2 ^ c := by rw [h, Nat.pow_add]

theorem netPrefix_eq (x m : Nat) (hx : x < 2 ^ 32) (hm : m ≤ 32) : netPrefix x m = net x m := by
  unfold netPrefix net blk
  apply Nat.eq_of_testBit_eq
  intro i
  rw [Nat.testBit_mod_two_pow, Nat.testBit_and, Nat.testBit_shiftLeft, Nat.testBit_mul_two_pow, Nat.testBit_div_two_pow]
  have h32 : (0xffffffff : Nat) = 2 ^ 32 - 1 := rfl
  rw [h32, Nat.testBit_two_pow_sub_one]
  by_cases hi : 32 - m ≤ i
  · have e : i - (32 - m) + (32 - m) = i := by omega
    by_cases hi2 : i < 32
    · simp [hi, hi2]; omega
    · have : x.testBit i = false := Nat.testBit_lt_two_pow (Nat.lt_of_lt_of_le hx (Nat.pow_le_pow_right (by omega) (by omega)))
      rw [e, this]; simp
  · simp [hi]

theorem net_lt (x m : Nat) (hx : x < 2 ^ 32) : net x m < 2 ^ 32 :=
  Nat.lt_of_le_of_lt (Nat.div_mul_le_self _ _) hx

theorem blk_net (x m : Nat) : blk (net x m) m = blk x m := by
  unfold net blk
  rw [Nat.mul_div_cancel _ (Nat.two_pow_pos _)]

theorem net_net (x m : Nat) : net (net x m) m = net x m := by
  have := blk_net x m
  unfold net at this ⊢
  rw [this]

theorem net_eq_iff (x y m : Nat) : net x m = net y m ↔ blk x m = blk y m := by
  unfold net
  constructor
  · intro h; exact Nat.eq_of_mul_eq_mul_right (Nat.two_pow_pos _) h
  · intro h; rw [h]

theorem blk_blk (x m h : Nat) (h1 : m ≤ h) (h2 : h ≤ 32) : blk x m = blk x h / 2 ^ (h - m) := by
  unfold blk
  rw [Nat.div_div_eq_div_mul, ← Nat.pow_add]
  congr 2; omega

theorem blk_le (x y m h : Nat) (h1 : m ≤ h) (h2 : h ≤ 32) (e : blk x h = blk y h) : blk x m = blk y m := by
  rw [blk_blk x m h h1 h2, blk_blk y m h h1 h2, e]

theorem blk_netle (x m h : Nat) (h1 : m ≤ h) (h2 : h ≤ 32) : blk (net x h) m = blk x m :=
  blk_le _ _ m h h1 h2 (blk_net x h)

theorem blk_lt (x m : Nat) (hx : x < 2 ^ 32) (hm : m ≤ 32) : blk x m < 2 ^ m := by
  unfold blk
  rw [Nat.div_lt_iff_lt_mul (Nat.two_pow_pos _), ← Nat.pow_add]
  have : m + (32 - m) = 32 := by omega
  rw [this]; exact hx

theorem blk_zero (x : Nat) (hx : x < 2 ^ 32) : blk x 0 = 0 := by
  unfold blk
  exact Nat.div_eq_of_lt hx

/-- Index of an address in a table of a level: bits `low` to `high - 1`. -/
def idx (x low high : Nat) : Nat := blk x high % 2 ^ (high - low)

theorem shl_mod_shr (a k lo hi : Nat) (h1 : lo ≤ hi) (h2 : hi ≤ 32) (hk : k = lo) :
    ((a <<< k) % 2 ^ 32) >>> (lo + 32 - hi) = (a / 2 ^ (32 - hi)) % 2 ^ (hi - lo) := by
  subst hk
  rw [Nat.shiftLeft_eq, Nat.shiftRight_eq_div_pow]
  have e1 : (2 : Nat) ^ 32 = 2 ^ (32 - k) * 2 ^ k := by rw [← Nat.pow_add]; congr 1; omega
  have e2 : (2 : Nat) ^ (k + 32 - hi) = 2 ^ (32 - hi) * 2 ^ k := by rw [← Nat.pow_add]; congr 1; omega
  rw [e1, e2, Nat.mul_mod_mul_right, Nat.mul_div_mul_right _ _ (Nat.two_pow_pos _)]
  have e3 : (2 : Nat) ^ (32 - k) = 2 ^ (32 - hi) * 2 ^ (hi - k) := by rw [← Nat.pow_add]; congr 1; omega
  rw [e3, Nat.mod_mul_right_div_self]

theorem nodeIdx_eq (x low high : Nat) (h1 : low ≤ high) (h2 : high ≤ 32) : nodeIdx x low high = idx x low high := by
  unfold nodeIdx idx blk
  exact shl_mod_shr x low low high h1 h2 rfl

theorem idx_lt (x low high : Nat) : idx x low high < 2 ^ (high - low) := Nat.mod_lt _ (Nat.two_pow_pos _)

/-- Block number at `high` from block number at `low` and index. -/
theorem blk_idx (x low high : Nat) (h1 : low ≤ high) (h2 : high ≤ 32) :
    blk x high = blk x low * 2 ^ (high - low) + idx x low high := by
  rw [blk_blk x low high h1 h2]
  unfold idx
  rw [Nat.mul_comm]
  exact (Nat.div_add_mod _ _).symm

theorem helper_eq (t m low high : Nat) (h0 : m ≤ 32) (h1 : low ≤ high) (h2 : high ≤ 32) :
    rangeHelper t m low high = ((t * 2 ^ (32 - m)) / 2 ^ (32 - high)) % 2 ^ (high - low) := by
  unfold rangeHelper
  have : t <<< (32 - m + low) = (t * 2 ^ (32 - m)) <<< low := by
    rw [Nat.shiftLeft_eq, Nat.shiftLeft_eq, Nat.mul_assoc, ← Nat.pow_add]
  rw [this, shl_mod_shr _ low low high h1 h2 rfl]

/-- `2^(32-m)` in blocks of the level. -/
theorem mul_pow_div (t m high : Nat) (h1 : m ≤ high) (h2 : high ≤ 32) :
    (t * 2 ^ (32 - m)) / 2 ^ (32 - high) = t * 2 ^ (high - m) := by
  rw [pow_split (32 - m) (high - m) (32 - high) (by omega), ← Nat.mul_assoc, Nat.mul_div_cancel _ (Nat.two_pow_pos _)]

theorem range_begin (x m low high : Nat) (h1 : low < m) (h2 : m ≤ high) (h3 : high ≤ 32) :
    rangeBegin x m low high = (blk x m % 2 ^ (m - low)) * 2 ^ (high - m) := by
  unfold rangeBegin
  rw [helper_eq _ m low high (by omega) (by omega) h3, mul_pow_div _ m high h2 h3]
  unfold shiftLsb
  rw [Nat.shiftRight_eq_div_pow, pow_split (high - low) (m - low) (high - m) (by omega), Nat.mul_mod_mul_right]
  rfl

theorem range_end (x m low high : Nat) (hx : x < 2 ^ 32) (h1 : low < m) (h2 : m ≤ high) (h3 : high ≤ 32) :
    rangeEnd x m low high = (blk x m % 2 ^ (m - low) + 1) * 2 ^ (high - m) := by
  have e : rangeHelper ((shiftLsb x m + 1) % 2 ^ 32) m low high = ((blk x m + 1) % 2 ^ (m - low)) * 2 ^ (high - m) := by
    rw [helper_eq _ m low high (by omega) (by omega) h3, mul_pow_div _ m high h2 h3]
    unfold shiftLsb
    rw [Nat.shiftRight_eq_div_pow, pow_split (high - low) (m - low) (high - m) (by omega), Nat.mul_mod_mul_right]
    have : (2 : Nat) ^ (m - low) ∣ 2 ^ 32 := Nat.pow_dvd_pow 2 (by omega)
    rw [Nat.mod_mod_of_dvd _ this]
    rfl
  unfold rangeEnd
  simp only [e]
  have hp := Nat.two_pow_pos (m - low)
  have hq := Nat.two_pow_pos (high - m)
  generalize ht : blk x m % 2 ^ (m - low) = t
  have hlt : t < 2 ^ (m - low) := by rw [← ht]; exact Nat.mod_lt _ hp
  have hsucc : (blk x m + 1) % 2 ^ (m - low) = if t + 1 = 2 ^ (m - low) then 0 else t + 1 := by
    rw [Nat.add_mod, ht]
    by_cases h1' : 2 ^ (m - low) = 1
    · rw [h1'] at hlt ⊢; rw [if_pos (by omega)]; exact Nat.mod_one _
    · rw [Nat.mod_eq_of_lt (show 1 < 2 ^ (m - low) by omega)]
      split
      · next h => rw [h]; exact Nat.mod_self _
      · exact Nat.mod_eq_of_lt (by omega)
  rw [hsucc]
  by_cases hh : t + 1 = 2 ^ (m - low)
  · rw [if_pos hh, Nat.zero_mul, if_neg (by simp), Nat.one_shiftLeft, hh, ← Nat.pow_add]; congr 1; omega
  · rw [if_neg hh, if_pos]
    have : 0 < (t + 1) * 2 ^ (high - m) := Nat.mul_pos (by omega) hq
    omega

/-- The index range of a route at its level is exactly the set of blocks inside the route's prefix. -/
theorem range_iff (a m low high p i : Nat) (ha : a < 2 ^ 32) (h1 : low < m) (h2 : m ≤ high) (h3 : high ≤ 32)
    (hp : blk a low = p) (hi : i < 2 ^ (high - low)) :
    (rangeBegin a m low high ≤ i ∧ i < rangeEnd a m low high) ↔
      (p * 2 ^ (high - low) + i) / 2 ^ (high - m) = blk a m := by
  rw [range_begin a m low high h1 h2 h3, range_end a m low high ha h1 h2 h3]
  have hq := Nat.two_pow_pos (high - m)
  have e1 : (p * 2 ^ (high - low) + i) / 2 ^ (high - m) = p * 2 ^ (m - low) + i / 2 ^ (high - m) := by
    rw [pow_split (high - low) (m - low) (high - m) (by omega), ← Nat.mul_assoc, Nat.add_comm,
      Nat.add_mul_div_right _ _ hq, Nat.add_comm]
  have e2 : blk a m = p * 2 ^ (m - low) + blk a m % 2 ^ (m - low) := by
    rw [← hp, blk_blk a low m (by omega) (by omega), Nat.mul_comm]
    exact (Nat.div_add_mod _ _).symm
  rw [e1]
  generalize blk a m % 2 ^ (m - low) = t at e2 ⊢
  rw [e2, Nat.add_left_cancel_iff]
  constructor
  · rintro ⟨k1, k2⟩
    exact Nat.div_eq_of_lt_le k1 k2
  · intro h
    rw [← h]
    exact ⟨Nat.div_mul_le_self _ _, by rw [Nat.mul_comm]; exact Nat.lt_mul_div_succ _ hq⟩

end Verif.Mtrie

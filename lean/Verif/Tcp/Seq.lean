/-!
# TCP sequence comparison (`include/ofpi_tcp_seq.h`) and property C29
-/
namespace Verif.Tcp

/-- `(int)((a)-(b))` (include/ofpi_tcp_seq.h:42-45): `tcp_seq` is `uint32_t`. -/
def diff (a b : BitVec 32) : Int := (a - b).toInt

/-- `SEQ_LT`, `TSTMP_LT` (include/ofpi_tcp_seq.h:42, 51). -/
def seqLT (a b : BitVec 32) : Bool := diff a b < 0
/-- `SEQ_LEQ` (43). -/
def seqLEQ (a b : BitVec 32) : Bool := diff a b ≤ 0
/-- `SEQ_GT`, `TSTMP_GT` (44, 52). -/
def seqGT (a b : BitVec 32) : Bool := diff a b > 0
/-- `SEQ_GEQ`, `TSTMP_GEQ` (45, 53). -/
def seqGEQ (a b : BitVec 32) : Bool := diff a b ≥ 0
/-- `SEQ_MIN` (47). -/
def seqMin (a b : BitVec 32) : BitVec 32 := if seqLT a b then a else b
/-- `SEQ_MAX` (48). -/
def seqMax (a b : BitVec 32) : BitVec 32 := if seqGT a b then a else b

/-- Sequence number of stream offset `x` when the stream starts at sequence number `iss`. -/
def seqOf (iss : BitVec 32) (x : Nat) : BitVec 32 := iss + BitVec.ofNat 32 x

/-- The signed 32-bit difference of two sequence numbers is the difference of the stream offsets, whenever that
fits. -/
theorem diff_eq (iss : BitVec 32) (x y : Nat) (h : (x : Int) - y < 2 ^ 31) (h' : -2 ^ 31 ≤ (x : Int) - y) :
    diff (seqOf iss x) (seqOf iss y) = (x : Int) - y := by
  unfold diff seqOf
  have e : ∀ n : Nat, (BitVec.ofNat 32 n).toInt = (n : Int).bmod (2 ^ 32) := by
    intro n
    rw [BitVec.toInt_eq_toNat_bmod, BitVec.toNat_ofNat, Int.natCast_emod, Int.emod_bmod]
  rw [BitVec.toInt_sub, BitVec.toInt_add, BitVec.toInt_add, e, e]
  rw [Int.add_bmod_bmod, Int.add_bmod_bmod, Int.bmod_sub_bmod, Int.sub_bmod_bmod]
  rw [show iss.toInt + (x : Int) - (iss.toInt + (y : Int)) = (x : Int) - y by omega]
  exact Int.bmod_eq_of_le (by omega) (by omega)

/-- **C29.** For stream offsets less than 2^31 apart the macros compare the offsets, wherever the sequence number
wraps around. -/
theorem seq_compare (iss : BitVec 32) (x y : Nat) (h : (x : Int) - y < 2 ^ 31) (h' : (y : Int) - x < 2 ^ 31) :
    (seqLT (seqOf iss x) (seqOf iss y) = decide (x < y)) ∧
    (seqLEQ (seqOf iss x) (seqOf iss y) = decide (x ≤ y)) ∧
    (seqGT (seqOf iss x) (seqOf iss y) = decide (x > y)) ∧
    (seqGEQ (seqOf iss x) (seqOf iss y) = decide (x ≥ y)) ∧
    seqMin (seqOf iss x) (seqOf iss y) = seqOf iss (min x y) ∧
    seqMax (seqOf iss x) (seqOf iss y) = seqOf iss (max x y) := by
  have hd := diff_eq iss x y h (by omega)
  have e1 : seqLT (seqOf iss x) (seqOf iss y) = decide (x < y) := by
    unfold seqLT; rw [hd]; congr 1; apply propext; omega
  have e3 : seqGT (seqOf iss x) (seqOf iss y) = decide (x > y) := by
    unfold seqGT; rw [hd]; congr 1; apply propext; omega
  refine ⟨e1, ?_, e3, ?_, ?_, ?_⟩
  · unfold seqLEQ; rw [hd]; congr 1; apply propext; omega
  · unfold seqGEQ; rw [hd]; congr 1; apply propext; omega
  · unfold seqMin; rw [e1]
    by_cases hxy : x < y
    · simp [hxy]; congr 1; omega
    · simp [hxy]; congr 1; omega
  · unfold seqMax; rw [e3]
    by_cases hxy : x > y
    · simp [hxy]; congr 1; omega
    · simp [hxy]; congr 1; omega

/-- **C29, for all pairs.** `LT` is the strict part of `LEQ`; `GT`/`GEQ` are `LT`/`LEQ` negated; exactly one of
LT, equality, GT holds — for every pair of sequence numbers, and `LT` is antisymmetric unless they are exactly
2^31 apart. -/
theorem seq_laws (a b : BitVec 32) :
    (seqLEQ a b = (seqLT a b || a == b)) ∧ (seqGT a b = !seqLEQ a b) ∧ (seqGEQ a b = !seqLT a b) ∧
    (seqLT a b = true ∧ seqLT b a = true → a - b = 0x80000000#32) := by
  have hz : diff a b = 0 ↔ a = b := by
    unfold diff
    constructor
    · intro h
      have h2 : a - b = 0#32 := BitVec.eq_of_toInt_eq (by rw [h]; rfl)
      have : a = (a - b) + b := by rw [BitVec.sub_add_cancel]
      rw [this, h2]; simp
    · rintro rfl; simp
  refine ⟨?_, ?_, ?_, ?_⟩
  · unfold seqLEQ seqLT
    by_cases h : a = b
    · have := hz.2 h; rw [this]; simp [h]
    · have : diff a b ≠ 0 := fun hh => h (hz.1 hh)
      have hab : (a == b) = false := by simpa using h
      rw [hab, Bool.or_false, decide_eq_decide]; omega
  · unfold seqGT seqLEQ
    by_cases h : diff a b ≤ 0
    · simp [h]
    · simp [h]; omega
  · unfold seqGEQ seqLT
    by_cases h : diff a b < 0
    · simp [h]
    · simp [h]; omega
  · unfold seqLT diff
    simp only [decide_eq_true_eq]
    rintro ⟨h1, h2⟩
    have hneg : b - a = -(a - b) := by
      apply BitVec.eq_of_toNat_eq
      simp only [BitVec.toNat_sub, BitVec.toNat_neg]
      have := a.isLt
      have := b.isLt
      omega
    rw [hneg] at h2
    generalize a - b = d at *
    apply BitVec.eq_of_toNat_eq
    rw [BitVec.toInt_eq_toNat_cond] at h1 h2
    have := d.isLt
    rw [BitVec.toNat_neg] at h2
    simp only [BitVec.toNat_ofNat]
    split at h1 <;> split at h2 <;> omega

/-- Outside that range the claim of `seq_compare` is false: offsets 0 and 2^31. -/
example : seqLT (seqOf 0#32 (2 ^ 31)) (seqOf 0#32 0) = true := by decide +kernel

-- Non-vacuity across the wrap: offset 10 is after offset 3 although its sequence number is smaller.
example : seqLT (seqOf 0xfffffffb#32 3) (seqOf 0xfffffffb#32 10) = true ∧
    (seqOf 0xfffffffb#32 10).toNat < (seqOf 0xfffffffb#32 3).toNat := by decide +kernel

end Verif.Tcp

import Mathlib.Tactic.Tauto
import Verif.Util.Model
/-! # Properties C37, C38, C39, C43 -/
namespace Verif.Util

theorem digit_facts : ∀ d : Fin 10, ('0' ≤ digit d.val ∧ digit d.val ≤ '9') ∧ (digit d.val).toNat - 48 = d.val ∧
    digit d.val ≠ '.' ∧ digit d.val ≠ '-' ∧ digit d.val ≠ '+' ∧ digit d.val ≠ ' ' ∧ digit d.val ≠ '\t' ∧
    digit d.val ≠ '\n' ∧ digit d.val ≠ '\x0b' ∧ digit d.val ≠ '\x0c' ∧ digit d.val ≠ '\r' := by decide

/-- The string does not begin with a digit. -/
def NoDigit : List Char → Prop
  | [] => True
  | c :: _ => ¬ ('0' ≤ c ∧ c ≤ '9')

theorem atoiDigits_stop (acc : Nat) (s : List Char) (h : NoDigit s) : atoiDigits acc s = acc := by
  cases s with
  | nil => rfl
  | cons c s => unfold atoiDigits; rw [if_neg h]

theorem dec_ne (n : Nat) : dec n ≠ [] := by
  unfold dec; split <;> simp

/-- Every character of a decimal number is a digit. -/
theorem dec_digits (n : Nat) : ∀ c ∈ dec n, ∃ d : Fin 10, c = digit d.val := by
  induction n using Nat.strongRecOn with
  | _ n ih =>
    unfold dec
    split
    · rename_i h
      intro c hc
      rw [List.mem_singleton] at hc
      exact ⟨⟨n, h⟩, hc⟩
    · rename_i h
      intro c hc
      rw [List.mem_append, List.mem_singleton] at hc
      rcases hc with hc | hc
      · exact ih (n / 10) (by omega) c hc
      · exact ⟨⟨n % 10, by omega⟩, hc⟩

theorem atoiDigits_append (s : List Char) (hs : ∀ c ∈ s, ∃ d : Fin 10, c = digit d.val) :
    ∀ (t : List Char) (acc : Nat), atoiDigits acc (s ++ t) = atoiDigits (atoiDigits acc s) t := by
  induction s with
  | nil => intro t acc; rfl
  | cons c s ih =>
    intro t acc
    obtain ⟨d, hd⟩ := hs c (by simp)
    have hf := (digit_facts d).1
    rw [List.cons_append]
    rw [atoiDigits, show atoiDigits acc (c :: s) = (if '0' ≤ c ∧ c ≤ '9' then
      atoiDigits (acc * 10 + (c.toNat - 48)) s else acc) from rfl]
    rw [hd, if_pos hf, if_pos hf]
    exact ih (fun c hc => hs c (by simp [hc])) t _

theorem atoiDigits_dec (n : Nat) : ∀ t, NoDigit t → atoiDigits 0 (dec n ++ t) = n := by
  induction n using Nat.strongRecOn with
  | _ n ih =>
    intro t ht
    rw [atoiDigits_append _ (dec_digits n)]
    have : atoiDigits 0 (dec n) = n := by
      unfold dec
      split
      · rename_i h
        have hf := digit_facts ⟨n, h⟩
        simp only [atoiDigits]
        rw [if_pos hf.1]; have := hf.2.1; simp only at this; omega
      · rename_i h
        have hf := digit_facts ⟨n % 10, by omega⟩
        rw [atoiDigits_append _ (dec_digits (n / 10))]
        have := ih (n / 10) (by omega) [] trivial
        rw [List.append_nil] at this
        rw [this]
        simp only [atoiDigits]
        rw [if_pos hf.1]; have := hf.2.1; simp only at this; omega
    rw [this]; exact atoiDigits_stop _ _ ht

theorem dec_head (n : Nat) (t : List Char) : ∃ (d : Fin 10) (r : List Char), dec n ++ t = digit d.val :: r := by
  cases h : dec n with
  | nil => exact absurd h (dec_ne n)
  | cons c r =>
    obtain ⟨d, hd⟩ := dec_digits n c (by rw [h]; simp)
    exact ⟨d, r ++ t, by rw [hd]; rfl⟩

theorem atoi_dec (n : Nat) (t : List Char) (ht : NoDigit t) : atoi (dec n ++ t) = n := by
  obtain ⟨d, r, h⟩ := dec_head n t
  have hv := atoiDigits_dec n t ht
  rw [h] at hv ⊢
  obtain ⟨_, _, a1, a2, a3, a4, a5, a6, a7, a8, a9⟩ := digit_facts d
  unfold atoi
  rw [if_neg (by simp [a4, a5, a6, a7, a8, a9]), if_neg a2, if_neg a3, hv]

theorem digitFirst_dec (n : Nat) : digitFirst (dec n) = true := by
  obtain ⟨d, r, h⟩ := dec_head n []
  rw [List.append_nil] at h
  rw [h]; simp only [digitFirst]
  simpa using (digit_facts d).1

theorem afterDot_digits (s : List Char) (hs : ∀ c ∈ s, c ≠ '.') (t : List Char) :
    afterDot (s ++ t) = afterDot t := by
  induction s with
  | nil => rfl
  | cons c s ih =>
    rw [List.cons_append, afterDot]
    rw [if_neg (hs c (by simp))]
    exact ih (fun c hc => hs c (by simp [hc]))

theorem dec_nodot (n : Nat) : ∀ c ∈ dec n, c ≠ '.' := by
  intro c hc
  obtain ⟨d, hd⟩ := dec_digits n c hc
  rw [hd]; exact (digit_facts d).2.2.1

theorem dec_length (k n : Nat) (h : n < 10 ^ (k + 1)) : (dec n).length ≤ k + 1 := by
  induction k generalizing n with
  | zero => unfold dec; rw [dif_pos (by omega)]; simp
  | succ k ih =>
    unfold dec
    split
    · simp
    · have := ih (n / 10) (by rw [Nat.pow_succ] at h; omega)
      simp; omega

/-- **C37.** For every interface — port below 8 (physical) or one of the special ports LOCAL, VXLAN, GRE — and every
VLAN or tunnel number, parsing the printed name gives the pair back, and the name with its terminator fits the
18-byte buffer. -/
theorem ifname_roundtrip (port vlan : Nat) (hp : port ≤ 10) (hv : vlan < 2 ^ 31) :
    nameToPortVlan (ifnetName port vlan) = ((port : Int), some (vlan : Int)) ∧
    (ifnetName port vlan).length + 1 ≤ 18 := by
  have hlv : (dec vlan).length ≤ 10 := dec_length 9 vlan (by simp; omega)
  have ha : atoi (dec vlan) = vlan := by
    have := atoi_dec vlan [] trivial; rwa [List.append_nil] at this
  have hdf := digitFirst_dec vlan
  have hge : ∀ c ∈ dec port, c ≠ '.' := dec_nodot port
  unfold ifnetName
  by_cases h8 : port = 8
  · subst h8
    have hn : nameToPortVlan ('l' :: 'o' :: dec vlan) = (LOCAL, some (vlan : Int)) := by
      simp [nameToPortVlan, skip, List.isPrefixOf, hdf, ha]
    simp [LOCAL] at hn ⊢
    exact ⟨hn, by omega⟩
  · by_cases h10 : port = 10
    · subst h10
      have hn : nameToPortVlan ('g' :: 'r' :: 'e' :: dec vlan) = (GRE, some (vlan : Int)) := by
        simp [nameToPortVlan, skip, List.isPrefixOf, ha]
      simp [LOCAL, GRE] at hn ⊢
      exact ⟨hn, by omega⟩
    · by_cases h9 : port = 9
      · subst h9
        have hn : nameToPortVlan ('v' :: 'x' :: 'l' :: 'a' :: 'n' :: dec vlan) = (VXLAN, some (vlan : Int)) := by
          simp [nameToPortVlan, skip, List.isPrefixOf, hdf, ha]
        simp [LOCAL, GRE, VXLAN] at hn ⊢
        exact ⟨hn, by omega⟩
      · have e1 : ¬ ((port : Int) = LOCAL) := by unfold LOCAL; omega
        have e2 : ¬ ((port : Int) = GRE) := by unfold GRE; omega
        have e3 : ¬ ((port : Int) = VXLAN) := by unfold VXLAN; omega
        have hlp : (dec port).length ≤ 1 := dec_length 0 port (by simp; omega)
        rw [if_neg e1, if_neg e2, if_neg e3]
        by_cases hv0 : vlan = 0
        · subst hv0
          have hap : atoi (dec port) = port := by
            have := atoi_dec port [] trivial; rwa [List.append_nil] at this
          have hd : afterDot (dec port) = none := by
            have := afterDot_digits (dec port) hge []; rw [List.append_nil] at this; rw [this]; rfl
          have hd2 : afterDot ('f' :: 'p' :: dec port) = none := by simp [afterDot, hd]
          simp only [ne_eq, not_true_eq_false, if_false]
          refine ⟨?_, by simp; omega⟩
          simp [nameToPortVlan, skip, List.isPrefixOf, hap, hd2]
        · rw [if_pos hv0]
          have hap : atoi (dec port ++ '.' :: dec vlan) = port := atoi_dec port _ (by simp [NoDigit])
          have hd : afterDot (dec port ++ '.' :: dec vlan) = some (dec vlan) := by
            rw [afterDot_digits (dec port) hge]; simp [afterDot]
          have hd2 : afterDot ('f' :: 'p' :: (dec port ++ '.' :: dec vlan)) = some (dec vlan) := by
            simp [afterDot, hd]
          refine ⟨?_, by simp; omega⟩
          simp [nameToPortVlan, skip, List.isPrefixOf, hap, hd2, ha]

/-- Different interfaces have different names. -/
theorem ifname_injective (p v p' v' : Nat) (hp : p ≤ 10) (hv : v < 2 ^ 31) (hp' : p' ≤ 10) (hv' : v' < 2 ^ 31)
    (h : ifnetName p v = ifnetName p' v') : p = p' ∧ v = v' := by
  have h1 := (ifname_roundtrip p v hp hv).1
  have h2 := (ifname_roundtrip p' v' hp' hv').1
  rw [h, h2] at h1
  simp at h1
  omega

example : ifnetName 3 100 = ['f', 'p', '3', '.', '1', '0', '0'] ∧
    ifnetName 9 42 = ['v', 'x', 'l', 'a', 'n', '4', '2'] := by decide +kernel

/-! ## C38 -/

/-- Bit `i` of a byte string, most significant bit of byte 0 first (network order). -/
def netBit (m : List UInt8) (i : Nat) : Bool := ((m[i / 8]?).getD 0).toNat.testBit (7 - i % 8)

theorem mask_byte_bits : ∀ r : Fin 8, ∀ j : Fin 8, 0 < r.val →
    (UInt8.ofNat (0xffff <<< (8 - r.val))).toNat.testBit (7 - j.val) = decide (j.val < r.val) := by decide +kernel

theorem ff_bits : ∀ j : Fin 8, (0xff : UInt8).toNat.testBit (7 - j.val) = true := by decide

/-- **C38 (building).** The IPv6 mask built from `n ≤ 128` has 16 bytes, and bit `i` is set exactly for `i < n`. -/
theorem mask6_exact (n : Nat) (hn : n ≤ 128) :
    ∃ m, masklenToMask n = some m ∧ m.length = 16 ∧ ∀ i, i < 128 → netBit m i = decide (i < n) := by
  have key : ∀ (m : List UInt8), (∀ k, k < 16 → m[k]? = some (if k < n / 8 then 0xff else
      if k = n / 8 ∧ 0 < n % 8 then UInt8.ofNat (0xffff <<< (8 - n % 8)) else 0)) →
      ∀ i, i < 128 → netBit m i = decide (i < n) := by
    intro m hm i hi
    unfold netBit
    rw [hm (i / 8) (by omega)]
    simp only [Option.getD_some]
    by_cases h1 : i / 8 < n / 8
    · rw [if_pos h1, ff_bits ⟨i % 8, by omega⟩]; simp; omega
    · rw [if_neg h1]
      by_cases h2 : i / 8 = n / 8 ∧ 0 < n % 8
      · rw [if_pos h2, mask_byte_bits ⟨n % 8, by omega⟩ ⟨i % 8, by omega⟩ h2.2]
        simp only [decide_eq_decide]; omega
      · rw [if_neg h2]; simp; omega
  have hbase : ∀ k, k < 16 → (List.replicate (n / 8) (0xff : UInt8) ++ List.replicate (16 - n / 8) (0 : UInt8))[k]? =
      some (if k < n / 8 then 0xff else 0) := by
    intro k hk
    by_cases h : k < n / 8
    · rw [List.getElem?_append_left (by simpa using h), List.getElem?_replicate, if_pos h, if_pos h]
    · rw [List.getElem?_append_right (by simpa using h), List.getElem?_replicate, if_neg h, if_pos (by simp; omega)]
  unfold masklenToMask
  simp only
  rw [if_neg (by omega)]
  split
  · rename_i hc
    refine ⟨_, rfl, by simp; omega, key _ ?_⟩
    intro k hk
    rw [List.getElem?_set]
    by_cases hkn : n / 8 = k
    · rw [if_pos hkn, if_pos (by simp; omega), if_neg (by omega), if_pos (by omega)]
    · rw [if_neg hkn, hbase k hk]
      by_cases h : k < n / 8
      · rw [if_pos h, if_pos h]
      · rw [if_neg h, if_neg h, if_neg (by omega)]
  · rename_i hc
    refine ⟨_, rfl, by simp; omega, key _ ?_⟩
    intro k hk
    rw [hbase k hk]
    by_cases h : k < n / 8
    · rw [if_pos h, if_pos h]
    · rw [if_neg h, if_neg h, if_neg (by omega)]

/-- A mask whose `N` bits, most significant first, are `n` ones followed by zeroes, as a little-endian byte string:
bit `i` counted from the least significant end of byte 0 is set exactly when `N - n ≤ i`. -/
def IsMaskLE (m : List UInt8) (n : Nat) : Prop :=
  n ≤ 8 * m.length ∧ ∀ i, i < 8 * m.length →
    (((m[i / 8]?).getD 0).toNat.testBit (i % 8) = decide (8 * m.length - n ≤ i))

theorem byte_bit : ∀ x : Fin 256, ∀ j : Fin 8,
    (UInt8.ofNat x.val &&& ((1 : UInt8) <<< UInt8.ofNat j.val) ≠ 0) ↔ (UInt8.ofNat x.val).toNat.testBit j.val = true := by
  decide +kernel

theorem byte_bit' (b : UInt8) (j : Nat) (hj : j < 8) :
    (b &&& ((1 : UInt8) <<< UInt8.ofNat j) ≠ 0) ↔ b.toNat.testBit j = true := by
  have := byte_bit ⟨b.toNat, b.toNat_lt⟩ ⟨j, hj⟩
  simpa using this

theorem maskByte_spec (b : UInt8) : ∀ (k j : Nat) (ml : Int), j + k = 8 →
    (∃ t, j ≤ t ∧ t < 8 ∧ b.toNat.testBit t = true ∧ (∀ u, j ≤ u → u < t → b.toNat.testBit u = false) ∧
      maskByte b j k ml = .inl (ml - (t - j : Int))) ∨
    ((∀ u, j ≤ u → u < 8 → b.toNat.testBit u = false) ∧ maskByte b j k ml = .inr (ml - k)) := by
  intro k
  induction k with
  | zero => intro j ml h; right; exact ⟨by intros; omega, by simp [maskByte]⟩
  | succ k ih =>
    intro j ml h
    unfold maskByte
    by_cases hb : b.toNat.testBit j = true
    · left
      rw [if_pos ((byte_bit' b j (by omega)).2 hb)]
      exact ⟨j, by omega, by omega, hb, by intros; omega, by simp⟩
    · rw [if_neg (fun h' => hb ((byte_bit' b j (by omega)).1 h'))]
      have hb' : b.toNat.testBit j = false := by simpa using hb
      rcases ih (j + 1) (ml - 1) (by omega) with ⟨t, h1, h2, h3, h4, h5⟩ | ⟨h1, h2⟩
      · left
        refine ⟨t, by omega, h2, h3, ?_, ?_⟩
        · intro u hu1 hu2
          by_cases huj : u = j
          · rw [huj]; exact hb'
          · exact h4 u (by omega) hu2
        · rw [h5]; congr 1; omega
      · right
        refine ⟨?_, ?_⟩
        · intro u hu1 hu2
          by_cases huj : u = j
          · rw [huj]; exact hb'
          · exact h1 u (by omega) hu2
        · rw [h2]; congr 1; omega

/-- **C38 (measuring).** The length computed from a contiguous mask of any number of bytes is the number of ones. -/
theorem mask_length_exact (m : List UInt8) (n : Nat) (h : IsMaskLE m n) : maskLength m = n := by
  have gen : ∀ (m : List UInt8) (z : Nat) (ml : Int), z ≤ 8 * m.length →
      (∀ i, i < 8 * m.length → (((m[i / 8]?).getD 0).toNat.testBit (i % 8) = decide (z ≤ i))) →
      maskBytes m ml = if z < 8 * m.length then ml - z else 0 := by
    intro m
    induction m with
    | nil => intro z ml hz _; simp [maskBytes]
    | cons b m ih =>
      intro z ml hz hb
      have hb0 : ∀ u, u < 8 → b.toNat.testBit u = decide (z ≤ u) := by
        intro u hu
        have := hb u (by simp; omega)
        have e1 : u / 8 = 0 := by omega
        have e2 : u % 8 = u := by omega
        rw [e1, e2] at this; simpa using this
      unfold maskBytes
      rcases maskByte_spec b 8 0 ml (by omega) with ⟨t, h1, h2, h3, h4, h5⟩ | ⟨h1, h2⟩
      · rw [h5]
        have e1 : z ≤ t := by have := hb0 t h2; rw [h3] at this; simpa using this.symm
        have e2 : z = t := by
          by_cases hzt : z < t
          · have := h4 z (by omega) hzt
            rw [hb0 z (by omega)] at this; simp at this
          · omega
        rw [if_pos (by simp; omega)]
        simp; omega
      · rw [h2]
        have e1 : 8 ≤ z := by
          by_cases hz8 : z < 8
          · have := h1 z (by omega) hz8
            rw [hb0 z hz8] at this; simp at this
          · omega
        simp only
        have hlen : (b :: m).length = m.length + 1 := rfl
        rw [hlen] at hz ⊢
        rw [ih (z - 8) (ml - (8 : Nat)) (by omega) ?_]
        · by_cases hlt : z - 8 < 8 * m.length
          · rw [if_pos hlt, if_pos (by omega)]; omega
          · rw [if_neg hlt, if_neg (by omega)]
        · intro i hi
          have := hb (i + 8) (by rw [hlen]; omega)
          have e3 : (i + 8) / 8 = i / 8 + 1 := by omega
          have e4 : (i + 8) % 8 = i % 8 := by omega
          rw [e3, e4, List.getElem?_cons_succ] at this
          rw [this]; congr 1; apply propext; omega
  obtain ⟨h1, h2⟩ := h
  unfold maskLength
  rw [gen m (8 * m.length - n) _ (by omega) h2]
  by_cases hn : n = 0
  · subst hn; rw [if_neg (by omega)]; rfl
  · rw [if_pos (by omega)]; omega

-- Non-vacuity: 255.255.240.0 (/20) in little-endian order.
example : IsMaskLE [0x00, 0xf0, 0xff, 0xff] 20 ∧ maskLength [0x00, 0xf0, 0xff, 0xff] = 20 := by
  refine ⟨⟨by decide, ?_⟩, by decide +kernel⟩
  have : ∀ i : Fin 32, ((([0x00, 0xf0, 0xff, 0xff] : List UInt8)[i.val / 8]?).getD 0).toNat.testBit (i.val % 8) =
      decide (8 * 4 - 20 ≤ i.val) := by decide +kernel
  intro i hi; exact this ⟨i, hi⟩

/-! ## C39 -/

/-- An interface has a MAC address just if one of the six bytes is not zero. -/
theorem has_mac_exact (a b c d e f : UInt8) :
    hasMac [a, b, c, d, e, f] = true ↔ ¬ (a = 0 ∧ b = 0 ∧ c = 0 ∧ d = 0 ∧ e = 0 ∧ f = 0) := by
  simp [hasMac]
  tauto

/-- **C39.** The link-local address of a MAC is `fe80::` followed by the modified EUI-64 of the MAC (bit 1 of the
first byte flipped, `ff:fe` in the middle). -/
theorem link_local_exact (a b c d e f : UInt8) :
    macToLinkLocal [a, b, c, d, e, f] = [0xfe, 0x80, 0, 0, 0, 0, 0, 0, a ^^^ 2, b, c, 0xff, 0xfe, d, e, f] := rfl

/-- **C39.** Distinct MACs get distinct link-local addresses. -/
theorem link_local_injective (m m' : List UInt8) (h : m.length = 6) (h' : m'.length = 6)
    (heq : macToLinkLocal m = macToLinkLocal m') : m = m' := by
  match m, h with
  | [a, b, c, d, e, f], _ =>
    match m', h' with
    | [a', b', c', d', e', f'], _ =>
      rw [link_local_exact, link_local_exact] at heq
      simp only [List.cons.injEq, and_true, true_and] at heq
      obtain ⟨h1, h2, h3, h4, h5, h6⟩ := heq
      have : a = a' := by
        have := congrArg (· ^^^ (2 : UInt8)) h1
        simpa [UInt8.xor_assoc] using this
      rw [this, h2, h3, h4, h5, h6]

/-! ## C43 -/

/-- Value of a string of hexadecimal digits, most significant first. -/
def hexVal : List Nat → Nat
  | [] => 0
  | d :: l => d * 16 ^ l.length + hexVal l

theorem hexDigit_lt (c : Char) (d : Nat) (h : hexDigit c = some d) : d < 16 := by
  unfold hexDigit at h
  repeat' split at h
  all_goals first | (cases h; done) | skip
  all_goals
    rename_i hc
    have h1 := hc.1
    have h2 := hc.2
    rw [Char.le_def, UInt32.le_iff_toNat_le] at h1 h2
    simp at h h1 h2
    have hcv : c.toNat = c.val.toNat := rfl
    omega

theorem hexToNum_spec : ∀ (s : List Char) (ds : List Nat) (rest : List Char) (n : Nat),
    s.map hexDigit = ds.map some → (∀ c, rest.head? = some c → hexDigit c = none) →
    n * 16 ^ ds.length + hexVal ds < 2 ^ 31 →
    hexToNum n (s ++ rest) = some (n * 16 ^ ds.length + hexVal ds) := by
  intro s
  induction s with
  | nil =>
    intro ds rest n hd hr _
    cases ds with
    | cons _ _ => simp at hd
    | nil =>
      simp only [List.nil_append, hexVal, List.length_nil, Nat.pow_zero, Nat.mul_one, Nat.add_zero]
      cases rest with
      | nil => rfl
      | cons c r => unfold hexToNum; rw [hr c rfl]
  | cons c s ih =>
    intro ds rest n hd hr hb
    cases ds with
    | nil => simp at hd
    | cons d ds =>
      simp only [List.map_cons, List.cons.injEq] at hd
      have hd16 := hexDigit_lt c d hd.1
      have hpos : 0 < 16 ^ ds.length := Nat.pow_pos (by omega)
      have e2 : n * 16 ^ (d :: ds).length + hexVal (d :: ds) = (n * 16 + d) * 16 ^ ds.length + hexVal ds := by
        simp only [List.length_cons, hexVal]
        rw [Nat.pow_succ, Nat.add_mul, Nat.mul_assoc n 16, Nat.mul_comm 16]; omega
      rw [e2] at hb ⊢
      rw [List.cons_append, hexToNum, hd.1]
      simp only
      have hshift : n <<< 4 ||| d = n * 16 + d := by
        rw [← Nat.shiftLeft_add_eq_or_of_lt (by omega), Nat.shiftLeft_eq]
      have hle : n * 16 + d ≤ (n * 16 + d) * 16 ^ ds.length := Nat.le_mul_of_pos_right _ hpos
      rw [if_neg (by omega), hshift]
      exact ih ds rest (n * 16 + d) hd.2 hr hb

/-- **C43.** `ofp_hex_to_num` of a string starting with hexadecimal digits (either case) whose value fits in an
`int` is that value; parsing stops at the first other character. -/
theorem hex_to_num_exact (s rest : List Char) (ds : List Nat) (h : s.map hexDigit = ds.map some)
    (hr : ∀ c, rest.head? = some c → hexDigit c = none) (hb : hexVal ds < 2 ^ 31) :
    hexToNum 0 (s ++ rest) = some (hexVal ds) := by
  have := hexToNum_spec s ds rest 0 h hr (by omega)
  simpa using this

/-- The digits are the sixteen expected ones. -/
theorem hex_digits : "0123456789abcdef".toList.map hexDigit = (List.range 16).map some ∧
    "ABCDEF".toList.map hexDigit = [10, 11, 12, 13, 14, 15].map some ∧
    hexDigit 'g' = none ∧ hexDigit ':' = none ∧ hexDigit '@' = none ∧ hexDigit '/' = none ∧ hexDigit '`' = none := by
  decide +kernel

/-- **C43 violated.** Eight digits with the top bit set ("ffffffff") overflow `int`: undefined behaviour. -/
theorem hex_to_num_violated : hexToNum 0 "ffffffff".toList = none := by decide +kernel

example : hexToNum 0 "1aF:3".toList = some 0x1af := by decide +kernel

end Verif.Util

import Verif.Cksum.Lemmas

/-!
# Properties C01–C04, C41: checksums

`stored r` is what memory holds after `uint16_t x = r` on a little-endian host, i.e. the bytes that go
on the wire.
-/
namespace Verif.Cksum

/-- The two bytes in memory of a `uint16_t` on a little-endian host. -/
def stored (r : Nat) : List Nat := [r % 256, r / 256]

theorem stored_swap {r} (h : r ≤ 65535) : stored r = Spec.wireBytes (swap16 r) := by
  unfold stored Spec.wireBytes swap16
  simp only [List.cons.injEq, and_true]; omega

/-! ## C01 -/

theorem small_sum {len s : Nat} (hl : len ≤ 262143) (h : s ≤ len / 4 * 4294967295 + 3 * 65535) :
    s < 2 ^ 48 := by
  have : len / 4 * 4294967295 ≤ 65535 * 4294967295 := Nat.mul_le_mul_right _ (by omega)
  refine Nat.lt_of_le_of_lt (Nat.le_trans h (Nat.add_le_add_right this _)) (by simp)

/-- **C01 (partial: buffers up to 262143 bytes).** For every buffer, every length up to 262143 within
it and every alignment, `ofp_cksum_buffer` reads only the first `len` bytes (never past them) and the
value it returns, stored in memory, is the RFC 1071 checksum of these bytes in network byte order.
Missing for the full property: longer buffers, for which it is false
(`ofp_cksum_buffer_violated`). -/
theorem ofp_cksum_buffer_partial (odd2 arm4 : Bool) (bs : List UInt8) (len : Nat)
    (h : len ≤ bs.length) (hl : len ≤ 262143) :
    ∃ r, cksumBuffer odd2 arm4 len bs = some r ∧
      stored r = Spec.wireBytes (Spec.checksum (bs.take len)) := by
  obtain ⟨s, e, b, r⟩ := cksumBuffer_val odd2 arm4 len bs h (by omega)
  refine ⟨_, e, ?_⟩
  rw [fold_eq_norm (small_sum hl b), norm_congr r, not16_le (norm_le _), ← host_net,
    stored_swap (by omega)]

example : ∃ r, cksumBuffer true false 5 [0x45, 0, 1, 2, 3, 77] = some r ∧
    stored r = Spec.wireBytes (Spec.checksum [0x45, 0, 1, 2, 3]) :=
  ofp_cksum_buffer_partial true false [0x45, 0, 1, 2, 3, 77] 5 (by decide) (by decide)

/-- The result does not depend on the alignment of the buffer nor on what follows it. -/
theorem ofp_cksum_buffer_local (o1 a1 o2 a2 : Bool) (bs t1 t2 : List UInt8)
    (hl : bs.length ≤ 262143) :
    cksumBuffer o1 a1 bs.length (bs ++ t1) = cksumBuffer o2 a2 bs.length (bs ++ t2) := by
  obtain ⟨s, e, b, r⟩ := cksumBuffer_val o1 a1 bs.length (bs ++ t1) (by simp) (by omega)
  obtain ⟨s', e', b', r'⟩ := cksumBuffer_val o2 a2 bs.length (bs ++ t2) (by simp) (by omega)
  rw [e, e', fold_eq_norm (small_sum hl b), fold_eq_norm (small_sum hl b'), norm_congr r,
    norm_congr r']
  simp

theorem addWords_ff (n s : Nat) (r : List UInt8) (hs : s + n * 4294967295 < 18446744073709551616) :
    addWords n s (List.replicate (4 * n) 255 ++ r) = some (s + n * 4294967295, r) := by
  induction n generalizing s with
  | zero => simp [addWords]
  | succ n ih =>
    rw [show 4 * (n + 1) = 4 * n + 1 + 1 + 1 + 1 by omega]
    simp only [List.replicate_succ, List.cons_append, addWords, ld32]
    have e : add64 s ((255 : UInt8).toNat + 256 * (255 : UInt8).toNat + 65536 * (255 : UInt8).toNat +
        16777216 * (255 : UInt8).toNat) = s + 4294967295 := by
      unfold add64
      rw [show (255 : UInt8).toNat = 255 from rfl]
      omega
    have hm : (n + 1) * 4294967295 = 4294967295 + n * 4294967295 := by
      rw [Nat.add_mul, Nat.one_mul, Nat.add_comm]
    rw [hm] at hs ⊢
    rw [e, ih _ (by rw [Nat.add_assoc]; exact hs), Nat.add_assoc]

theorem bufLoop_ff (k : Nat) : ∀ (m s : Nat) (r : List UInt8), m < 32 →
    s + 8 * k * 4294967295 < 18446744073709551616 →
    bufLoop (32 * k + m) s (List.replicate (32 * k) 255 ++ r) =
      some (m, s + 8 * k * 4294967295, r) := by
  induction k with
  | zero => intro m s r hm _; unfold bufLoop; rw [if_neg (by omega)]; simp
  | succ k ih =>
    intro m s r hm hs
    have hk : 8 * (k + 1) * 4294967295 = 34359738360 + 8 * k * 4294967295 := by omega
    unfold bufLoop; rw [if_pos (by omega)]
    have e : List.replicate (32 * (k + 1)) (255 : UInt8) ++ r =
        List.replicate (4 * 8) 255 ++ (List.replicate (32 * k) 255 ++ r) := by
      rw [← List.append_assoc, List.replicate_append_replicate]; congr 2; omega
    have h8 : (8 : Nat) * 4294967295 = 34359738360 := by simp
    rw [e, addWords_ff 8 s _ (by rw [h8]; omega)]
    simp only
    rw [show 32 * (k + 1) + m - 32 = 32 * k + m by omega, ih m _ r hm (by rw [h8]; omega)]
    congr 3; rw [h8]; omega

theorem beSum_ff (k : Nat) (r : List UInt8) :
    beSum (List.replicate (2 * k) 255 ++ r) = k * 65535 + beSum r := by
  induction k with
  | zero => simp
  | succ k ih =>
    rw [show 2 * (k + 1) = 2 * k + 1 + 1 by omega]
    simp only [List.replicate_succ, List.cons_append, beSum, ih]
    rw [show (255 : UInt8).toNat = 255 from rfl]; omega

theorem cksumBuffer_ff (k : Nat) (hk : k ≤ 8192) :
    cksumBuffer false false (32 * k + 8)
      (List.replicate (32 * k) 255 ++ [255, 255, 255, 255, 0, 0, 1, 0]) =
    some (not16 (fold (8 * k * 4294967295 + 4294967295 + 65536))) := by
  have hb : 8 * k * 4294967295 ≤ 8 * 8192 * 4294967295 := Nat.mul_le_mul_right _ (by omega)
  have hb' : 8 * k * 4294967295 ≤ 281474976645120 := hb
  have hl := bufLoop_ff k 8 0 [255, 255, 255, 255, 0, 0, 1, 0] (by omega) (by omega)
  unfold cksumBuffer
  simp only [Bool.false_eq_true, false_and, if_false, Option.bind_eq_bind, Option.bind_some, hl]
  clear hb hl
  generalize 8 * k * 4294967295 = m at hb' ⊢
  have e1 : add64 m 4294967295 = m + 4294967295 := by unfold add64; omega
  have e2 : add64 (m + 4294967295) 65536 = m + 4294967295 + 65536 := by unfold add64; omega
  simp [addWords, ld32, e1, e2]

/-- 262148 bytes 0xff followed by `00 00 01 00`. -/
def bigBuf : List UInt8 := List.replicate 262144 255 ++ [255, 255, 255, 255, 0, 0, 1, 0]

/-- **C01 violated for large buffers.** `ofp_cksum_fold` folds 64 bits in three additions only; for
this 262152-byte buffer a carry is lost and the function returns 0xffff although the checksum is
0xfeff (bytes `fe ff`). -/
theorem ofp_cksum_buffer_violated :
    ∃ (bs : List UInt8) (r : Nat), cksumBuffer false false bs.length bs = some r ∧
      stored r ≠ Spec.wireBytes (Spec.checksum bs) := by
  refine ⟨bigBuf, 65535, ?_, ?_⟩
  · have hlen : bigBuf.length = 262144 + 8 := by
      unfold bigBuf; rw [List.length_append, List.length_replicate]
      rw [show [(255 : UInt8), 255, 255, 255, 0, 0, 1, 0].length = 8 from rfl]
    have h := cksumBuffer_ff 8192 (Nat.le_refl _)
    have ek : 32 * 8192 = 262144 := by simp
    rw [ek] at h
    rw [hlen]; unfold bigBuf; rw [h]
    simp [fold, add64, not16]
  · have : Spec.checksum bigBuf = 65535 - 256 := by
      have h := beSum_ff 131072 [255, 255, 255, 255, 0, 0, 1, 0]
      have ek : 2 * 131072 = 262144 := by simp
      rw [ek] at h
      rw [spec_closed]
      unfold bigBuf
      rw [h]
      simp [beSum, norm]
    rw [this]; simp [stored, Spec.wireBytes]

/-! ## C02 -/

theorem cksumIph_val (odd : Bool) (hl : Nat) (h5 : 5 ≤ hl) (h15 : hl ≤ 15) (bs : List UInt8)
    (h : 4 * hl ≤ bs.length) :
    cksumIph odd hl bs = some (65535 - norm (leSum (bs.take (4 * hl)))) := by
  have fin : ∀ s, s < 2 ^ 48 → R s (leSum (bs.take (4 * hl))) →
      not16 (fold s) = 65535 - norm (leSum (bs.take (4 * hl))) := by
    intro s h1 h2
    rw [fold_eq_norm h1, norm_congr h2, not16_le (norm_le _)]
  have h4 : (4 : Nat) * 4294967295 = 17179869180 := by simp
  have h4' : (4 : Nat) * 4294967296 = 17179869184 := by simp
  cases odd with
  | false =>
    obtain ⟨t1, e1, b1, r1⟩ := addWords_spec 4 0 bs (by omega) (by simp)
    obtain ⟨t2, e2, b2, r2⟩ := addWords_spec (hl - 4) t1 (bs.drop 16)
      (by rw [List.length_drop]; omega)
      (Nat.lt_of_le_of_lt (Nat.add_le_add b1 (Nat.mul_le_mul_right _ (show hl - 4 ≤ 11 by omega)))
        (by simp))
    unfold cksumIph
    simp only [Bool.false_eq_true, if_false, Option.bind_eq_bind, Option.bind_some, e1]
    rw [if_pos (by omega), show ((hl : Int) - 4).toNat = hl - 4 by omega, Nat.zero_add]
    simp only [Nat.reduceMul, e2, Option.bind_some]
    have key : bs.take (4 * hl) = bs.take 16 ++ (bs.drop 16).take (4 * (hl - 4)) := by
      rw [show 4 * hl = 16 + 4 * (hl - 4) by omega, List.take_add]
    have hR : R (t1 + t2) (leSum (bs.take (4 * hl))) := by
      rw [key, leSum_append_even _ _ (by rw [List.length_take]; omega)]
      exact r1.add r2
    have hb : t1 + t2 < 2 ^ 48 :=
      Nat.lt_of_le_of_lt (Nat.add_le_add b1 (Nat.le_trans b2
        (Nat.mul_le_mul_right _ (show hl - 4 ≤ 11 by omega)))) (by simp)
    have := fin _ hb hR
    simp [this]
  | true =>
    obtain ⟨x, e0, b0, r0⟩ := ld16_spec bs (by omega)
    obtain ⟨t1, e1, b1, r1⟩ := addWords_spec 4 x (bs.drop 2) (by rw [List.length_drop]; omega)
      (by rw [h4']; omega)
    obtain ⟨t2, e2, b2, r2⟩ := addWords_spec (hl - 5) (x + t1) (bs.drop 18)
      (by rw [List.length_drop]; omega)
      (Nat.lt_of_le_of_lt (Nat.add_le_add (Nat.add_le_add (Nat.le_of_lt b0) b1)
        (Nat.mul_le_mul_right _ (show hl - 5 ≤ 11 by omega)))
        (by simp))
    obtain ⟨y, e3, b3, r3⟩ := ld16_spec (bs.drop (4 * hl - 2)) (by rw [List.length_drop]; omega)
    have hsw : (if 1 ≤ (hl : Int) - 1 - 4 ∧ (hl : Int) - 1 - 4 ≤ 11 then
        addWords ((hl : Int) - 1 - 4).toNat (x + t1) (bs.drop 18) else some (x + t1, bs.drop 18)) =
        some (x + t1 + t2, bs.drop (4 * hl - 2)) := by
      by_cases hc : hl = 5
      · subst hc
        simp [addWords] at e2
        simp [e2]
      · rw [if_pos (by omega), show ((hl : Int) - 1 - 4).toNat = hl - 5 by omega, e2,
          List.drop_drop]
        congr 3; omega
    unfold cksumIph
    have hx : add64 0 x = x := by unfold add64; omega
    have hdd : (bs.drop 2).drop (4 * 4) = bs.drop 18 := by rw [List.drop_drop]
    simp only [if_true, Option.bind_eq_bind, Option.bind_some, e0, Option.map_some, hx, e1, hdd, hsw,
      e3]
    have key : bs.take (4 * hl) = bs.take 2 ++ ((bs.drop 2).take 16 ++
        ((bs.drop 18).take (4 * (hl - 5)) ++ (bs.drop (4 * hl - 2)).take 2)) := by
      rw [show 4 * hl = 2 + (16 + (4 * (hl - 5) + 2)) by omega, List.take_add, List.take_add,
        List.take_add, List.drop_drop, List.drop_drop]
      rw [show 2 + (16 + (4 * (hl - 5) + 2)) - 2 = 2 + 16 + 4 * (hl - 5) by omega]
    have hR : R (x + t1 + t2 + y) (leSum (bs.take (4 * hl))) := by
      rw [key, leSum_append_even _ _ (by rw [List.length_take]; omega),
        leSum_append_even _ _ (by rw [List.length_take, List.length_drop]; omega),
        leSum_append_even _ _ (by rw [List.length_take, List.length_drop]; omega), ← r0, ← r3]
      have := (R.refl x).add (r1.add (r2.add (R.refl y)))
      rw [show x + t1 + t2 + y = x + (t1 + (t2 + y)) by omega]; exact this
    have hb : x + t1 + t2 + y < 2 ^ 48 :=
      Nat.lt_of_le_of_lt (Nat.add_le_add (Nat.add_le_add (Nat.add_le_add (Nat.le_of_lt b0) b1)
        (Nat.le_trans b2
        (Nat.mul_le_mul_right _ (show hl - 5 ≤ 11 by omega)))) (Nat.le_of_lt b3)) (by simp)
    have hadd : add64 (x + t1 + t2) y = x + t1 + t2 + y := by unfold add64; omega
    have := fin _ hb hR
    simp [hadd, this]

/-- **C02.** For every header of `hl` 32-bit words, 5 ≤ hl ≤ 15, at either alignment,
`ofp_cksum_iph` reads exactly the header and returns its RFC 1071 checksum. -/
theorem ofp_cksum_iph_correct (odd : Bool) (hl : Nat) (h5 : 5 ≤ hl) (h15 : hl ≤ 15)
    (hdr rest : List UInt8) (h : hdr.length = 4 * hl) :
    ∃ r, cksumIph odd hl (hdr ++ rest) = some r ∧
      stored r = Spec.wireBytes (Spec.checksum hdr) ∧ (r = 0 ↔ Spec.checksum hdr = 0) := by
  have e := cksumIph_val odd hl h5 h15 (hdr ++ rest) (by simp; omega)
  have ht : (hdr ++ rest).take (4 * hl) = hdr := by rw [← h]; simp
  rw [ht] at e
  refine ⟨_, e, ?_, ?_⟩
  · rw [stored_swap (by omega), host_net]
  · rw [← host_net]
    have := norm_le (leSum hdr)
    generalize norm (leSum hdr) = x at *
    unfold swap16; omega

example : (List.replicate 20 (7 : UInt8)).length = 4 * 5 := by decide

/-- **C02, sender side.** A header whose checksum field (bytes 10-11, zero while summing) is then
filled with the value returned by `ofp_cksum_iph` is accepted by the receiver's check
(`ofp_cksum_iph(...) == 0`), at any alignment. -/
theorem ofp_cksum_iph_fill_verifies (odd odd' : Bool) (hl : Nat) (h5 : 5 ≤ hl) (h15 : hl ≤ 15)
    (pre post : List UInt8) (hp : pre.length = 10) (h : 12 + post.length = 4 * hl)
    (r : Nat) (hr : cksumIph odd hl (pre ++ [0, 0] ++ post) = some r)
    (hnz : ∃ b ∈ pre, b ≠ 0) :
    cksumIph odd' hl (pre ++ [UInt8.ofNat (r % 256), UInt8.ofNat (r / 256)] ++ post) = some 0 := by
  have hlen : ∀ x y : UInt8, (pre ++ [x, y] ++ post).length = 4 * hl := by
    intro x y; simp; omega
  have e1 := cksumIph_val odd hl h5 h15 (pre ++ [0, 0] ++ post) (by rw [hlen]; exact Nat.le_refl _)
  have e2 := cksumIph_val odd' hl h5 h15
    (pre ++ [UInt8.ofNat (r % 256), UInt8.ofNat (r / 256)] ++ post) (by rw [hlen]; exact Nat.le_refl _)
  rw [List.take_of_length_le (by rw [hlen]; exact Nat.le_refl _)] at e1 e2
  rw [e1] at hr
  injection hr with hr
  have hsum : ∀ x y : UInt8, leSum (pre ++ [x, y] ++ post) =
      leSum pre + (x.toNat + 256 * y.toNat) + leSum post := by
    intro x y
    rw [leSum_append_even _ _ (by simp; omega), leSum_append_even _ _ (by omega)]
    simp [leSum]
  rw [hsum] at hr
  rw [e2, hsum]
  have hpos : ∀ l : List UInt8, (∃ b ∈ l, b ≠ 0) → 0 < leSum l := by
    intro l
    induction l using leSum.induct with
    | case1 => simp
    | case2 a => intro ⟨b, hb, hb0⟩; simp at hb; subst hb; simp only [leSum]
                 have : b.toNat ≠ 0 := fun h => hb0 (UInt8.toNat_inj.mp (by simpa using h))
                 omega
    | case3 a b r ih =>
      intro ⟨c, hc, hc0⟩
      simp only [List.mem_cons] at hc
      simp only [leSum]
      rcases hc with rfl | rfl | hc
      · have : c.toNat ≠ 0 := fun h => hc0 (UInt8.toNat_inj.mp (by simpa using h))
        omega
      · have : c.toNat ≠ 0 := fun h => hc0 (UInt8.toNat_inj.mp (by simpa using h))
        omega
      · have := ih ⟨c, hc, hc0⟩; omega
  have hp0 := hpos pre hnz
  have hn := norm_le (leSum pre + (UInt8.toNat 0 + 256 * UInt8.toNat 0) + leSum post)
  have hR := R_norm (leSum pre + (UInt8.toNat 0 + 256 * UInt8.toNat 0) + leSum post)
  have t1 : (UInt8.ofNat (r % 256)).toNat = r % 256 := by simp
  have t2 : (UInt8.ofNat (r / 256)).toNat = r / 256 := by
    rw [UInt8.toNat_ofNat']; omega
  rw [t1, t2]
  have e0 : (UInt8.toNat 0) = 0 := rfl
  rw [e0] at hr hn hR
  congr 1
  have : norm (leSum pre + (r % 256 + 256 * (r / 256)) + leSum post) = 65535 := by
    symm; apply eq_norm (Nat.le_refl _)
    unfold R at *
    omega
  omega

example : ∃ r, cksumIph true 5 ([0x45, 0, 0, 40, 1, 2, 0x40, 0, 64, 17] ++ [0, 0] ++
    [10, 0, 0, 1, 10, 0, 0, 2]) = some r := ⟨_, rfl⟩

/-- **C02, error detection.** If a header passes the check and exactly one of its 16-bit words is
changed, the check fails, unless the change is between the two representations of zero
(0000 and ffff). -/
theorem ofp_cksum_iph_detects (odd odd' : Bool) (hl : Nat) (h5 : 5 ≤ hl) (h15 : hl ≤ 15)
    (pre post : List UInt8) (a b a' b' : UInt8) (hp : pre.length % 2 = 0)
    (h : pre.length + 2 + post.length = 4 * hl)
    (hv : cksumIph odd hl (pre ++ [a, b] ++ post) = some 0)
    (hne : (a, b) ≠ (a', b'))
    (hz : ¬((a, b) = (0, 0) ∧ (a', b') = (255, 255)))
    (hz' : ¬((a, b) = (255, 255) ∧ (a', b') = (0, 0))) :
    ∃ r, cksumIph odd' hl (pre ++ [a', b'] ++ post) = some r ∧ r ≠ 0 := by
  have hlen : ∀ x y : UInt8, (pre ++ [x, y] ++ post).length = 4 * hl := by
    intro x y; simp; omega
  have e1 := cksumIph_val odd hl h5 h15 (pre ++ [a, b] ++ post) (by rw [hlen]; exact Nat.le_refl _)
  have e2 := cksumIph_val odd' hl h5 h15 (pre ++ [a', b'] ++ post) (by rw [hlen]; exact Nat.le_refl _)
  rw [List.take_of_length_le (by rw [hlen]; exact Nat.le_refl _)] at e1 e2
  refine ⟨_, e2, ?_⟩
  rw [e1] at hv; injection hv with hv
  have hsum : ∀ x y : UInt8, leSum (pre ++ [x, y] ++ post) =
      leSum pre + (x.toNat + 256 * y.toNat) + leSum post := by
    intro x y
    rw [leSum_append_even _ _ (by simp; omega), leSum_append_even _ _ (by omega)]
    simp [leSum]
  rw [hsum] at hv ⊢
  have n1 := norm_le (leSum pre + (a.toNat + 256 * b.toNat) + leSum post)
  have n2 := norm_le (leSum pre + (a'.toNat + 256 * b'.toNat) + leSum post)
  have r1 := R_norm (leSum pre + (a.toNat + 256 * b.toNat) + leSum post)
  have r2 := R_norm (leSum pre + (a'.toNat + 256 * b'.toNat) + leSum post)
  intro hc
  generalize norm (leSum pre + (a.toNat + 256 * b.toNat) + leSum post) = u at *
  generalize norm (leSum pre + (a'.toNat + 256 * b'.toNat) + leSum post) = v at *
  have ha := a.toNat_lt; have hb := b.toNat_lt; have ha' := a'.toNat_lt; have hb' := b'.toNat_lt
  unfold R at r1 r2
  have cases3 : (a.toNat = a'.toNat ∧ b.toNat = b'.toNat) ∨
      (a.toNat = 0 ∧ b.toNat = 0 ∧ a'.toNat = 255 ∧ b'.toNat = 255) ∨
      (a.toNat = 255 ∧ b.toNat = 255 ∧ a'.toNat = 0 ∧ b'.toNat = 0) := by
    have hw : ∀ w w' k : Nat, w ≤ 65535 → w' ≤ 65535 → u = 65535 → v = 65535 →
        u % 65535 = (k + w) % 65535 → v % 65535 = (k + w') % 65535 →
        w = w' ∨ (w = 0 ∧ w' = 65535) ∨ (w = 65535 ∧ w' = 0) := by
      intro w w' k _ _ _ _ _ _; omega
    have := hw (a.toNat + 256 * b.toNat) (a'.toNat + 256 * b'.toNat) (leSum pre + leSum post)
      (by omega) (by omega) (by omega) (by omega)
      (by rw [r1.1]; congr 1; omega) (by rw [r2.1]; congr 1; omega)
    omega
  have inj : ∀ x y : UInt8, x.toNat = y.toNat → x = y := fun x y h => UInt8.toNat_inj.mp h
  rcases cases3 with ⟨h1, h2⟩ | ⟨h1, h2, h3, h4⟩ | ⟨h1, h2, h3, h4⟩
  · exact hne (by rw [inj _ _ h1, inj _ _ h2])
  · exact hz ⟨by rw [inj a 0 h1, inj b 0 h2], by rw [inj a' 255 h3, inj b' 255 h4]⟩
  · exact hz' ⟨by rw [inj a 255 h1, inj b 255 h2], by rw [inj a' 0 h3, inj b' 0 h4]⟩

example : cksumIph false 5 ([] ++ [0x45, 0] ++ [0, 20, 0, 0, 0, 0, 64, 17, 0x66, 0xd7,
    10, 0, 0, 1, 10, 0, 0, 2]) = some 0 := by rfl

end Verif.Cksum

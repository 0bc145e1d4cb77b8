import Verif.Md5.Absorb
/-! # MD5: digests (C125, C126) -/
namespace Verif.Md5
open Spec (absorb md5 padded toBytes)

theorem u8_u32 (w : W) : w.toUInt8 = UInt8.ofNat w.toNat := by
  apply UInt8.toNat_inj.1; rw [UInt32.toNat_toUInt8, UInt8.toNat_ofNat']

theorem encode_eq (w : W) : encode w = toBytes 4 w.toNat := by
  have h := w.toNat_lt
  unfold encode
  simp only [toBytes, u8_u32, UInt32.toNat_shiftRight]
  rw [show (8 : W).toNat % 32 = 8 from rfl, show (16 : W).toNat % 32 = 16 from rfl, show (24 : W).toNat % 32 = 24 from rfl,
    Nat.shiftRight_eq_div_pow, Nat.shiftRight_eq_div_pow, Nat.shiftRight_eq_div_pow]
  generalize w.toNat = n
  rw [show n / 256 / 256 = n / 2 ^ 16 by omega, show n / 2 ^ 16 / 256 = n / 2 ^ 24 by omega, show n / 256 = n / 2 ^ 8 from rfl]

theorem bits_eq (a b : W) : encode a ++ encode b = toBytes 8 (a.toNat + 4294967296 * b.toNat) := by
  have h := a.toNat_lt
  rw [encode_eq, encode_eq]
  simp only [toBytes, List.cons_append, List.nil_append]
  generalize a.toNat = x at *
  generalize b.toNat = y at *
  have o : ∀ u v : Nat, u % 256 = v % 256 → UInt8.ofNat u = UInt8.ofNat v := by
    intro u v h; apply UInt8.toNat_inj.1; rw [UInt8.toNat_ofNat', UInt8.toNat_ofNat']; exact h
  rw [o x (x + 4294967296 * y) (by omega), o (x / 256) ((x + 4294967296 * y) / 256) (by omega),
    o (x / 256 / 256) ((x + 4294967296 * y) / 256 / 256) (by omega),
    o (x / 256 / 256 / 256) ((x + 4294967296 * y) / 256 / 256 / 256) (by omega),
    show (x + 4294967296 * y) / 256 / 256 / 256 / 256 = y by omega]

theorem pad_ok {c : Ctx} {msg : List B} (h : Holds c msg) : ∃ c', pad c = .ok c' ∧ Holds c' (padded msg) := by
  have hi := index_eq h
  have hb := bits_eq c.c0 c.c1
  rw [h.cnt] at hb
  unfold pad
  dsimp only
  rw [hb]
  generalize c.c0 >>> 3 &&& 0x3f = index at *
  have hlt : msg.length % 64 < 64 := Nat.mod_lt _ (by omega)
  have hp : (if index < 56 then 56 - index else 120 - index).toNat = (119 - msg.length % 64) % 64 + 1 := by
    have l : index < 56 ↔ msg.length % 64 < 56 := by
      rw [UInt32.lt_iff_toNat_lt, hi]; exact Iff.rfl
    by_cases hx : msg.length % 64 < 56
    · rw [if_pos (l.2 hx), UInt32.toNat_sub, hi]
      show (4294967296 - msg.length % 64 + 56) % 4294967296 = _
      generalize msg.length % 64 = r at *; omega
    · rw [if_neg (fun y => hx (l.1 y)), UInt32.toNat_sub, hi]
      show (4294967296 - msg.length % 64 + 120) % 4294967296 = _
      generalize msg.length % 64 = r at *; omega
  rw [hp, rd_ok _ _ _ (by show _ ≤ (0x80 :: List.replicate 63 (0 : B)).length; rw [List.length_cons, List.length_replicate]; omega)]
  have hpad : (padding.drop 0).take ((119 - msg.length % 64) % 64 + 1) = 0x80 :: List.replicate ((119 - msg.length % 64) % 64) 0 := by
    rw [List.drop_zero]
    unfold padding
    rw [List.take_succ_cons, List.take_replicate]
    congr 2; omega
  rw [hpad]
  dsimp only
  obtain ⟨c1, u1, h1⟩ := update_ok h (0x80 :: List.replicate ((119 - msg.length % 64) % 64) 0)
    (by rw [List.length_cons, List.length_replicate]; omega)
  rw [u1]
  obtain ⟨c2, u2, h2⟩ := update_ok h1 (toBytes 8 (8 * msg.length % 18446744073709551616)) (by show 8 + 63 < _; omega)
  exact ⟨c2, u2, h2⟩

theorem padded_len (msg : List B) : (padded msg).length % 64 = 0 := by
  have e : (toBytes 8 (8 * msg.length % 2 ^ 64)).length = 8 := rfl
  unfold padded
  rw [List.length_append, e, List.length_append, List.length_cons, List.length_replicate]
  omega

/-- **C125.** Whatever the context memory held, `ofp_MD5Init`, any number of `ofp_MD5Update`s and `ofp_MD5Final` give the digest RFC 1321
    assigns to the bytes of all the calls one after the other, without any access outside the buffers, and wipe the context. -/
theorem md5_rfc (c : Ctx) (hc : c.buffer.length = 64) (xs : List (List B)) (hx : ∀ x ∈ xs, x.length + 63 < 2 ^ 32) :
    digest c xs = .ok (md5 xs.flatten, { state := ⟨0, 0, 0, 0⟩, c0 := 0, c1 := 0, buffer := List.replicate 64 0 }) := by
  obtain ⟨c1, u1, h1⟩ := updates_ok xs hx (holds_init c hc)
  rw [List.nil_append] at h1
  obtain ⟨c2, u2, h2⟩ := pad_ok h1
  have hs := h2.st
  have hl := padded_len xs.flatten
  rw [List.take_of_length_le (by omega)] at hs
  unfold digest
  rw [u1]
  dsimp only
  unfold final
  rw [u2]
  dsimp only
  unfold md5
  dsimp only
  rw [← hs, encode_eq, encode_eq, encode_eq, encode_eq]
  rfl

/-- **C125.** How the bytes are divided among the calls does not matter. -/
theorem md5_chunks (c c' : Ctx) (hc : c.buffer.length = 64) (hc' : c'.buffer.length = 64) (xs ys : List (List B))
    (hx : ∀ x ∈ xs, x.length + 63 < 2 ^ 32) (hy : ∀ y ∈ ys, y.length + 63 < 2 ^ 32) (h : xs.flatten = ys.flatten) :
    digest c xs = digest c' ys := by
  rw [md5_rfc c hc xs hx, md5_rfc c' hc' ys hy, h]

theorem toBytes_len (n v : Nat) : (toBytes n v).length = n := by
  induction n generalizing v with
  | zero => rfl
  | succ n ih => show (toBytes n _).length + 1 = n + 1; rw [ih]

/-- A digest has sixteen bytes. -/
theorem md5_len (m : List B) : (md5 m).length = 16 := by
  unfold md5
  dsimp only
  rw [List.length_append, List.length_append, List.length_append, toBytes_len, toBytes_len, toBytes_len, toBytes_len]

/-- The theorem at work: "ab" and "c", in a context full of 0xff. -/
example : digest { state := ⟨1, 2, 3, 4⟩, c0 := 5, c1 := 6, buffer := List.replicate 64 0xff } [[97, 98], [], [99]] =
    .ok ([0x90, 0x01, 0x50, 0x98, 0x3c, 0xd2, 0x4f, 0xb0, 0xd6, 0x96, 0x3f, 0x7d, 0x28, 0xe1, 0x7f, 0x72], wiped) := by
  rw [md5_rfc _ rfl _ (by decide)]
  exact congrArg (fun d => Except.ok (d, wiped)) (by decide +kernel)

theorem loop_wrap (input : List B) (hl : input.length = 4294967295) : ∀ (n k : Nat) (st : Regs), k ≤ 67108863 → 67108864 - k ≤ n →
    loop input 4294967295 n (UInt32.ofNat (32 + 64 * k)) st = .error .oob := by
  intro n
  induction n with
  | zero => intro k st h1 h2; omega
  | succ n ih =>
    intro k st h1 h2
    have e2 : (UInt32.ofNat (32 + 64 * k)).toNat = 32 + 64 * k := UInt32.toNat_ofNat_of_lt' (by show _ < 4294967296; omega)
    have t : UInt32.ofNat (32 + 64 * k) + 63 < 4294967295 := by
      rw [UInt32.lt_iff_toNat_lt, UInt32.toNat_add, e2, show (63 : UInt32).toNat = 63 from rfl, show (4294967295 : UInt32).toNat = 4294967295 from rfl]
      show (32 + 64 * k + 63) % 4294967296 < 4294967295
      omega
    unfold loop
    rw [if_pos t, e2]
    by_cases hk : k = 67108863
    · have : rd input (32 + 64 * k) 64 = .error .oob := if_neg (by rw [hl, hk]; omega)
      rw [this]
    · rw [rd_ok _ _ _ (by rw [hl]; omega)]
      have a : UInt32.ofNat (32 + 64 * k) + 64 = UInt32.ofNat (32 + 64 * (k + 1)) := by
        apply UInt32.toNat_inj.1
        rw [UInt32.toNat_add, e2, UInt32.toNat_ofNat']; rfl
      show loop input _ n (UInt32.ofNat (32 + 64 * k) + 64) _ = _
      rw [a]
      exact ih (k + 1) _ (by omega) (by omega)

/-- **C126 is violated**: `i + 63` wraps. After 32 bytes, an `ofp_MD5Update` with 4294967295 bytes (a length its parameter can express)
    reads beyond the end of the bytes it was given. -/
theorem long_input_violated (c : Ctx) (hc : c.buffer.length = 64) (x y : List B) (hx : x.length = 32) (hy : y.length = 4294967295) :
    digest c [x, y] = .error .oob := by
  obtain ⟨c1, u1, h1⟩ := update_ok (holds_init c hc) x (by omega)
  rw [List.nil_append] at h1
  have hi := index_eq h1
  rw [hx] at hi
  have hix : c1.c0 >>> 3 &&& 0x3f = 32 := UInt32.toNat_inj.1 hi
  have e : UInt32.ofNat y.length = 4294967295 := by rw [hy]; rfl
  have b1 : blocks c1 y 4294967295 32 = .error .oob := by
    unfold blocks
    dsimp only
    rw [if_pos (by decide), show ((64 : W) - 32).toNat = 32 from rfl, rd_ok _ _ _ (by omega)]
    dsimp only
    rw [blit_ok _ _ _ (by rw [List.length_take, List.length_drop, h1.len, hy]; decide)]
    dsimp only
    have w := loop_wrap y hy (y.length / 64 + 2) 0
      (transform c1.state (c1.buffer.take (32 : W).toNat ++ (y.drop 0).take 32 ++ c1.buffer.drop ((32 : W).toNat + ((y.drop 0).take 32).length)))
      (by omega) (by rw [hy]; omega)
    rw [show (64 : W) - 32 = UInt32.ofNat (32 + 64 * 0) from rfl, w]
  unfold digest updates
  rw [u1]
  dsimp only
  unfold updates update
  dsimp only
  rw [hix, e, b1]

/-- Such inputs exist. -/
example : ∃ x y : List B, x.length = 32 ∧ y.length = 4294967295 :=
  ⟨List.replicate 32 0, List.replicate 4294967295 0, List.length_replicate, List.length_replicate⟩

end Verif.Md5

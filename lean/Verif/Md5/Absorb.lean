import Verif.Md5.Block
/-! # MD5: taking in a message piece by piece -/
namespace Verif.Md5
open Spec (absorb compress)

abbrev Q := UInt32 × UInt32 × UInt32 × UInt32

theorem absorb_short (q : Q) (m : List B) (h : m.length < 64) : absorb q m = q := by
  unfold absorb; rw [Nat.div_eq_of_lt h]; rfl

theorem absorb_one (q : Q) (m : List B) (h : m.length = 64) : absorb q m = compress q m := by
  unfold absorb
  rw [h, show 64 / 64 = 1 from rfl, List.range_one, List.foldl_cons, List.foldl_nil, Nat.mul_zero, List.drop_zero, List.take_of_length_le (by omega)]

theorem absorb_append (q : Q) (m x : List B) (h : m.length % 64 = 0) : absorb q (m ++ x) = absorb (absorb q m) x := by
  have hm : m.length = 64 * (m.length / 64) := by omega
  have hn : (m ++ x).length / 64 = m.length / 64 + x.length / 64 := by
    rw [List.length_append]; omega
  unfold absorb
  rw [hn, List.range_add, List.foldl_append, List.foldl_map]
  have e1 : (List.range (m.length / 64)).foldl (fun q i => compress q (((m ++ x).drop (64 * i)).take 64)) q =
      (List.range (m.length / 64)).foldl (fun q i => compress q ((m.drop (64 * i)).take 64)) q := by
    apply fold_congr
    intro i hi q
    have hi : i < m.length / 64 := List.mem_range.1 hi
    rw [List.drop_append_of_le_length (by omega), List.take_append_of_le_length (by rw [List.length_drop]; omega)]
  rw [e1]
  apply fold_congr
  intro i hi q
  congr 2
  have : 64 * (m.length / 64 + i) = m.length + 64 * i := by omega
  rw [this, ← List.drop_drop, List.drop_left]

/-- What a context must be after `msg`: whole blocks absorbed, the rest kept at the start of the buffer, the bits counted. -/
structure Holds (c : Ctx) (msg : List B) : Prop where
  len : c.buffer.length = 64
  st : c.state.q = absorb (0x67452301, 0xefcdab89, 0x98badcfe, 0x10325476) (msg.take (64 * (msg.length / 64)))
  buf : c.buffer.take (msg.length % 64) = msg.drop (64 * (msg.length / 64))
  cnt : c.c0.toNat + 4294967296 * c.c1.toNat = 8 * msg.length % 18446744073709551616

theorem holds_init (c : Ctx) (h : c.buffer.length = 64) : Holds (md5Init c) [] := ⟨h, rfl, rfl, rfl⟩

theorem index_eq {c : Ctx} {msg : List B} (h : Holds c msg) : ((c.c0 >>> 3) &&& 0x3f).toNat = msg.length % 64 := by
  have hc := h.cnt
  have h0 := c.c0.toNat_lt
  rw [UInt32.toNat_and, UInt32.toNat_shiftRight]
  show (c.c0.toNat >>> (3 % 32)) &&& (2 ^ 6 - 1) = _
  rw [Nat.and_two_pow_sub_one_eq_mod, Nat.shiftRight_eq_div_pow]
  generalize c.c0.toNat = a at *
  generalize c.c1.toNat = b at *
  generalize msg.length = n at *
  show a / 8 % 64 = n % 64
  have e : 8 * n = 18446744073709551616 * (8 * n / 18446744073709551616) + (a + 4294967296 * b) := by omega
  generalize 8 * n / 18446744073709551616 = k at e
  omega

theorem shl3 (x : W) : (x <<< 3).toNat = 8 * x.toNat % 4294967296 := by
  rw [UInt32.toNat_shiftLeft, show (3 : UInt32).toNat % 32 = 3 from rfl, Nat.shiftLeft_eq]; omega

theorem shr29 (x : W) : (x >>> 29).toNat = x.toNat / 536870912 := by
  rw [UInt32.toNat_shiftRight, show (29 : UInt32).toNat % 32 = 29 from rfl, Nat.shiftRight_eq_div_pow]

theorem bump_arith (a b n l : Nat) (ha : a < 4294967296) (hb : b < 4294967296) (hl : l < 4294967296)
    (h : a + 4294967296 * b = 8 * n % 18446744073709551616) :
    (a + 8 * l % 4294967296) % 4294967296 +
      4294967296 * (((if (a + 8 * l % 4294967296) % 4294967296 < 8 * l % 4294967296 then (b + 1) % 4294967296 else b) + l / 536870912) % 4294967296) =
      8 * (n + l) % 18446744073709551616 := by
  have e : 8 * n = 18446744073709551616 * (8 * n / 18446744073709551616) + (a + 4294967296 * b) := by omega
  generalize 8 * n / 18446744073709551616 = k at e
  have e2 : 8 * l = 4294967296 * (l / 536870912) + 8 * l % 4294967296 := by omega
  have e3 : l / 536870912 < 8 := by omega
  have e4 : 8 * l % 4294967296 < 4294967296 := Nat.mod_lt _ (by omega)
  rw [show 8 * (n + l) = 8 * n + 8 * l by omega, e]
  generalize l / 536870912 = u at *
  generalize 8 * l % 4294967296 = v at *
  generalize 8 * l = w at *
  clear hl e
  by_cases hc : (a + v) % 4294967296 < v
  · rw [if_pos hc]; clear h; omega
  · rw [if_neg hc]; clear h; omega

theorem bump_cnt (c : Ctx) (n : Nat) (l : W) (h : c.c0.toNat + 4294967296 * c.c1.toNat = 8 * n % 18446744073709551616) :
    (bump c l).1.toNat + 4294967296 * (bump c l).2.toNat = 8 * (n + l.toNat) % 18446744073709551616 := by
  have k := bump_arith c.c0.toNat c.c1.toNat n l.toNat c.c0.toNat_lt c.c1.toNat_lt l.toNat_lt h
  rw [← k]
  unfold bump
  dsimp only
  rw [UInt32.toNat_add, shl3, UInt32.toNat_add, shr29]
  congr 3
  by_cases hc : c.c0 + l <<< 3 < l <<< 3
  · rw [if_pos hc, if_pos, UInt32.toNat_add]
    · rfl
    · have := UInt32.lt_iff_toNat_lt.1 hc
      rw [UInt32.toNat_add, shl3] at this; exact this
  · rw [if_neg hc, if_neg]
    intro hx; apply hc
    rw [UInt32.lt_iff_toNat_lt, UInt32.toNat_add, shl3]; exact hx

theorem rd_ok (m : List B) (o n : Nat) (h : o + n ≤ m.length) : rd m o n = .ok ((m.drop o).take n) := if_pos h

theorem blit_ok (buf : List B) (o : Nat) (src : List B) (h : o + src.length ≤ buf.length) :
    blit buf o src = .ok (buf.take o ++ src ++ buf.drop (o + src.length)) := if_pos h

/-- The block loop hashes every whole block that is left, and stops at the first byte that is not in one. -/
theorem loop_ok (input : List B) (hl : input.length + 63 < 4294967296) : ∀ (n i : Nat) (st : Regs), i ≤ input.length →
    (input.length - i) / 64 < n →
    ∃ st', loop input (UInt32.ofNat input.length) n (UInt32.ofNat i) st = .ok (st', UInt32.ofNat (i + 64 * ((input.length - i) / 64))) ∧
      st'.q = absorb st.q ((input.drop i).take (64 * ((input.length - i) / 64))) := by
  intro n
  induction n with
  | zero => intro i st _ h; omega
  | succ n ih =>
    intro i st hi hn
    have e1 : (UInt32.ofNat input.length).toNat = input.length := UInt32.toNat_ofNat_of_lt' (by show _ < 4294967296; omega)
    have e2 : (UInt32.ofNat i).toNat = i := UInt32.toNat_ofNat_of_lt' (by show _ < 4294967296; omega)
    have t : UInt32.ofNat i + 63 < UInt32.ofNat input.length ↔ i + 63 < input.length := by
      rw [UInt32.lt_iff_toNat_lt, UInt32.toNat_add, e1, e2, show (63 : UInt32).toNat = 63 from rfl]
      show (i + 63) % 4294967296 < _ ↔ _
      rw [Nat.mod_eq_of_lt (by omega)]
    have a : UInt32.ofNat i + 64 = UInt32.ofNat (i + 64) := by
      apply UInt32.toNat_inj.1
      rw [UInt32.toNat_add, e2, UInt32.toNat_ofNat']; rfl
    unfold loop
    by_cases h : i + 63 < input.length
    · rw [if_pos (t.2 h), e2, rd_ok _ _ _ (by omega)]
      have hb : ((input.drop i).take 64).length = 64 := by rw [List.length_take, List.length_drop]; omega
      obtain ⟨st', g1, g2⟩ := ih (i + 64) (transform st ((input.drop i).take 64)) (by omega) (by omega)
      refine ⟨st', ?_, ?_⟩
      · show loop input _ n (UInt32.ofNat i + 64) _ = _
        rw [a, g1, show i + 64 + 64 * ((input.length - (i + 64)) / 64) = i + 64 * ((input.length - i) / 64) by omega]
      · rw [g2, transform_q _ _ hb, ← absorb_one _ _ hb, ← absorb_append _ _ _ (by rw [hb]),
          show 64 * ((input.length - i) / 64) = 64 + 64 * ((input.length - (i + 64)) / 64) by omega, List.take_add, List.drop_drop]
    · rw [if_neg (fun x => h (t.1 x))]
      refine ⟨st, ?_, ?_⟩
      · rw [show i + 64 * ((input.length - i) / 64) = i by omega]
      · rw [show 64 * ((input.length - i) / 64) = 0 by omega, List.take_zero, absorb_short _ _ (by simp)]

/-- One `ofp_MD5Update`. -/
theorem update_ok {c : Ctx} {msg : List B} (h : Holds c msg) (input : List B) (hl : input.length + 63 < 4294967296) :
    ∃ c', update c input = .ok c' ∧ Holds c' (msg ++ input) := by
  have e1 : (UInt32.ofNat input.length).toNat = input.length := UInt32.toNat_ofNat_of_lt' (by show _ < 4294967296; omega)
  have hi := index_eq h
  have hcnt := bump_cnt c msg.length (UInt32.ofNat input.length) h.cnt
  rw [e1, ← List.length_append] at hcnt
  unfold update
  dsimp only
  generalize bump c (UInt32.ofNat input.length) = cnt at *
  generalize c.c0 >>> 3 &&& 0x3f = index at *
  have hlt : msg.length % 64 < 64 := Nat.mod_lt _ (by omega)
  have hp : ((64 : W) - index).toNat = 64 - msg.length % 64 := by
    rw [UInt32.toNat_sub, hi]
    show (4294967296 - msg.length % 64 + 64) % 4294967296 = _
    generalize msg.length % 64 = r at *
    omega
  have hple : (64 : W) - index ≤ UInt32.ofNat input.length ↔ 64 - msg.length % 64 ≤ input.length := by
    rw [UInt32.le_iff_toNat_le, hp, e1]
  have hpo : (64 : W) - index = UInt32.ofNat (64 - msg.length % 64) := by
    apply UInt32.toNat_inj.1; rw [hp, UInt32.toNat_ofNat_of_lt' (by show _ < 4294967296; omega)]
  by_cases hc : 64 - msg.length % 64 ≤ input.length
  · -- at least one block gets full
    have hbt : (c.buffer.take (msg.length % 64)).length = msg.length % 64 := by rw [List.length_take, h.len]; omega
    have hpl : ((input.drop 0).take (64 - msg.length % 64)).length = 64 - msg.length % 64 := by
      rw [List.length_take, List.length_drop]; omega
    obtain ⟨st', g1, g2⟩ := loop_ok input hl (input.length / 64 + 2) (64 - msg.length % 64)
      (transform c.state (c.buffer.take (msg.length % 64) ++ (input.drop 0).take (64 - msg.length % 64) ++ c.buffer.drop (msg.length % 64 + ((input.drop 0).take (64 - msg.length % 64)).length))) hc
      (by generalize msg.length % 64 = r at *; omega)
    have hbuf : c.buffer.take (msg.length % 64) ++ (input.drop 0).take (64 - msg.length % 64) ++ c.buffer.drop (msg.length % 64 + ((input.drop 0).take (64 - msg.length % 64)).length)
        = msg.drop (64 * (msg.length / 64)) ++ input.take (64 - msg.length % 64) := by
      rw [hpl, h.buf, List.drop_zero, List.drop_of_length_le (l := c.buffer) (by rw [h.len]; omega), List.append_nil]
    have hblk : (msg.drop (64 * (msg.length / 64)) ++ input.take (64 - msg.length % 64)).length = 64 := by
      rw [List.length_append, List.length_drop, List.length_take]; omega
    have b1 : blocks c input (UInt32.ofNat input.length) index = .ok (st', msg.drop (64 * (msg.length / 64)) ++ input.take (64 - msg.length % 64),
        UInt32.ofNat (64 - msg.length % 64 + 64 * ((input.length - (64 - msg.length % 64)) / 64)), 0) := by
      unfold blocks
      dsimp only
      rw [if_pos (hple.2 hc), hp, rd_ok _ _ _ (by omega), hi]
      dsimp only
      rw [blit_ok _ _ _ (by rw [hpl, h.len]; omega)]
      dsimp only
      rw [hpo, g1, hbuf]
    rw [b1]
    dsimp only
    have hN : 64 * ((msg ++ input).length / 64) = 64 * (msg.length / 64) + (64 + 64 * ((input.length - (64 - msg.length % 64)) / 64)) := by
      rw [List.length_append]; omega
    have hR : (msg ++ input).length % 64 = input.length - (64 - msg.length % 64 + 64 * ((input.length - (64 - msg.length % 64)) / 64)) := by
      rw [List.length_append]; omega
    have hI : 64 - msg.length % 64 + 64 * ((input.length - (64 - msg.length % 64)) / 64) ≤ input.length := by
      generalize msg.length % 64 = r at *; omega
    rw [hbuf, transform_q _ _ hblk, ← absorb_one _ _ hblk, h.st,
      ← absorb_append _ (msg.take _) _ (by rw [List.length_take]; omega),
      ← absorb_append _ (msg.take _ ++ _) _ (by rw [List.length_append, hblk, List.length_take]; omega)] at g2
    have hs : ((msg.take (64 * (msg.length / 64)) ++ (msg.drop (64 * (msg.length / 64)) ++ input.take (64 - msg.length % 64))) ++
        (input.drop (64 - msg.length % 64)).take (64 * ((input.length - (64 - msg.length % 64)) / 64))) =
        (msg ++ input).take (64 * ((msg ++ input).length / 64)) := by
      rw [← List.append_assoc, List.take_append_drop, List.append_assoc, ← List.take_add, hN, List.take_append]
      congr 1
      · rw [List.take_of_length_le (by omega)]
      · congr 1; omega
    rw [hs] at g2
    have hd : (msg ++ input).drop (64 * ((msg ++ input).length / 64)) = input.drop (64 - msg.length % 64 + 64 * ((input.length - (64 - msg.length % 64)) / 64)) := by
      rw [hN, List.drop_append, List.drop_of_length_le (by omega), List.nil_append]
      congr 1; omega
    generalize hIv : 64 - msg.length % 64 + 64 * ((input.length - (64 - msg.length % 64)) / 64) = I at *
    have e3 : (UInt32.ofNat I).toNat = I := UInt32.toNat_ofNat_of_lt' (by show _ < 4294967296; omega)
    have e4 : (UInt32.ofNat input.length - UInt32.ofNat I).toNat = input.length - I := by
      rw [UInt32.toNat_sub, e1, e3]; show (4294967296 - I + input.length) % 4294967296 = _; omega
    rw [e3, e4, rd_ok _ _ _ (by omega)]
    dsimp only
    have hrl : ((input.drop I).take (input.length - I)).length = input.length - I := by rw [List.length_take, List.length_drop]; omega
    have ht : (input.drop I).take (input.length - I) = input.drop I := List.take_of_length_le (by rw [List.length_drop]; omega)
    have hm : (msg ++ input).length % 64 < 64 := Nat.mod_lt _ (by omega)
    rw [show (0 : W).toNat = 0 from rfl, blit_ok _ _ _ (by rw [hrl, hblk]; omega)]
    refine ⟨_, rfl, ?_, g2, ?_, hcnt⟩
    · dsimp only
      rw [hrl, List.take_zero, List.nil_append, List.length_append, hrl, List.length_drop, hblk]; omega
    · dsimp only
      rw [List.take_zero, List.nil_append, hd, hR, ht, ← List.length_drop, List.take_left]
  · -- everything fits the buffer
    have b1 : blocks c input (UInt32.ofNat input.length) index = .ok (c.state, c.buffer, 0, index) := by
      unfold blocks
      dsimp only
      rw [if_neg (fun x => hc (hple.1 x))]
    rw [b1]
    dsimp only
    rw [UInt32.sub_zero, e1, show (0 : W).toNat = 0 from rfl, rd_ok _ _ _ (by omega), hi]
    dsimp only
    rw [List.drop_zero, List.take_length, blit_ok _ _ _ (by rw [h.len]; omega)]
    have hN : (msg ++ input).length / 64 = msg.length / 64 := by rw [List.length_append]; omega
    have hR : (msg ++ input).length % 64 = msg.length % 64 + input.length := by rw [List.length_append]; omega
    refine ⟨_, rfl, ?_, ?_, ?_, hcnt⟩
    · simp only [List.length_append, List.length_take, List.length_drop, h.len]; omega
    · dsimp only
      rw [hN, List.take_append_of_le_length (by omega), h.st]
    · dsimp only
      have hbt : (c.buffer.take (msg.length % 64) ++ input).length = msg.length % 64 + input.length := by
        rw [List.length_append, List.length_take, h.len]; omega
      rw [hN, hR, ← hbt, List.take_left, h.buf, List.drop_append_of_le_length (by omega)]

/-- A sequence of `ofp_MD5Update`s. -/
theorem updates_ok (xs : List (List B)) (hx : ∀ x ∈ xs, x.length + 63 < 4294967296) : ∀ {c : Ctx} {msg : List B}, Holds c msg →
    ∃ c', updates c xs = .ok c' ∧ Holds c' (msg ++ xs.flatten) := by
  induction xs with
  | nil => intro c msg h; exact ⟨c, rfl, by simpa using h⟩
  | cons x xs ih =>
    intro c msg h
    obtain ⟨c1, u1, h1⟩ := update_ok h x (hx x List.mem_cons_self)
    obtain ⟨c2, u2, h2⟩ := ih (fun y hy => hx y (List.mem_cons_of_mem _ hy)) h1
    refine ⟨c2, ?_, ?_⟩
    · unfold updates; rw [u1]; exact u2
    · rw [List.flatten_cons, ← List.append_assoc]; exact h2

end Verif.Md5

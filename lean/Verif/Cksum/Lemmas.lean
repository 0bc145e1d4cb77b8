import Verif.Cksum.Spec
import Verif.Cksum.Model
/-! Helper lemmas for the checksum properties. -/
namespace Verif.Cksum

/-- Little-endian 16-bit word sum of a byte string (unbounded). -/
def leSum : List UInt8 → Nat
  | [] => 0
  | [a] => a.toNat
  | a :: b :: r => a.toNat + 256 * b.toNat + leSum r

/-- Big-endian 16-bit word sum. -/
def beSum : List UInt8 → Nat
  | [] => 0
  | [a] => a.toNat * 256
  | a :: b :: r => a.toNat * 256 + b.toNat + beSum r

/-- Canonical 16-bit one's complement representative of a sum. -/
def norm (s : Nat) : Nat := if s = 0 then 0 else if s % 65535 = 0 then 65535 else s % 65535

/-- Two sums stand for the same one's complement value. -/
def R (s v : Nat) : Prop := s % 65535 = v % 65535 ∧ (s = 0 ↔ v = 0)

theorem R.refl (s) : R s s := ⟨rfl, Iff.rfl⟩
theorem R.symm {s v} (h : R s v) : R v s := ⟨h.1.symm, h.2.symm⟩
theorem R.trans {a b c} (h : R a b) (g : R b c) : R a c := ⟨h.1.trans g.1, h.2.trans g.2⟩
theorem R.add {s v t w} (h : R s v) (g : R t w) : R (s + t) (v + w) := by
  obtain ⟨h1, h2⟩ := h; obtain ⟨g1, g2⟩ := g
  constructor
  · omega
  · constructor <;> intro h <;> omega
theorem norm_congr {s v} (h : R s v) : norm s = norm v := by
  obtain ⟨h1, h2⟩ := h
  unfold norm; rw [h1]; simp only [h2]
theorem R_norm (s) : R (norm s) s := by
  unfold norm; constructor
  · split
    · simp_all
    · split <;> omega
  · split
    · simp_all
    · split <;> omega
theorem norm_le (s) : norm s ≤ 65535 := by
  unfold norm; split
  · omega
  · split <;> omega
theorem norm_of_le {s} (h : s ≤ 65535) : norm s = s := by
  unfold norm; split
  · omega
  · split <;> omega
/-- A representative in range is the canonical one. -/
theorem eq_norm {x s} (hx : x ≤ 65535) (h : R x s) : x = norm s := by
  rw [← norm_congr h, norm_of_le hx]

theorem R_of_add_mul {x s q : Nat} (h : s = x + 65535 * q) (h0 : x = 0 → q = 0) : R x s := by
  unfold R
  constructor
  · subst h; simp
  · constructor <;> intro h' <;> omega

theorem R_halves32 (s : Nat) : R (s / 2 ^ 32 + s % 2 ^ 32) s :=
  R_of_add_mul (q := 65537 * (s / 2 ^ 32)) (by omega) (by omega)

theorem R_halves16 (s : Nat) : R (s / 2 ^ 16 + s % 2 ^ 16) s :=
  R_of_add_mul (q := s / 2 ^ 16) (by omega) (by omega)

theorem fold_eq_norm {s} (h : s < 2 ^ 48) : fold s = norm s := by
  have h1 := R_halves32 s
  have hb1 : s / 2 ^ 32 + s % 2 ^ 32 < 2 ^ 32 + 2 ^ 16 - 1 := by omega
  unfold fold add64
  simp only
  rw [Nat.mod_eq_of_lt (a := s / 2 ^ 32 + s % 2 ^ 32) (by omega)]
  generalize s / 2 ^ 32 + s % 2 ^ 32 = s1 at *
  have h2 := R_halves16 s1
  have hb2 : s1 / 2 ^ 16 + s1 % 2 ^ 16 < 2 ^ 17 - 1 := by omega
  rw [Nat.mod_eq_of_lt (a := s1 / 2 ^ 16 + s1 % 2 ^ 16) (by omega)]
  generalize s1 / 2 ^ 16 + s1 % 2 ^ 16 = s2 at *
  apply eq_norm
  · omega
  · refine R.trans ?_ (h2.trans h1)
    by_cases hc : s2 < 2 ^ 16
    · rw [show (s2 + s2 / 2 ^ 16) % 2 ^ 16 = s2 by omega]; exact R.refl _
    · exact R_of_add_mul (q := 1) (by omega) (by omega)

theorem reduce_eq_norm {s} (h : s < 2 ^ 31) : reduce s = norm s := by
  have h2 := R_halves16 s
  unfold reduce
  simp only
  have e : s % 65536 + s / 65536 % 65536 = s / 2 ^ 16 + s % 2 ^ 16 := by omega
  rw [e]
  have hb2 : s / 2 ^ 16 + s % 2 ^ 16 < 2 ^ 17 - 1 := by omega
  generalize s / 2 ^ 16 + s % 2 ^ 16 = s2 at *
  apply eq_norm
  · split <;> omega
  · refine R.trans ?_ h2
    split
    · exact R_of_add_mul (q := 1) (by omega) (by omega)
    · exact R.refl _

theorem R_swap {x} (h : x ≤ 65535) : R (swap16 x) (256 * x) := by
  unfold swap16
  exact R_of_add_mul (q := x / 256) (by omega) (by omega)
theorem swap_le (x) : swap16 x ≤ 65535 := by unfold swap16; omega

theorem beSum_R : ∀ bs, R (beSum bs) (256 * leSum bs)
  | [] => by simp [beSum, leSum, R]
  | [a] => by simp only [beSum, leSum]; unfold R; omega
  | a :: b :: r => by
    have ih := beSum_R r
    simp only [beSum, leSum]
    have : R (a.toNat * 256 + b.toNat) (256 * (a.toNat + 256 * b.toNat)) := by unfold R; omega
    have := this.add ih
    rwa [← Nat.mul_add] at this

theorem leSum_R_be (bs) : R (leSum bs) (256 * beSum bs) := by
  have h := beSum_R bs
  unfold R at *; omega

theorem words_lt : ∀ bs, ∀ w ∈ Spec.words bs, w < 65536
  | [] => by simp [Spec.words]
  | [a] => by
      intro w hw; simp only [Spec.words, List.mem_singleton] at hw; have := a.toNat_lt; omega
  | a :: b :: r => by
      intro w hw; simp only [Spec.words, List.mem_cons] at hw
      have := a.toNat_lt; have := b.toNat_lt
      rcases hw with h | h
      · omega
      · exact words_lt r w h

theorem ocAdd_norm {a b} (ha : a ≤ 65535) (hb : b ≤ 65535) : Spec.ocAdd a b = norm (a + b) := by
  apply eq_norm
  · unfold Spec.ocAdd; split <;> omega
  · unfold Spec.ocAdd R; split <;> omega

theorem words_sum : ∀ bs, (Spec.words bs).sum = beSum bs
  | [] => rfl
  | [a] => by simp [Spec.words, beSum]
  | a :: b :: r => by simp [Spec.words, beSum, words_sum r]

theorem foldl_ocAdd (ws : List Nat) (h : ∀ w ∈ ws, w < 65536) (s : Nat) :
    ws.foldl Spec.ocAdd (norm s) = norm (s + ws.sum) := by
  induction ws generalizing s with
  | nil => simp
  | cons w ws ih =>
    have hw := h w (by simp)
    rw [List.foldl_cons, ocAdd_norm (norm_le _) (by omega)]
    have : norm (norm s + w) = norm (s + w) := norm_congr ((R_norm s).add (R.refl w))
    rw [this, ih (fun x hx => h x (by simp [hx]))]
    simp [Nat.add_assoc]

/-- The specification in closed form. -/
theorem spec_closed (bs) : Spec.checksum bs = 65535 - norm (beSum bs) := by
  have := foldl_ocAdd (Spec.words bs) (words_lt bs) 0
  unfold Spec.checksum
  rw [show (0 : Nat) = norm 0 from rfl, this, words_sum]; simp

theorem norm_zero_iff {s} : norm s = 0 ↔ s = 0 := by
  have := (R_norm s).2; exact this

theorem norm_swap (s) : norm (256 * s) = swap16 (norm s) := by
  symm; apply eq_norm (swap_le _)
  refine (R_swap (norm_le s)).trans ?_
  have := R_norm s
  unfold R at *; omega

/-- Relation between the host-order value the code returns and the network-order spec. -/
theorem host_net (bs) : swap16 (65535 - norm (leSum bs)) = Spec.checksum bs := by
  rw [spec_closed, norm_congr (beSum_R bs), norm_swap]
  have := norm_le (leSum bs)
  generalize norm (leSum bs) = x at *
  unfold swap16; omega

theorem leSum_append_even : ∀ a b, a.length % 2 = 0 → leSum (a ++ b) = leSum a + leSum b
  | [], b, _ => by simp [leSum]
  | [x], b, h => by simp at h
  | x :: y :: r, b, h => by
    have ih := leSum_append_even r b (by simp at h; omega)
    simp only [List.cons_append, leSum, ih]; omega

theorem leSum_cons (x : UInt8) : ∀ b, leSum (x :: b) = x.toNat + beSum b
  | [] => by simp [leSum, beSum]
  | [y] => by simp [leSum, beSum]; omega
  | y :: z :: r => by
    simp only [leSum, beSum, leSum_cons z r]
    omega

theorem leSum_append_odd : ∀ a b, a.length % 2 = 1 → leSum (a ++ b) = leSum a + beSum b
  | [], b, h => by simp at h
  | [x], b, _ => by simpa [leSum] using leSum_cons x b
  | x :: y :: r, b, h => by
    have ih := leSum_append_odd r b (by simp at h; omega)
    simp only [List.cons_append, leSum, ih]; omega

/-- `addWords` consumes `4*n` bytes and adds their value. -/
theorem addWords_spec (n s : Nat) (d : List UInt8) (hd : 4 * n ≤ d.length)
    (hs : s + n * 4294967296 < 18446744073709551616) :
    ∃ t, addWords n s d = some (s + t, d.drop (4 * n)) ∧ t ≤ n * 4294967295 ∧
      R t (leSum (d.take (4 * n))) := by
  induction n generalizing s d with
  | zero => exact ⟨0, by simp [addWords], Nat.zero_le _, by simp [leSum, R]⟩
  | succ n ih =>
    match d, hd with
    | a :: b :: c :: e :: r, hd =>
      have ha := a.toNat_lt; have hb := b.toNat_lt; have hc := c.toNat_lt; have he := e.toNat_lt
      simp only [List.length_cons] at hd
      have hadd : add64 s (a.toNat + 256 * b.toNat + 65536 * c.toNat + 16777216 * e.toNat)
          = s + (a.toNat + 256 * b.toNat + 65536 * c.toNat + 16777216 * e.toNat) := by
        unfold add64; rw [Nat.mod_eq_of_lt]; omega
      obtain ⟨t, h1, h2, h3⟩ := ih
        (s + (a.toNat + 256 * b.toNat + 65536 * c.toNat + 16777216 * e.toNat)) r (by omega) (by omega)
      refine ⟨(a.toNat + 256 * b.toNat + 65536 * c.toNat + 16777216 * e.toNat) + t, ?_, by omega, ?_⟩
      · simp only [addWords, ld32, hadd, h1]
        rw [show 4 * (n + 1) = 4 * n + 4 from by omega]
        simp [Nat.add_assoc]
      · rw [show 4 * (n + 1) = 4 * n + 4 from by omega]
        simp only [List.take_succ_cons, leSum]
        rw [show a.toNat + 256 * b.toNat + (c.toNat + 256 * e.toNat + leSum (List.take (4*n) r))
          = (a.toNat + 256 * b.toNat + c.toNat + 256 * e.toNat) + leSum (List.take (4*n) r) by omega]
        apply R.add _ h3
        unfold R; omega
    | [], hd => simp at hd
    | [_], hd => simp at hd; omega
    | [_, _], hd => simp at hd; omega
    | [_, _, _], hd => simp at hd; omega

theorem ld16_spec (d : List UInt8) (hd : 2 ≤ d.length) :
    ∃ x, ld16 d = some (x, d.drop 2) ∧ x < 65536 ∧ x = leSum (d.take 2) := by
  match d, hd with
  | a :: b :: r, _ =>
    have := a.toNat_lt; have := b.toNat_lt
    refine ⟨_, rfl, by omega, ?_⟩
    simp [leSum]
  | [], h => simp at h
  | [_], h => simp at h

theorem bufLoop_spec (k : Nat) : ∀ (nleft s : Nat) (d : List UInt8), nleft / 32 = k → nleft ≤ d.length →
    s + (nleft / 4) * 4294967296 < 18446744073709551616 →
    ∃ t, bufLoop nleft s d = some (nleft % 32, s + t, d.drop (nleft / 32 * 32)) ∧
      t ≤ (nleft / 32 * 8) * 4294967295 ∧ R t (leSum (d.take (nleft / 32 * 32))) := by
  induction k with
  | zero =>
    intro nleft s d hk hd hs
    refine ⟨0, ?_, by omega, ?_⟩
    · unfold bufLoop; rw [if_neg (by omega), hk]
      rw [Nat.mod_eq_of_lt (by omega)]; simp
    · rw [hk]; simp [leSum, R]
  | succ k ih =>
    intro nleft s d hk hd hs
    obtain ⟨t, h1, h2, h3⟩ := addWords_spec 8 s d (by omega) (by
      have h8 : 8 ≤ nleft / 4 := by omega
      have := Nat.mul_le_mul_right 4294967296 h8
      exact Nat.lt_of_le_of_lt (Nat.add_le_add_left this s) hs)
    obtain ⟨u, g1, g2, g3⟩ := ih (nleft - 32) (s + t) (d.drop 32) (by omega)
      (by rw [List.length_drop]; omega) (by omega)
    have e1 : (nleft - 32) / 32 * 32 = nleft / 32 * 32 - 32 := by omega
    refine ⟨t + u, ?_, by omega, ?_⟩
    · unfold bufLoop; rw [if_pos (by omega), h1]; simp only [Nat.reduceMul, g1, e1]
      rw [List.drop_drop, show (nleft - 32) % 32 = nleft % 32 by omega,
        show 32 + (nleft / 32 * 32 - 32) = nleft / 32 * 32 by omega, Nat.add_assoc]
    · rw [show nleft / 32 * 32 = 32 + (nleft / 32 * 32 - 32) by omega, List.take_add,
        leSum_append_even]
      · rw [e1] at g3; exact h3.add g3
      · rw [List.length_take]; omega

end Verif.Cksum

namespace Verif.Cksum

theorem not16_le {x} (h : x ≤ 65535) : not16 x = 65535 - x := by
  unfold not16; omega

theorem not16_not16 {x} (h : x ≤ 65535) : not16 (not16 x) = x := by
  unfold not16; omega

theorem add64_eq {s x} (h : s + x < 18446744073709551616) : add64 s x = s + x := by
  unfold add64; exact Nat.mod_eq_of_lt h

theorem leSum_le_len : ∀ d : List UInt8, leSum d ≤ 65535 * ((d.length + 1) / 2)
  | [] => by simp [leSum]
  | [a] => by have := a.toNat_lt; simp [leSum]; omega
  | a :: b :: r => by
    have := a.toNat_lt; have := b.toNat_lt; have := leSum_le_len r
    simp only [leSum, List.length_cons]; omega

/-- The first (possible) half-word step of `ofp_cksum_buffer`. -/
theorem step16 (c : Bool) (len : Nat) (bs : List UInt8) (h : len ≤ bs.length) :
    ∃ n s w, (if c ∧ 2 ≤ len then (ld16 bs).map (fun (x, d) => (len - 2, add64 0 x, d))
        else some (len, 0, bs)) = some (n, s, w) ∧
      n ≤ len ∧ (len - n) % 2 = 0 ∧ w = bs.drop (len - n) ∧ s ≤ 65535 ∧
      R s (leSum (bs.take (len - n))) := by
  by_cases hc : c ∧ 2 ≤ len
  · rw [if_pos hc]
    obtain ⟨x, h1, h2, h3⟩ := ld16_spec bs (by omega)
    refine ⟨len - 2, x, bs.drop 2, ?_, by omega, by omega, ?_, by omega, ?_⟩
    · rw [h1]; simp only [Option.map_some]; rw [add64_eq (by omega), Nat.zero_add]
    · congr 1; omega
    · rw [show len - (len - 2) = 2 by omega, ← h3]; exact R.refl _
  · rw [if_neg hc]
    exact ⟨len, 0, bs, rfl, Nat.le_refl _, by omega, by simp, by omega, by simp [leSum, R]⟩

theorem step32 (c : Bool) (len s : Nat) (bs : List UInt8) (h : len ≤ bs.length)
    (hs : s ≤ 65535) :
    ∃ n t w, (if c ∧ 4 ≤ len then (ld32 bs).map (fun (x, d) => (len - 4, add64 s x, d))
        else some (len, s, bs)) = some (n, s + t, w) ∧
      n ≤ len ∧ (len - n) % 2 = 0 ∧ w = bs.drop (len - n) ∧ t ≤ (len - n) / 4 * 4294967295 ∧
      R t (leSum (bs.take (len - n))) := by
  by_cases hc : c ∧ 4 ≤ len
  · rw [if_pos hc]
    obtain ⟨t, h1, h2, h3⟩ := addWords_spec 1 s bs (by omega)
      (Nat.lt_of_le_of_lt (Nat.add_le_add_right hs _) (by decide))
    have : (ld32 bs).map (fun (x, d) => (len - 4, add64 s x, d)) =
        (addWords 1 s bs).map (fun (x, d) => (len - 4, x, d)) := by
      simp only [addWords]; cases ld32 bs <;> simp
    refine ⟨len - 4, t, bs.drop 4, ?_, by omega, by omega, ?_, by rw [show (len - (len - 4)) / 4 = 1 by omega]; exact h2, ?_⟩
    · rw [this, h1]; simp
    · congr 1; omega
    · rw [show len - (len - 4) = 4 * 1 by omega]; exact h3
  · rw [if_neg hc]
    exact ⟨len, 0, bs, by simp, Nat.le_refl _, by omega, by simp, by simp, by simp [leSum, R]⟩

/-- What `ofp_cksum_buffer` accumulates before folding. -/
theorem cksumBuffer_val (odd2 arm4 : Bool) (len : Nat) (bs : List UInt8) (h : len ≤ bs.length)
    (hl : len < 2 ^ 31) :
    ∃ s, cksumBuffer odd2 arm4 len bs = some (not16 (fold s)) ∧
      s ≤ len / 4 * 4294967295 + 3 * 65535 ∧ R s (leSum (bs.take len)) := by
  obtain ⟨n1, s1, w1, e1, a1, b1, c1, d1, r1⟩ := step16 odd2 len bs h
  obtain ⟨n2, t2, w2, e2, a2, b2, c2, d2, r2⟩ :=
    step32 arm4 n1 s1 w1 (by rw [c1, List.length_drop]; omega) d1
  have l1 : w1.length = bs.length - (len - n1) := by rw [c1, List.length_drop]
  have l2 : w2.length = w1.length - (n1 - n2) := by rw [c2, List.length_drop]
  obtain ⟨t3, e3, d3, r3⟩ := bufLoop_spec (n2 / 32) n2 (s1 + t2) w2 rfl (by omega) (by omega)
  obtain ⟨t4, e4, d4, r4⟩ := addWords_spec (n2 % 32 / 4) (s1 + t2 + t3) (w2.drop (n2 / 32 * 32))
    (by rw [List.length_drop]; omega) (by omega)
  -- the four regions consumed so far
  have key : ∀ k, bs.take (len - n2 + k) = bs.take (len - n1) ++ (w1.take (n1 - n2) ++ w2.take k) := by
    intro k
    rw [show len - n2 + k = (len - n1) + ((n1 - n2) + k) by omega, List.take_add, ← c1,
      List.take_add, ← c2]
  have key2 : ∀ k, w2.take (n2 / 32 * 32 + k) = w2.take (n2 / 32 * 32) ++
      ((w2.drop (n2 / 32 * 32)).take k) := by
    intro k; rw [List.take_add]
  have hev1 : (bs.take (len - n1)).length % 2 = 0 := by rw [List.length_take]; omega
  have hev2 : (w1.take (n1 - n2)).length % 2 = 0 := by rw [List.length_take]; omega
  have hev3 : (w2.take (n2 / 32 * 32)).length % 2 = 0 := by rw [List.length_take]; omega
  generalize hw3 : w2.drop (n2 / 32 * 32) = w3 at *
  have l3 : w3.length = w2.length - n2 / 32 * 32 := by rw [← hw3, List.length_drop]
  have hev4 : (w3.take (4 * (n2 % 32 / 4))).length % 2 = 0 := by rw [List.length_take]; omega
  have tot : ∀ k, leSum (bs.take (len - n2 + (n2 / 32 * 32 + (4 * (n2 % 32 / 4) + k)))) =
      leSum (bs.take (len - n1)) + (leSum (w1.take (n1 - n2)) + (leSum (w2.take (n2 / 32 * 32)) +
        (leSum (w3.take (4 * (n2 % 32 / 4))) + leSum ((w3.drop (4 * (n2 % 32 / 4))).take k)))) := by
    intro k
    rw [key, leSum_append_even _ _ hev1, leSum_append_even _ _ hev2, key2,
      leSum_append_even _ _ hev3, List.take_add, leSum_append_even _ _ hev4]
  generalize hw4 : w3.drop (4 * (n2 % 32 / 4)) = w4 at *
  have l4 : w4.length = w3.length - 4 * (n2 % 32 / 4) := by rw [← hw4, List.length_drop]
  have hl4 : n2 % 32 % 4 ≤ w4.length := by omega
  have hend : len - n2 + (n2 / 32 * 32 + (4 * (n2 % 32 / 4) + n2 % 32 % 4)) = len := by omega
  have tot' := tot (n2 % 32 % 4)
  rw [hend] at tot'
  have base := r1.add (r2.add (r3.add r4))
  -- the tail
  have tail : ∃ t5, t5 ≤ 65535 + 255 ∧ R t5 (leSum (w4.take (n2 % 32 % 4))) ∧
      (do let (nleft, s, d) ← (if 1 < n2 % 32 % 4 then
              (ld16 w4).map (fun (x, d) => (n2 % 32 % 4 - 2, add64 (s1 + t2 + t3 + t4) x, d))
            else some (n2 % 32 % 4, s1 + t2 + t3 + t4, w4))
          let s ← (if nleft = 1 then (match d with | [] => none | a :: _ => some (add64 s a.toNat))
            else some s)
          return not16 (fold s)) = some (not16 (fold (s1 + t2 + t3 + t4 + t5))) := by
    have hm : n2 % 32 % 4 < 4 := by omega
    have hbig : s1 + t2 + t3 + t4 < 2 ^ 63 := by omega
    generalize s1 + t2 + t3 + t4 = S at *
    generalize n2 % 32 % 4 = m at *
    match m, hm, w4, hl4 with
    | 0, _, w4, _ => exact ⟨0, by omega, by simp [leSum, R], by simp⟩
    | 1, _, a :: r, _ =>
      have := a.toNat_lt
      exact ⟨a.toNat, by omega, by simp [leSum, R], by simp [add64_eq (s := S) (x := a.toNat) (by omega)]⟩
    | 2, _, a :: b :: r, _ =>
      have := a.toNat_lt; have := b.toNat_lt
      exact ⟨a.toNat + 256 * b.toNat, by omega, by simp [leSum, R],
        by simp [ld16, add64_eq (s := S) (x := a.toNat + 256 * b.toNat) (by omega)]⟩
    | 3, _, a :: b :: c :: r, _ =>
      have := a.toNat_lt; have := b.toNat_lt; have := c.toNat_lt
      refine ⟨a.toNat + 256 * b.toNat + c.toNat, by omega, by simp [leSum, R], ?_⟩
      simp [ld16, add64_eq (s := S) (x := a.toNat + 256 * b.toNat) (by omega),
          add64_eq (s := S + (a.toNat + 256 * b.toNat)) (x := c.toNat) (by omega), Nat.add_assoc]
  obtain ⟨t5, f5, r5, e5⟩ := tail
  refine ⟨s1 + t2 + t3 + t4 + t5, ?_, by omega, ?_⟩
  · unfold cksumBuffer
    rw [e1]; simp only [Option.bind_eq_bind, Option.bind_some]
    rw [e2]; simp only [Option.bind_some]
    rw [e3]; simp only [Option.bind_some]
    rw [e4]; simp only [Option.bind_some]
    rw [← e5]; rfl
  · rw [tot']
    have := r1.add (r2.add (r3.add (r4.add r5)))
    rwa [show s1 + (t2 + (t3 + (t4 + t5))) = s1 + t2 + t3 + t4 + t5 by omega] at this

end Verif.Cksum

import Verif.Rto.Thm

/-! # Retransmission timeouts: histories, back-off, giving up -/

namespace Verif.Rto

/-- The smoothed round trip is unknown or lies between the extremes measured. -/
def Hull (a b : Int) (s : Rtt) : Prop := s.srtt = 0 ∨ (32 * (a - 1) ≤ s.srtt ∧ s.srtt ≤ 32 * b)

theorem xmit_avg {a b : Int} (c : Cfg) (ha : 0 ≤ a) (hb : b ≤ 524288) {s : Rtt} (h : Avg b s) (hh : Hull a b s) (r : Int) (h0 : a ≤ r) (h1 : r ≤ b) :
    Avg b (xmitTimer c s r) ∧ Hull a b (xmitTimer c s r) := by
  have hs := smooth_avg hb h r (by omega) h1
  refine ⟨⟨hs.1, hs.2.1, hs.2.2.1, by show (smooth s r).2 ≤ _; omega, fun _ => hs.2.2.2⟩, ?_⟩
  have e := smooth_exact hb h r (by omega) h1
  right
  show 32 * (a - 1) ≤ (smooth s r).1 ∧ (smooth s r).1 ≤ 32 * b
  refine ⟨?_, hs.2.1⟩
  rw [e]
  by_cases hz : s.srtt ≠ 0
  · rw [if_pos hz]
    rcases hh with hh | hh
    · exact absurd hh hz
    · show _ ≤ max 1 (s.srtt + (4 * (r - 1) - s.srtt / 8))
      omega
  · rw [if_neg hz]
    show _ ≤ 32 * r
    omega

theorem fire_avg {a b : Int} {c : Cfg} (hb : b ≤ 524288) {s s' : Rtt} (h : Avg b s) (hh : Hull a b s) (ss : Bool)
    (hf : rexmtFire c ss s = .again s') : Avg b s' ∧ Hull a b s' := by
  obtain ⟨a1, a2, a3, a4, a5⟩ := h
  unfold rexmtFire at hf
  by_cases hm : s.rxtshift + 1 > maxShift
  · rw [if_pos hm] at hf; cases hf
  · rw [if_neg hm] at hf
    dsimp only at hf
    by_cases hg : s.rxtshift + 1 > maxShift / 4
    · rw [if_pos hg] at hf
      cases hf
      have e : i32 (s.rttvar + s.srtt / 32) = s.rttvar + s.srtt / 32 := i32_id (by omega) (by omega)
      refine ⟨⟨Int.le_refl _, by show (0 : Int) ≤ _; omega, ?_, ?_, fun h => absurd rfl h⟩, .inl rfl⟩
      · show 0 ≤ i32 _
        rw [e]; omega
      · show i32 _ ≤ _
        rw [e]
        by_cases hz : s.srtt = 0
        · rw [hz]; omega
        · have := a5 hz
          omega
    · rw [if_neg hg] at hf
      cases hf
      exact ⟨⟨a1, a2, a3, a4, a5⟩, hh⟩

theorem step_avg {a b : Int} {c : Cfg} (ha : 0 ≤ a) (hb : b ≤ 524288) {s s' : Rtt} (h : Avg b s) (hh : Hull a b s) (e : Ev) (es : List Ev)
    (hm : Measured c a b s (e :: es)) (hs : step c s e = some s') : (Avg b s' ∧ Hull a b s') ∧ Measured c a b s' es := by
  have hm2 := hm.2
  rw [hs] at hm2
  refine ⟨?_, hm2⟩
  have hm1 := hm.1
  cases e with
  | ack ticks off ts newer =>
    unfold step at hs
    cases hq : measure s ticks off ts newer with
    | none => simp only [hq] at hs; cases hs; exact ⟨h, hh⟩
    | some r =>
      simp only [hq] at hs
      cases hs
      have := hm1 r hq
      exact xmit_avg c ha hb h hh r this.1 this.2
  | send ticks =>
    simp only [step, Option.some.injEq] at hs
    subst hs
    by_cases hz : s.rtttime = 0
    · rw [if_pos hz]; exact ⟨h, hh⟩
    · rw [if_neg hz]; exact ⟨h, hh⟩
  | timeout ss =>
    simp only [step] at hs
    cases hf : rexmtFire c ss s with
    | dropped e => rw [hf] at hs; cases hs
    | again t =>
      rw [hf] at hs
      cases hs
      exact fire_avg hb h hh ss hf
  | persist =>
    simp only [step, Option.some.injEq] at hs
    subst hs
    unfold setPersist
    dsimp only
    by_cases hz : s.rxtshift < maxShift
    · rw [if_pos hz]; exact ⟨h, hh⟩
    · rw [if_neg hz]; exact ⟨h, hh⟩
  | clear =>
    simp only [step, Option.some.injEq] at hs
    subst hs
    exact ⟨h, hh⟩
  | soft e =>
    simp only [step, Option.some.injEq] at hs
    subst hs
    exact ⟨h, hh⟩

theorem run_avg {a b : Int} {c : Cfg} (ha : 0 ≤ a) (hb : b ≤ 524288) (es : List Ev) : ∀ {s s' : Rtt}, Avg b s → Hull a b s →
    Measured c a b s es → run c s es = some s' → Avg b s' ∧ Hull a b s' := by
  induction es with
  | nil => intro s s' h hh _ hr; cases hr; exact ⟨h, hh⟩
  | cons e es ih =>
    intro s s' h hh hm hr
    unfold run at hr
    cases hs : step c s e with
    | none => simp only [hs] at hr; cases hr
    | some t =>
      simp only [hs] at hr
      have := step_avg ha hb h hh e es hm hs
      exact ih this.1.1 this.1.2 this.2 hr

theorem fresh_avg (c : Cfg) {b : Int} (hb : 0 ≤ b) : Avg b (fresh c) := by
  refine ⟨Int.le_refl _, by show (0 : Int) ≤ _; omega, ?_, ?_, fun h => absurd rfl h⟩
  · show 0 ≤ (3 * hz - 0) * 16 / 4
    decide
  · show (3 * hz - 0) * 16 / 4 ≤ 17 * b + 1216
    have : (3 * hz - 0) * 16 / 4 = 1200 := by decide
    omega

/-- **C131** (part).  The smoothed round-trip time is always between the smallest (less one
tick) and the largest round trip measured on the connection, or unknown. -/
theorem srtt_hull (c : Cfg) (a b : Int) (ha : 0 ≤ a) (hab : a ≤ b) (hb : b ≤ 524288) (es : List Ev) (s : Rtt)
    (hm : Measured c a b (fresh c) es) (h : run c (fresh c) es = some s) :
    s.srtt = 0 ∨ (32 * (a - 1) ≤ s.srtt ∧ s.srtt ≤ 32 * b) :=
  (run_avg ha hb es (fresh_avg c (by omega)) (.inl rfl) hm h).2

/-- **C131** (part).  The timeout set by a measurement is never more than five times the longest
round trip measured so far, plus four ticks, plus the configured slop (or the minimum plus the
slop). -/
theorem rto_upper (c : Cfg) (hc : c.Sane) (b : Int) (hb0 : 0 ≤ b) (hb : b ≤ 524288) (es : List Ev) (s : Rtt)
    (hm : Measured c 0 b (fresh c) es) (h : run c (fresh c) es = some s) (r : Int) (h0 : 0 ≤ r) (h1 : r ≤ b) :
    (xmitTimer c s r).rxtcur ≤ max (b + 2) (max c.rmin (5 * b + 4) + c.slop) := by
  have ha := (run_avg (Int.le_refl 0) hb es (fresh_avg c hb0) (.inl rfl) hm h).1
  have hg := run_rng hc es (fresh_rng c hc) h
  have hf := rto_formula_avg c hc hb hg ha r h0 h1
  have hs := smooth_avg hb ha r h0 h1
  dsimp only at hf
  rw [hf]
  have e1 : (xmitTimer c s r).srtt = (smooth s r).1 := rfl
  have e2 : (xmitTimer c s r).rttvar = (smooth s r).2 := rfl
  rw [e1, e2]
  obtain ⟨c1, c2, c3, c4⟩ := hc
  omega

/-! ## Back-off -/

theorem backoff_range (n : Nat) : 1 ≤ backoff n ∧ backoff n ≤ 512 := by
  unfold backoff; split <;> decide

theorem synBackoff_range (n : Nat) : 1 ≤ synBackoff n ∧ synBackoff n ≤ 64 := by
  unfold synBackoff; split <;> decide

/-- The multiplier used at a given number of timeouts. -/
theorem mult_range (ss : Bool) (n : Nat) : 1 ≤ (if ss then synBackoff n else backoff n) ∧ (if ss then synBackoff n else backoff n) ≤ 512 := by
  cases ss with
  | false => exact backoff_range n
  | true =>
    have := synBackoff_range n
    show 1 ≤ synBackoff n ∧ synBackoff n ≤ 512
    omega

theorem mul_bound {v m : Int} (h0 : 0 ≤ v) (h1 : v ≤ 2759000) (h2 : 1 ≤ m) (h3 : m ≤ 512) : v ≤ v * m ∧ v * m ≤ 1412608000 := by
  have a : v * 1 ≤ v * m := Int.mul_le_mul_of_nonneg_left h2 h0
  have b : v * m ≤ 2759000 * m := Int.mul_le_mul_of_nonneg_right h1 (by omega)
  omega

/-- What a timeout sets, without overflow. -/
theorem fire_exact {c : Cfg} (hc : c.Sane) {B : Int} (hB : B ≤ 524288) {s : Rtt} (hr : Rng c s) (h : Avg B s) (ss : Bool) (hs : s.rxtshift < 12) :
    ∃ s', rexmtFire c ss s = .again s' ∧ s'.rxtshift = s.rxtshift + 1 ∧
      s'.rxtcur = min 6400 (max c.rmin ((s.srtt / 8 + s.rttvar) / 4) * (if ss then synBackoff (s.rxtshift + 1) else backoff (s.rxtshift + 1)) + c.slop) ∧
      (s.rxtshift < 3 → s'.srtt = s.srtt ∧ s'.rttvar = s.rttvar) ∧
      (3 ≤ s.rxtshift → s'.srtt = 0 ∧ s'.rttvar = s.rttvar + s.srtt / 32) := by
  have hv := rexmtVal_exact hB h (by rw [hr.1]; have := hc.1; omega) (by rw [hr.1]; have := hc.2.1; omega)
  have hmu := mult_range ss (s.rxtshift + 1)
  obtain ⟨a1, a2, a3, a4, a5⟩ := h
  obtain ⟨c1, c2, c3, c4⟩ := hc
  rw [hr.1] at hv
  have hb := mul_bound (v := max c.rmin ((s.srtt / 8 + s.rttvar) / 4)) (by omega) (by omega) hmu.1 hmu.2
  have e : rexmtMax = 6400 := by decide
  have hcur : rangeSet c (i32 (u32 (rexmtVal s * (if ss then synBackoff (s.rxtshift + 1) else backoff (s.rxtshift + 1))))) s.rttmin rexmtMax =
      min 6400 (max c.rmin ((s.srtt / 8 + s.rttvar) / 4) * (if ss then synBackoff (s.rxtshift + 1) else backoff (s.rxtshift + 1)) + c.slop) := by
    rw [hv, hr.1]
    have e0 : max c.rmin ((s.srtt / 8 + s.rttvar) / 4) ≥ c.rmin := by omega
    generalize max c.rmin ((s.srtt / 8 + s.rttvar) / 4) * (if ss then synBackoff (s.rxtshift + 1) else backoff (s.rxtshift + 1)) = q at *
    rw [u32_id (by omega) (by omega), i32_id (by omega) (by omega), e]
    rw [rangeSet_exact c q c.rmin 6400 (by omega) (by omega) (by omega) (by omega) (by omega) (by omega)]
    omega
  unfold rexmtFire
  rw [if_neg (by unfold maxShift; omega)]
  dsimp only
  by_cases hg : s.rxtshift + 1 > maxShift / 4
  · rw [if_pos hg]
    have hg' : 3 ≤ s.rxtshift := by unfold maxShift at hg; omega
    exact ⟨_, rfl, rfl, hcur, fun h => by omega, fun _ => ⟨rfl, by show i32 _ = _; exact i32_id (by omega) (by omega)⟩⟩
  · rw [if_neg hg]
    have hg' : s.rxtshift < 3 := by unfold maxShift at hg; omega
    exact ⟨_, rfl, rfl, hcur, fun _ => ⟨rfl, rfl⟩, fun h => by omega⟩

theorem backoff_mono : ∀ n : Nat, backoff n ≤ backoff (n + 1) ∧ (n < 9 → backoff (n + 1) = 2 * backoff n)
  | 0 | 1 | 2 | 3 | 4 | 5 | 6 | 7 | 8 => by decide
  | n + 9 => ⟨Int.le_refl (512 : Int), fun h => by omega⟩

theorem synBackoff_mono : ∀ n : Nat, synBackoff n ≤ synBackoff (n + 1)
  | 0 | 1 | 2 | 3 | 4 | 5 | 6 | 7 | 8 | 9 => by decide
  | n + 10 => Int.le_refl (64 : Int)

theorem avg_hull {B : Int} {s : Rtt} (h : Avg B s) : Hull 0 B s := by
  by_cases hz : s.srtt = 0
  · exact .inl hz
  · exact .inr ⟨by have := h.1; omega, h.2.1⟩

theorem silent_inv {c : Cfg} (hc : c.Sane) {B : Int} (hB : B ≤ 524288) {s : Rtt} (hr : Rng c s) (h : Avg B s) (ss : Bool) (h0 : s.rxtshift = 0) :
    ∀ n, n ≤ 12 → ∃ t, silent c ss n s = some t ∧ Rng c t ∧ Avg B t ∧ t.rxtshift = n ∧ (4 ≤ n → t.srtt = 0) ∧
      (n ≤ 3 → t.srtt = s.srtt ∧ t.rttvar = s.rttvar) := by
  intro n
  induction n with
  | zero => intro _; exact ⟨s, rfl, hr, h, h0, fun h => by omega, fun _ => ⟨rfl, rfl⟩⟩
  | succ n ih =>
    intro hn
    obtain ⟨t, e, r, a, sh, z, u⟩ := ih (by omega)
    obtain ⟨t', e', sh', _, same, clob⟩ := fire_exact hc hB r a ss (by omega)
    refine ⟨t', ?_, (fire_rng hc r ss e').1, (fire_avg hB a (avg_hull a) ss e').1, by omega, ?_, ?_⟩
    · unfold silent
      simp only [e, e']
    · intro h4
      exact (clob (by omega)).1
    · intro h3
      have := same (by omega)
      have := u (by omega)
      omega

/-- If nothing is heard from the peer, the waiting time does not shrink from one
timeout to the next, except perhaps from the fourth to the fifth; it doubles (in the table of
an established connection, slop aside) up to the ninth unless it reaches 64 s, again with that
one exception. -/
theorem backoff_avg {c : Cfg} (hc : c.Sane) {B : Int} (hB : B ≤ 524288) {s s1 s2 : Rtt} (hr : Rng c s) (h : Avg B s) (ss : Bool)
    (h0 : s.rxtshift = 0) (k : Nat) (hk : 1 ≤ k) (hk4 : k ≠ 4)
    (h1 : silent c ss k s = some s1) (h2 : silent c ss (k + 1) s = some s2) :
    s1.rxtcur ≤ s2.rxtcur ∧
    (ss = false → k < 9 → s2.rxtcur = 6400 ∨ s2.rxtcur - c.slop = 2 * (s1.rxtcur - c.slop)) := by
  have hk12 : k < 12 := by
    apply Classical.byContradiction
    intro hge
    obtain ⟨t, e, r, a, sh, _, _⟩ := silent_inv hc hB hr h ss h0 12 (by omega)
    have : ∀ m, silent c ss (13 + m) s = none := by
      intro m
      induction m with
      | zero =>
        show silent c ss 13 s = none
        unfold silent
        simp only [e]
        unfold rexmtFire
        rw [if_pos (by rw [sh]; decide)]
      | succ m ih =>
        show silent c ss (13 + m + 1) s = none
        unfold silent
        simp only [ih]
    have hh := this (k + 1 - 13)
    rw [show 13 + (k + 1 - 13) = k + 1 by omega, h2] at hh
    cases hh
  obtain ⟨k', rfl⟩ : ∃ k', k = k' + 1 := ⟨k - 1, by omega⟩
  obtain ⟨t, e, r, a, sh, z, u⟩ := silent_inv hc hB hr h ss h0 k' (by omega)
  obtain ⟨t1, e1, sh1, cur1, same1, clob1⟩ := fire_exact hc hB r a ss (by omega)
  have q1 : s1 = t1 := by
    unfold silent at h1
    simp only [e, e1] at h1
    cases h1; rfl
  subst q1
  have r1 := (fire_rng hc r ss e1).1
  have a1 := (fire_avg hB a (avg_hull a) ss e1).1
  obtain ⟨t2, e2, sh2, cur2, _, _⟩ := fire_exact hc hB r1 a1 ss (by omega)
  have q2 : s2 = t2 := by
    unfold silent at h2
    simp only [h1, e2] at h2
    cases h2; rfl
  subst q2
  have hval : (s1.srtt / 8 + s1.rttvar) / 4 = (t.srtt / 8 + t.rttvar) / 4 := by
    by_cases hlt : t.rxtshift < 3
    · rw [(same1 hlt).1, (same1 hlt).2]
    · have hz : t.srtt = 0 := z (by omega)
      have := clob1 (by omega)
      rw [this.1, this.2, hz]; omega
  rw [cur1, cur2, hval, sh1, sh]
  have hv0 : 0 ≤ max c.rmin ((t.srtt / 8 + t.rttvar) / 4) := by have := hc.1; omega
  generalize max c.rmin ((t.srtt / 8 + t.rttvar) / 4) = v at *
  have hmono : (if ss then synBackoff (k' + 1) else backoff (k' + 1)) ≤ (if ss then synBackoff (k' + 1 + 1) else backoff (k' + 1 + 1)) := by
    cases ss with
    | false => exact (backoff_mono _).1
    | true => exact synBackoff_mono _
  have hmul := Int.mul_le_mul_of_nonneg_left hmono hv0
  refine ⟨by omega, ?_⟩
  intro hss hk9
  subst hss
  have hd := (backoff_mono (k' + 1)).2 hk9
  show min 6400 (v * backoff (k' + 1 + 1) + c.slop) = 6400 ∨ min 6400 (v * backoff (k' + 1 + 1) + c.slop) - c.slop = 2 * (min 6400 (v * backoff (k' + 1) + c.slop) - c.slop)
  rw [hd]
  have hx : v * (2 * backoff (k' + 1)) = 2 * (v * backoff (k' + 1)) := by
    rw [← Int.mul_assoc, Int.mul_comm v 2, Int.mul_assoc]
  rw [hx]
  have := hc.2.2.1
  have : 0 ≤ v * backoff (k' + 1) := Int.mul_nonneg hv0 (by have := (backoff_range (k' + 1)).1; omega)
  omega

/-- Checker for `Measured`. -/
def measuredB (c : Cfg) (a b : Int) : Rtt → List Ev → Bool
  | _, [] => true
  | s, e :: es =>
    (match e with
     | .ack ticks off ts newer => (match measure s ticks off ts newer with
       | some r => decide (a ≤ r ∧ r ≤ b)
       | none => true)
     | _ => true) &&
    (match step c s e with
     | none => true
     | some s' => measuredB c a b s' es)

theorem measured_of {c : Cfg} {a b : Int} (es : List Ev) : ∀ s : Rtt, measuredB c a b s es = true → Measured c a b s es := by
  induction es with
  | nil => intro _ _; trivial
  | cons e es ih =>
    intro s h
    unfold measuredB at h
    rw [Bool.and_eq_true] at h
    refine ⟨?_, ?_⟩
    · cases e with
      | ack ticks off ts newer =>
        intro r hr
        have h1 := h.1
        simp only [hr, decide_eq_true_eq] at h1
        exact h1
      | _ => trivial
    · cases hs : step c s e with
      | none => trivial
      | some s' =>
        have h2 := h.2
        simp only [hs] at h2
        exact ih s' h2

theorem ex_of (o : Option Rtt) (p : Rtt → Bool) (h : o.any p = true) : ∃ s, o = some s ∧ p s = true := by
  cases o with
  | none => cases h
  | some s => exact ⟨s, rfl, h⟩

/-- A connection over a path with a steady round trip of one second: twenty measurements. -/
def steady : List Ev := List.flatten ((List.range 20).map fun (i : Nat) =>
  [Ev.send (1000 + 200 * (i : Int)), .ack (1100 + 200 * (i : Int)) 0 none true])

/-- **C132, violated.**  After the fourth timeout in a row the wait can become *shorter*: the code
means to keep the timeout while forgetting the round trip (src/ofp_tcp_timer.c:525-534), but
adds the average to the variance in the wrong scale.  Here, with a steady one-second path, the
fourth wait is more than the fifth by seconds. -/
theorem backoff_violated : ∃ s s4 s5, run defaults (fresh defaults) steady = some s ∧ Measured defaults 100 100 (fresh defaults) steady ∧
    silent defaults false 4 s = some s4 ∧ silent defaults false 5 s = some s5 ∧ s5.rxtcur + 500 < s4.rxtcur := by
  obtain ⟨s, e, h⟩ := ex_of (run defaults (fresh defaults) steady) (fun (s : Rtt) => (silent defaults false 4 s).any fun (s4 : Rtt) =>
    (silent defaults false 5 s).any fun (s5 : Rtt) => decide (s5.rxtcur + 500 < s4.rxtcur)) (by decide +kernel)
  obtain ⟨s4, e4, h⟩ := ex_of _ _ h
  obtain ⟨s5, e5, h⟩ := ex_of _ _ h
  exact ⟨s, s4, s5, e, measured_of _ _ (by decide +kernel), e4, e5, of_decide_eq_true h⟩

/-! ## Giving up -/

/-- With nothing heard from the peer, a connection is given up by the thirteenth
timeout in a row and by no earlier one, and the application then sees the error reported by the
network last, or `ETIMEDOUT`. -/
theorem gives_up_avg {c : Cfg} (hc : c.Sane) {B : Int} (hB : B ≤ 524288) {s : Rtt} (hr : Rng c s) (h : Avg B s) (ss : Bool) (h0 : s.rxtshift = 0) (n : Nat) :
    ((silent c ss n s).isSome ↔ n ≤ 12) ∧
    (∀ t, silent c ss 12 s = some t → rexmtFire c ss t = .dropped (if t.softerror ≠ 0 then t.softerror else 60)) := by
  obtain ⟨t, e, r, a, sh, _, _⟩ := silent_inv hc hB hr h ss h0 12 (by omega)
  have hd : rexmtFire c ss t = .dropped (if t.softerror ≠ 0 then t.softerror else 60) := by
    unfold rexmtFire
    rw [if_pos (by rw [sh]; decide)]
    rfl
  refine ⟨⟨fun hs => ?_, fun hn => ?_⟩, fun t' e' => ?_⟩
  · apply Classical.byContradiction
    intro hge
    have : ∀ m, silent c ss (13 + m) s = none := by
      intro m
      induction m with
      | zero =>
        show silent c ss 13 s = none
        unfold silent
        simp only [e, hd]
      | succ m ih =>
        show silent c ss (13 + m + 1) s = none
        unfold silent
        simp only [ih]
    have hh := this (n - 13)
    rw [show 13 + (n - 13) = n by omega] at hh
    rw [hh] at hs
    cases hs
  · obtain ⟨t', e', _⟩ := silent_inv hc hB hr h ss h0 n hn
    rw [e']; rfl
  · rw [e] at e'
    cases e'
    exact hd

/-- Lower bound on the wait after the `n`-th timeout. -/
theorem silent_ge {c : Cfg} (hc : c.Sane) {B : Int} (hB : B ≤ 524288) {s : Rtt} (hr : Rng c s) (h : Avg B s) (h0 : s.rxtshift = 0)
    (n : Nat) (hn : 1 ≤ n) (hn' : n ≤ 12) (t : Rtt) (ht : silent c false n s = some t) :
    min 6400 (c.rmin * backoff n + c.slop) ≤ t.rxtcur ∧ t.rxtcur ≤ 6400 := by
  obtain ⟨n, rfl⟩ : ∃ m, n = m + 1 := ⟨n - 1, by omega⟩
  obtain ⟨u, e, r, a, sh, _, _⟩ := silent_inv hc hB hr h false h0 n (by omega)
  obtain ⟨t', e', sh', cur, _, _⟩ := fire_exact hc hB r a false (by omega)
  have q : t = t' := by
    unfold silent at ht
    simp only [e, e'] at ht
    cases ht; rfl
  subst q
  rw [cur, sh]
  show min 6400 (c.rmin * backoff (n + 1) + c.slop) ≤ min 6400 (max c.rmin ((u.srtt / 8 + u.rttvar) / 4) * backoff (n + 1) + c.slop) ∧
    min 6400 (max c.rmin ((u.srtt / 8 + u.rttvar) / 4) * backoff (n + 1) + c.slop) ≤ 6400
  have hb := (backoff_range (n + 1)).1
  have : c.rmin * backoff (n + 1) ≤ max c.rmin ((u.srtt / 8 + u.rttvar) / 4) * backoff (n + 1) :=
    Int.mul_le_mul_of_nonneg_right (by omega) (by omega)
  omega

theorem silence_step {c : Cfg} {s t : Rtt} {n : Nat} (h : silent c false n s = some t) : silence c false (n + 1) s = silence c false n s + t.rxtcur := by
  show _ + (match silent c false n s with | none => 0 | some s' => s'.rxtcur) = _
  rw [h]

/-- With the default settings an established connection on which nothing is heard
from the peer is given up no earlier than 79 s and no later than 832 s after the oldest
unacknowledged segment was sent (the timer having been set by a measurement, so to at least 23
ticks). -/
theorem gives_up_time_avg {B : Int} (hB : B ≤ 524288) {s : Rtt} (hr : Rng defaults s) (h : Avg B s) (h0 : s.rxtshift = 0) (hs : 23 ≤ s.rxtcur) :
    7937 ≤ silence defaults false 13 s ∧ silence defaults false 13 s ≤ 83200 := by
  have hc : defaults.Sane := by decide
  have rm : defaults.rmin = 3 := by decide
  have sl : defaults.slop = 20 := by decide
  have key : ∀ n, 1 ≤ n → n ≤ 12 → ∀ lo, min 6400 (3 * backoff n + 20) = lo → ∃ x, silence defaults false (n + 1) s = silence defaults false n s + x ∧ lo ≤ x ∧ x ≤ 6400 := by
    intro n h1 h2 lo hlo
    obtain ⟨t, e, _⟩ := silent_inv hc hB hr h false h0 n h2
    have := silent_ge hc hB hr h h0 n h1 h2 t e
    rw [rm, sl, hlo] at this
    exact ⟨t.rxtcur, silence_step e, this⟩
  have z0 : silence defaults false 1 s = s.rxtcur := by
    have : silence defaults false (0 + 1) s = silence defaults false 0 s + s.rxtcur := silence_step rfl
    rw [this]
    show 0 + s.rxtcur = s.rxtcur
    omega
  obtain ⟨x1, e1, l1⟩ := key 1 (by decide) (by decide) 26 (by decide)
  obtain ⟨x2, e2, l2⟩ := key 2 (by decide) (by decide) 32 (by decide)
  obtain ⟨x3, e3, l3⟩ := key 3 (by decide) (by decide) 44 (by decide)
  obtain ⟨x4, e4, l4⟩ := key 4 (by decide) (by decide) 68 (by decide)
  obtain ⟨x5, e5, l5⟩ := key 5 (by decide) (by decide) 116 (by decide)
  obtain ⟨x6, e6, l6⟩ := key 6 (by decide) (by decide) 212 (by decide)
  obtain ⟨x7, e7, l7⟩ := key 7 (by decide) (by decide) 404 (by decide)
  obtain ⟨x8, e8, l8⟩ := key 8 (by decide) (by decide) 788 (by decide)
  obtain ⟨x9, e9, l9⟩ := key 9 (by decide) (by decide) 1556 (by decide)
  obtain ⟨x10, e10, l10⟩ := key 10 (by decide) (by decide) 1556 (by decide)
  obtain ⟨x11, e11, l11⟩ := key 11 (by decide) (by decide) 1556 (by decide)
  obtain ⟨x12, e12, l12⟩ := key 12 (by decide) (by decide) 1556 (by decide)
  have := hr.2.2.1
  simp only [Nat.reduceAdd] at *
  omega

/-- A connection over a fast path: round trips below a tick, as measured with timestamps. -/
def lan : List Ev := List.flatten ((List.range 40).map fun (i : Nat) =>
  [Ev.send (1000 + 2 * (i : Int)), .ack (1000 + 2 * (i : Int)) 0 (some (10000 + 20 * (i : Int))) true])

/-- The lower bound of `gives_up_time` is attained on a fast path: such a connection does not
survive an outage of 80 s, less than the 100 s RFC 1122 (4.2.3.5) asks for. -/
theorem gives_up_soon : ∃ s, run defaults (fresh defaults) lan = some s ∧ silence defaults false 13 s = 7937 := by
  obtain ⟨s, e, h⟩ := ex_of (run defaults (fresh defaults) lan) (fun (s : Rtt) => decide (silence defaults false 13 s = 7937)) (by decide +kernel)
  exact ⟨s, e, of_decide_eq_true h⟩

/-- The number of timeouts counted is not reset by acknowledgements, only by measurements. -/
theorem drop_count {c : Cfg} (l : List Ev) : ∀ {s t : Rtt}, run c s l = some t → t.rxtshift ≤ s.rxtshift + (l.filter Ev.counts).length := by
  induction l with
  | nil => intro s t h; cases h; exact Nat.le_add_right _ _
  | cons e l ih =>
    intro s t h
    unfold run at h
    cases hs : step c s e with
    | none => simp only [hs] at h; cases h
    | some u =>
      simp only [hs] at h
      have h1 := ih h
      have h2 : u.rxtshift ≤ s.rxtshift + (if e.counts then 1 else 0) := by
        cases e with
        | ack ticks off ts newer =>
          unfold step at hs
          cases hq : measure s ticks off ts newer with
          | none => simp only [hq] at hs; cases hs; exact Nat.le_add_right _ _
          | some r => simp only [hq] at hs; cases hs; exact Nat.zero_le _
        | send ticks =>
          simp only [step, Option.some.injEq] at hs
          subst hs
          by_cases hz : s.rtttime = 0
          · rw [if_pos hz]; exact Nat.le_add_right _ _
          · rw [if_neg hz]; exact Nat.le_add_right _ _
        | timeout ss =>
          simp only [step] at hs
          cases hf : rexmtFire c ss s with
          | dropped e => rw [hf] at hs; cases hs
          | again t' =>
            rw [hf] at hs
            cases hs
            unfold rexmtFire at hf
            by_cases hm : s.rxtshift + 1 > maxShift
            · rw [if_pos hm] at hf; cases hf
            · rw [if_neg hm] at hf
              dsimp only at hf
              by_cases hg : s.rxtshift + 1 > maxShift / 4
              · rw [if_pos hg] at hf; cases hf; exact Nat.le_refl _
              · rw [if_neg hg] at hf; cases hf; exact Nat.le_refl _
        | persist =>
          simp only [step, Option.some.injEq] at hs
          subst hs
          unfold setPersist
          dsimp only
          by_cases hz : s.rxtshift < maxShift
          · rw [if_pos hz]; exact Nat.le_refl _
          · rw [if_neg hz]; exact Nat.le_add_right _ _
        | clear =>
          simp only [step, Option.some.injEq] at hs
          subst hs
          exact Nat.zero_le _
        | soft e =>
          simp only [step, Option.some.injEq] at hs
          subst hs
          exact Nat.le_add_right _ _
      have h3 : ((e :: l).filter Ev.counts).length = (if e.counts then 1 else 0) + (l.filter Ev.counts).length := by
        rw [List.filter_cons]
        by_cases hc : e.counts = true
        · rw [if_pos hc, if_pos hc]; show _ + 1 = _; omega
        · rw [if_neg hc, if_neg hc]; omega
      omega

/-- **C134** (part).  If a timeout ends the connection, at least twelve timeouts (or window probes)
precede it since the last acknowledgement that yielded a round-trip measurement.  With
timestamps in use every acknowledgement of new data does (`measure_ts`). -/
theorem drop_after_measurement_partial (c : Cfg) (l : List Ev) (ticks off : Int) (ts : Option Int) (newer ss : Bool) (s t : Rtt)
    (h2 : (measure s ticks off ts newer).isSome)
    (h3 : run c s (.ack ticks off ts newer :: l) = some t) (h4 : step c t (.timeout ss) = none) :
    12 ≤ (l.filter Ev.counts).length := by
  unfold run step at h3
  cases hq : measure s ticks off ts newer with
  | none => rw [hq] at h2; cases h2
  | some r =>
    simp only [hq] at h3
    have hd := drop_count l h3
    have hz : (xmitTimer c s r).rxtshift = 0 := rfl
    simp only [step] at h4
    unfold rexmtFire at h4
    by_cases hm : t.rxtshift + 1 > maxShift
    · unfold maxShift at hm; omega
    · rw [if_neg hm] at h4
      dsimp only at h4
      by_cases hg : t.rxtshift + 1 > maxShift / 4
      · rw [if_pos hg] at h4; cases h4
      · rw [if_neg hg] at h4; cases h4

/-- With timestamps, an acknowledgement echoing one of our own recent ones always yields a
measurement, and the right one. -/
theorem measure_ts (s : Rtt) (t ticks off : Int) (newer : Bool) (h1 : t ≤ ticks) (h2 : ticks ≤ t + 429496)
    (h3 : u32 (tsNow t + off) ≠ 0) (h4 : u32 (t * 10) ≠ 0) :
    measure s ticks off (some (u32 (tsNow t + off))) newer = some (ticks - t + 1) := by
  unfold measure
  rw [show (some (u32 (tsNow t + off))).bind (tsSample ticks off) = some (ticks - t + 1) from tsSample_exact t ticks off h1 h2 h3 h4]

/-- Thirteen segments, each lost once and acknowledged after its retransmission, on a connection
without timestamps. -/
def lossy : List Ev := List.flatten ((List.range 13).map fun (i : Nat) =>
  [Ev.send (1000 + 10000 * (i : Int)), .timeout false, .ack (8000 + 10000 * (i : Int)) 0 none true])

/-- **C134, violated.**  Without timestamps a connection that makes progress is dropped: the count of
timeouts is cleared only by a measurement, and retransmitted segments are not measured, so
thirteen segments in a row that needed one retransmission each - every one of them
acknowledged - end the connection with a timeout. -/
theorem progress_dropped_violated : run defaults (fresh defaults) lossy = none ∧
    (∃ s, run defaults (fresh defaults) (lossy.take 37) = some s ∧ step defaults s (.timeout false) = none) ∧
    (lossy.filter fun e => match e with | .ack .. => true | _ => false).length = 13 := by
  refine ⟨by decide +kernel, ?_, by decide +kernel⟩
  obtain ⟨s, e, h⟩ := ex_of (run defaults (fresh defaults) (lossy.take 37)) (fun (s : Rtt) => decide (step defaults s (.timeout false) = none)) (by decide +kernel)
  exact ⟨s, e, of_decide_eq_true h⟩

/-! ## The statements for every connection -/

theorem Reached.rng {c : Cfg} (hc : c.Sane) {B : Int} {s : Rtt} (h : Reached c B s) : Rng c s := by
  obtain ⟨es, _, h⟩ := h
  exact run_rng hc es (fresh_rng c hc) h

theorem Reached.avg {c : Cfg} {B : Int} (hB0 : 0 ≤ B) (hB : B ≤ 524288) {s : Rtt} (h : Reached c B s) : Avg B s := by
  obtain ⟨es, hm, h⟩ := h
  exact (run_avg (Int.le_refl 0) hB es (fresh_avg c hB0) (.inl rfl) hm h).1

/-- **C131** (part).  A later measurement `R` (its first tick, which may be partial, discounted)
moves the averages as RFC 6298, 2.3 asks: `SRTT' = 7/8 SRTT + 1/8 R` and
`RTTVAR' = 3/4 RTTVAR + 1/4 |SRTT - R|`, up to rounding by less than one unit (a 32nd and a 16th of
a tick) and the smallest value 1. -/
theorem later_sample (c : Cfg) {B : Int} (hB0 : 0 ≤ B) (hB : B ≤ 524288) {s : Rtt} (h : Reached c B s) (hz : s.srtt ≠ 0) (r : Int) (h0 : 0 ≤ r) (h1 : r ≤ B) :
    let s' := xmitTimer c s r
    (s'.srtt = 1 ∧ 7 * s.srtt + 32 * (r - 1) ≤ 8 ∨
      0 ≤ 8 * s'.srtt - (7 * s.srtt + 32 * (r - 1)) ∧ 8 * s'.srtt - (7 * s.srtt + 32 * (r - 1)) < 8) ∧
    (s'.rttvar = 1 ∨
      ∃ d : Int, (d = s.srtt - 32 * (r - 1) ∨ d = 32 * (r - 1) - s.srtt) ∧ 0 ≤ d + 8 ∧
      -8 < 8 * s'.rttvar - (6 * s.rttvar + d) ∧ 8 * s'.rttvar - (6 * s.rttvar + d) < 16) :=
  later_sample_avg c hB (h.avg hB0 hB) hz r h0 h1

/-- **C131** (part).  The timeout a measurement sets is `SRTT + 4 RTTVAR`, rounded down to ticks,
but at least the minimum, plus the slop; then clamped. -/
theorem rto_formula (c : Cfg) (hc : c.Sane) {B : Int} (hB0 : 0 ≤ B) (hB : B ≤ 524288) {s : Rtt} (h : Reached c B s) (r : Int) (h0 : 0 ≤ r) (h1 : r ≤ B) :
    let s' := xmitTimer c s r
    s'.rxtcur = min 6400 (max (max c.rmin (r + 2)) (max c.rmin ((s'.srtt / 8 + s'.rttvar) / 4) + c.slop)) :=
  rto_formula_avg c hc hB (h.rng hc) (h.avg hB0 hB) r h0 h1

/-- **C132** (part).  If nothing is heard from the peer, the waiting time does not shrink from one
timeout to the next, except perhaps from the fourth to the fifth; it doubles (in the table of
an established connection, slop aside) up to the ninth unless it reaches 64 s, again with that
one exception. -/
theorem backoff_partial {c : Cfg} (hc : c.Sane) {B : Int} (hB0 : 0 ≤ B) (hB : B ≤ 524288) {s s1 s2 : Rtt} (h : Reached c B s) (ss : Bool)
    (h0 : s.rxtshift = 0) (k : Nat) (hk : 1 ≤ k) (hk4 : k ≠ 4)
    (h1 : silent c ss k s = some s1) (h2 : silent c ss (k + 1) s = some s2) :
    s1.rxtcur ≤ s2.rxtcur ∧
    (ss = false → k < 9 → s2.rxtcur = 6400 ∨ s2.rxtcur - c.slop = 2 * (s1.rxtcur - c.slop)) :=
  backoff_avg hc hB (h.rng hc) (h.avg hB0 hB) ss h0 k hk hk4 h1 h2

/-- **C133** (part).  With nothing heard from the peer, a connection is given up by the thirteenth
timeout in a row and by no earlier one, and the application then sees the error reported by the
network last, or `ETIMEDOUT`. -/
theorem gives_up {c : Cfg} (hc : c.Sane) {B : Int} (hB0 : 0 ≤ B) (hB : B ≤ 524288) {s : Rtt} (h : Reached c B s) (ss : Bool) (h0 : s.rxtshift = 0) (n : Nat) :
    ((silent c ss n s).isSome ↔ n ≤ 12) ∧
    (∀ t, silent c ss 12 s = some t → rexmtFire c ss t = .dropped (if t.softerror ≠ 0 then t.softerror else 60)) :=
  gives_up_avg hc hB (h.rng hc) (h.avg hB0 hB) ss h0 n

/-- **C133** (part).  With the default settings an established connection on which nothing is heard
from the peer is given up no earlier than 79 s and no later than 832 s after the oldest
unacknowledged segment was sent (the timer having been set by a measurement, so to at least 23
ticks). -/
theorem gives_up_time {B : Int} (hB0 : 0 ≤ B) (hB : B ≤ 524288) {s : Rtt} (h : Reached defaults B s) (h0 : s.rxtshift = 0) (hs : 23 ≤ s.rxtcur) :
    7937 ≤ silence defaults false 13 s ∧ silence defaults false 13 s ≤ 83200 :=
  gives_up_time_avg hB (h.rng (by decide)) (h.avg hB0 hB) h0 hs

/-! ## The hypotheses are met -/

/-- The default configuration is sane. -/
example : defaults.Sane := by decide

/-- Measurements on the steady path satisfy the hypotheses of the theorems above. -/
example : ∃ s, run defaults (fresh defaults) steady = some s ∧ Reached defaults 100 s ∧
    s.rxtshift = 0 ∧ 23 ≤ s.rxtcur ∧ s.srtt = 3175 := by
  obtain ⟨s, e, h⟩ := ex_of (run defaults (fresh defaults) steady) (fun (s : Rtt) => decide (s.rxtshift = 0 ∧ 23 ≤ s.rxtcur ∧ s.srtt = 3175)) (by decide +kernel)
  have h := of_decide_eq_true h
  exact ⟨s, e, ⟨steady, measured_of _ _ (by decide +kernel), e⟩, h⟩

end Verif.Rto

import Verif.Rto.Spec

/-! # Retransmission timeouts: proofs -/

namespace Verif.Rto

theorem i32_id {x : Int} (h1 : -2147483648 ≤ x) (h2 : x < 2147483648) : i32 x = x := by
  unfold i32; omega

theorem u32_id {x : Int} (h1 : 0 ≤ x) (h2 : x < 4294967296) : u32 x = x := by
  unfold u32; omega

theorem i32_range (x : Int) : -2147483648 ≤ i32 x ∧ i32 x < 2147483648 := by
  unfold i32; omega

theorem u32_range (x : Int) : 0 ≤ u32 x ∧ u32 x < 4294967296 := by
  unfold u32; omega

theorem u64_id {x : Int} (h1 : 0 ≤ x) (h2 : x < 4294967296) : u64 x = x := by
  unfold u64; omega

theorem u64_neg {x : Int} (h1 : -2147483648 ≤ x) (h2 : x < 0) : u64 x = x + 18446744073709551616 := by
  unfold u64; omega

/-- The clamping macro always yields a value between its bounds, whatever overflows before. -/
theorem rangeSet_bounds (c : Cfg) (v lo hi : Int) (h0 : 0 ≤ lo) (h1 : lo < 4294967296) (h2 : 0 ≤ hi) (h3 : hi < 2147483648) :
    min lo hi ≤ rangeSet c v lo hi ∧ rangeSet c v lo hi ≤ hi := by
  unfold rangeSet
  dsimp only
  have hr := i32_range (v + c.slop)
  have hl := i32_range lo
  rw [u64_id h2 (by omega), u64_id h0 h1, i32_id (x := hi) (by omega) h3]
  generalize i32 (v + c.slop) = t at *
  have e : i32 lo = lo ∨ (i32 lo < 0 ∧ 2147483648 ≤ lo) := by unfold i32; omega
  by_cases hn : t < 0
  · have hb : u64 t = t + 18446744073709551616 := u64_neg hr.1 hn
    have k1 : ¬ u64 t < lo := by rw [hb]; omega
    have k2 : u64 t > hi := by rw [hb]; omega
    rw [if_neg k1, if_pos k2]
    omega
  · have hb : u64 t = t := u64_id (by omega) (by omega)
    rw [hb]
    by_cases c1 : t < lo
    · rw [if_pos c1]
      rcases e with e | e
      · rw [e, u64_id h0 h1]
        by_cases c2 : lo > hi
        · rw [if_pos c2]; omega
        · rw [if_neg c2]; omega
      · rw [u64_neg hl.1 e.1, if_pos (by omega)]; omega
    · rw [if_neg c1, hb]
      by_cases c2 : t > hi
      · rw [if_pos c2]; omega
      · rw [if_neg c2]; omega

/-- Without overflow the macro clamps `value + slop`. -/
theorem rangeSet_exact (c : Cfg) (v lo hi : Int) (h0 : 0 ≤ lo) (h1 : lo < 2147483648) (h2 : 0 ≤ hi) (h3 : hi < 2147483648)
    (h4 : 0 ≤ v + c.slop) (h5 : v + c.slop < 2147483648) :
    rangeSet c v lo hi = min hi (max lo (v + c.slop)) := by
  unfold rangeSet
  dsimp only
  rw [i32_id (x := v + c.slop) (by omega) h5, i32_id (x := lo) (by omega) h1, i32_id (x := hi) (by omega) h3]
  rw [u64_id h4 (by omega), u64_id h0 (by omega), u64_id h2 (by omega)]
  by_cases c1 : v + c.slop < lo
  · rw [if_pos c1, u64_id h0 (by omega)]
    by_cases c2 : lo > hi
    · rw [if_pos c2]; omega
    · rw [if_neg c2]; omega
  · rw [if_neg c1, u64_id h4 (by omega)]
    by_cases c2 : v + c.slop > hi
    · rw [if_pos c2]; omega
    · rw [if_neg c2]; omega

theorem umax_range (a b : Int) : 0 ≤ umax a b ∧ umax a b < 4294967296 ∧ u32 a ≤ umax a b ∧ u32 b ≤ umax a b := by
  have ha := u32_range a
  have hb := u32_range b
  unfold umax
  by_cases h : u32 a > u32 b
  · rw [if_pos h]; omega
  · rw [if_neg h]; omega

theorem umax_exact {a b : Int} (ha : 0 ≤ a) (ha' : a < 4294967296) (hb : 0 ≤ b) (hb' : b < 4294967296) :
    umax a b = max a b := by
  unfold umax
  rw [u32_id ha ha', u32_id hb hb']
  by_cases h : a > b
  · rw [if_pos h]; omega
  · rw [if_neg h]; omega

/-! ## The timeout stays in its range, whatever is measured -/

/-- Range invariant that needs no assumption on the measurements. -/
def Rng (c : Cfg) (s : Rtt) : Prop :=
  s.rttmin = c.rmin ∧ c.rmin ≤ s.rxtcur ∧ s.rxtcur ≤ 6400 ∧ s.rxtshift ≤ 12

theorem xmit_rng {c : Cfg} (hc : c.Sane) {s : Rtt} (h : Rng c s) (r : Int) : Rng c (xmitTimer c s r) := by
  obtain ⟨h1, h2, h3, h4⟩ := h
  obtain ⟨c1, c2, c3, c4⟩ := hc
  have hm := umax_range s.rttmin (i32 (r + 2))
  have hu : u32 s.rttmin = c.rmin := by rw [h1]; exact u32_id (by omega) (by omega)
  have := rangeSet_bounds c (rexmtVal { s with srtt := (smooth s r).1, rttvar := (smooth s r).2, rtttime := 0, rxtshift := 0, softerror := 0 })
    (umax s.rttmin (i32 (r + 2))) rexmtMax hm.1 hm.2.1 (by decide) (by decide)
  have e : rexmtMax = 6400 := by decide
  rw [e] at this
  refine ⟨h1, ?_, ?_, Nat.zero_le _⟩
  · show c.rmin ≤ rangeSet _ _ _ rexmtMax
    rw [e]; omega
  · show rangeSet _ _ _ rexmtMax ≤ 6400
    rw [e]; exact this.2

theorem fire_rng {c : Cfg} (hc : c.Sane) {s s' : Rtt} (h : Rng c s) (ss : Bool) (hf : rexmtFire c ss s = .again s') :
    Rng c s' ∧ s'.rxtshift = s.rxtshift + 1 ∧ s'.rtttime = 0 := by
  obtain ⟨h1, h2, h3, h4⟩ := h
  obtain ⟨c1, c2, c3, c4⟩ := hc
  have key := rangeSet_bounds c (i32 (u32 (rexmtVal s * (if ss then synBackoff (s.rxtshift + 1) else backoff (s.rxtshift + 1)))))
    s.rttmin rexmtMax (by omega) (by omega) (by decide) (by decide)
  have e : rexmtMax = 6400 := by decide
  rw [e] at key
  unfold rexmtFire at hf
  by_cases hm : s.rxtshift + 1 > maxShift
  · rw [if_pos hm] at hf; cases hf
  · rw [if_neg hm] at hf
    have hm' : s.rxtshift + 1 ≤ 12 := by unfold maxShift at hm; omega
    dsimp only at hf
    by_cases hg : s.rxtshift + 1 > maxShift / 4
    · rw [if_pos hg] at hf
      cases hf
      exact ⟨⟨h1, by show c.rmin ≤ rangeSet _ _ _ rexmtMax; rw [e]; omega, by show rangeSet _ _ _ rexmtMax ≤ _; rw [e]; omega, hm'⟩, rfl, rfl⟩
    · rw [if_neg hg] at hf
      cases hf
      exact ⟨⟨h1, by show c.rmin ≤ rangeSet _ _ _ rexmtMax; rw [e]; omega, by show rangeSet _ _ _ rexmtMax ≤ _; rw [e]; omega, hm'⟩, rfl, rfl⟩

theorem step_rng {c : Cfg} (hc : c.Sane) {s s' : Rtt} (h : Rng c s) (e : Ev) (hs : step c s e = some s') : Rng c s' := by
  cases e with
  | ack ticks off ts newer =>
    unfold step at hs
    cases hm : measure s ticks off ts newer with
    | none => simp only [hm] at hs; cases hs; exact h
    | some r => simp only [hm] at hs; cases hs; exact xmit_rng hc h r
  | send ticks =>
    simp only [step, Option.some.injEq] at hs
    subst hs
    by_cases hz : s.rtttime = 0
    · rw [if_pos hz]; exact h
    · rw [if_neg hz]; exact h
  | timeout ss =>
    simp only [step] at hs
    cases hf : rexmtFire c ss s with
    | dropped e => rw [hf] at hs; cases hs
    | again t =>
      rw [hf] at hs
      cases hs
      exact (fire_rng hc h ss hf).1
  | persist =>
    simp only [step, Option.some.injEq] at hs
    subst hs
    unfold setPersist
    dsimp only
    obtain ⟨h1, h2, h3, h4⟩ := h
    by_cases hz : s.rxtshift < maxShift
    · rw [if_pos hz]; exact ⟨h1, h2, h3, by unfold maxShift at hz; show s.rxtshift + 1 ≤ 12; omega⟩
    · rw [if_neg hz]; exact ⟨h1, h2, h3, h4⟩
  | clear =>
    simp only [step, Option.some.injEq] at hs
    subst hs
    exact ⟨h.1, h.2.1, h.2.2.1, Nat.zero_le _⟩
  | soft e =>
    simp only [step, Option.some.injEq] at hs
    subst hs
    exact h

theorem run_rng {c : Cfg} (hc : c.Sane) (es : List Ev) : ∀ {s s' : Rtt}, Rng c s → run c s es = some s' → Rng c s' := by
  induction es with
  | nil => intro s s' h hr; cases hr; exact h
  | cons e es ih =>
    intro s s' h hr
    unfold run at hr
    cases hs : step c s e with
    | none => simp only [hs] at hr; cases hr
    | some t => simp only [hs] at hr; exact ih (step_rng hc h e hs) hr

theorem fresh_rng (c : Cfg) (hc : c.Sane) : Rng c (fresh c) := by
  obtain ⟨c1, c2, c3, c4⟩ := hc
  refine ⟨u32_id (by omega) (by omega), ?_, ?_, Nat.zero_le _⟩
  · show c.rmin ≤ 3 * hz
    unfold hz; omega
  · show 3 * hz ≤ 6400
    decide

/-- **C130** (part).  Whatever happens on a connection - any measurements, including absurd ones
provoked by the peer, any timeouts - the retransmission timeout stays between the configured
minimum and 64 s. -/
theorem rto_range (c : Cfg) (hc : c.Sane) (es : List Ev) (s : Rtt)
    (h : run c (fresh c) es = some s) : c.rmin ≤ s.rxtcur ∧ s.rxtcur ≤ 64 * 100 ∧ s.rxtshift ≤ 12 := by
  have := run_rng hc es (fresh_rng c hc) h
  exact ⟨this.2.1, this.2.2.1, this.2.2.2⟩

/-- **C130** (part).  The timeout set by a measurement exceeds the round trip measured by at least
two ticks (unless that is more than 64 s). -/
theorem rto_covers_sample (c : Cfg) (s : Rtt) (r : Int) (h0 : 0 ≤ r) (h1 : r < 2147483646) :
    min (r + 2) 6400 ≤ (xmitTimer c s r).rxtcur := by
  have hm := umax_range s.rttmin (i32 (r + 2))
  have := rangeSet_bounds c (rexmtVal { s with srtt := (smooth s r).1, rttvar := (smooth s r).2, rtttime := 0, rxtshift := 0, softerror := 0 })
    (umax s.rttmin (i32 (r + 2))) rexmtMax hm.1 hm.2.1 (by decide) (by decide)
  have e : rexmtMax = 6400 := by decide
  rw [e] at this
  have hi : i32 (r + 2) = r + 2 := i32_id (by omega) (by omega)
  have hu : u32 (i32 (r + 2)) = r + 2 := by rw [hi]; exact u32_id (by omega) (by omega)
  show _ ≤ rangeSet _ _ _ rexmtMax
  rw [e]; omega

/-- The interval between window probes stays between 5 s and 60 s, whatever overflows. -/
theorem persist_range (c : Cfg) (s : Rtt) : 500 ≤ (setPersist c s).1 ∧ (setPersist c s).1 ≤ 6000 := by
  have := rangeSet_bounds c (i32 (i32 (s.srtt / 4 + s.rttvar) / 2 * backoff s.rxtshift)) persMin persMax
    (by decide) (by decide) (by decide) (by decide)
  have e1 : persMin = 500 := by decide
  have e2 : persMax = 6000 := by decide
  show 500 ≤ rangeSet _ _ persMin persMax ∧ rangeSet _ _ persMin persMax ≤ 6000
  rw [e1, e2] at this
  rw [e1, e2]
  omega

/-! ## The measurements -/

/-- A timestamp echo never yields a measurement of more than 72 minutes, nor a negative one,
whatever the peer echoes. -/
theorem tsSample_range (ticks off e r : Int) (h : tsSample ticks off e = some r) : 1 ≤ r ∧ r ≤ 429497 := by
  unfold tsSample at h
  by_cases h0 : e = 0
  · rw [if_pos h0] at h; cases h
  · rw [if_neg h0] at h
    dsimp only at h
    generalize (if i32 (u32 (e - off) - tsNow ticks) > 0 then 0 else u32 (e - off)) = x at h
    by_cases hx : x = 0
    · rw [if_pos hx] at h; cases h
    · rw [if_neg hx] at h
      cases h
      have := u32_range (u32 (tsNow ticks - x) * 1000)
      omega

/-- An echo of one of our own timestamps (sent at tick `t`, not zero on the wire after the
offset) acknowledged within 71 minutes is measured exactly, plus the one tick of rounding. -/
theorem tsSample_exact (t ticks off : Int) (h1 : t ≤ ticks) (h2 : ticks ≤ t + 429496)
    (h3 : u32 (tsNow t + off) ≠ 0) (h4 : u32 (t * 10) ≠ 0) :
    tsSample ticks off (u32 (tsNow t + off)) = some (ticks - t + 1) := by
  unfold tsSample
  rw [if_neg h3]
  dsimp only
  have e1 : u32 (u32 (tsNow t + off) - off) = u32 (t * 10) := by
    unfold tsNow u32; omega
  rw [e1]
  have e0 : u32 (ticks * 10) = u32 (t * 10) + 10 * (ticks - t) ∨ u32 (ticks * 10) = u32 (t * 10) + 10 * (ticks - t) - 4294967296 := by
    unfold u32; omega
  have e2 : ¬ i32 (u32 (t * 10) - tsNow ticks) > 0 := by
    have key : ∀ d : Int, 0 ≤ d → d ≤ 4294960 → i32 (-d) ≤ 0 ∧ i32 (4294967296 - d) ≤ 0 := by
      intro d d0 d1
      unfold i32
      have : 4294967296 - d + 2147483648 = (2147483648 - d) + 4294967296 := by omega
      rw [this, Int.add_emod_right, Int.emod_eq_of_lt (by omega) (by omega), Int.emod_eq_of_lt (by omega) (by omega)]
      omega
    have kk := key (10 * (ticks - t)) (by omega) (by omega)
    unfold tsNow
    rcases e0 with e0 | e0
    · have : u32 (t * 10) - u32 (ticks * 10) = -(10 * (ticks - t)) := by omega
      rw [this]; omega
    · have : u32 (t * 10) - u32 (ticks * 10) = 4294967296 - 10 * (ticks - t) := by omega
      rw [this]; omega
  rw [if_neg e2, if_neg h4]
  have e3 : u32 (tsNow ticks - u32 (t * 10)) = (ticks - t) * 10 := by
    unfold tsNow u32; omega
  rw [e3, u32_id (by omega) (by omega)]
  congr 1
  omega

/-! ## The averages, for measurements below 87 minutes -/

/-- Bounds kept by the averages when every measurement lies between 0 and `B` ticks. -/
def Avg (B : Int) (s : Rtt) : Prop :=
  0 ≤ s.srtt ∧ s.srtt ≤ 32 * B ∧ 0 ≤ s.rttvar ∧ s.rttvar ≤ 17 * B + 1216 ∧ (s.srtt ≠ 0 → s.rttvar ≤ 16 * B + 16)

/-- Smoothing without overflow. -/
theorem smooth_exact {B : Int} (hB : B ≤ 524288) {s : Rtt} (h : Avg B s) (r : Int) (h0 : 0 ≤ r) (h1 : r ≤ B) :
    smooth s r =
      if s.srtt ≠ 0 then
        (max 1 (s.srtt + (4 * (r - 1) - s.srtt / 8)),
         max 1 (s.rttvar + ((if 4 * (r - 1) - s.srtt / 8 < 0 then -(4 * (r - 1) - s.srtt / 8) else 4 * (r - 1) - s.srtt / 8) - s.rttvar / 4)))
      else (32 * r, 8 * r) := by
  obtain ⟨a1, a2, a3, a4, a5⟩ := h
  unfold smooth
  by_cases hz : s.srtt ≠ 0
  · have a6 := a5 hz
    rw [if_pos hz, if_pos hz]
    dsimp only
    have e1 : i32 (r - 1) = r - 1 := i32_id (by omega) (by omega)
    have e2 : i32 ((r - 1) * 4) = (r - 1) * 4 := i32_id (by omega) (by omega)
    have e3 : i32 ((r - 1) * 4 - s.srtt / 8) = 4 * (r - 1) - s.srtt / 8 := by
      rw [i32_id (by omega) (by omega)]; omega
    rw [e1, e2, e3]
    have d1 : -4 - 4 * B ≤ 4 * (r - 1) - s.srtt / 8 := by omega
    have d2 : 4 * (r - 1) - s.srtt / 8 ≤ 4 * B := by omega
    generalize hd : 4 * (r - 1) - s.srtt / 8 = d at *
    have e4 : i32 (s.srtt + d) = s.srtt + d := i32_id (by omega) (by omega)
    have e5 : i32 (-d) = -d := i32_id (by omega) (by omega)
    rw [e4, e5]
    have e6 : i32 ((if d < 0 then -d else d) - s.rttvar / 4) = (if d < 0 then -d else d) - s.rttvar / 4 := by
      by_cases hn : d < 0
      · rw [if_pos hn]; exact i32_id (by omega) (by omega)
      · rw [if_neg hn]; exact i32_id (by omega) (by omega)
    rw [e6]
    have e7 : i32 (s.rttvar + ((if d < 0 then -d else d) - s.rttvar / 4)) = s.rttvar + ((if d < 0 then -d else d) - s.rttvar / 4) := by
      by_cases hn : d < 0
      · rw [if_pos hn]; exact i32_id (by omega) (by omega)
      · rw [if_neg hn]; exact i32_id (by omega) (by omega)
    rw [e7]
    refine Prod.ext ?_ ?_
    · show (if s.srtt + d ≤ 0 then 1 else s.srtt + d) = max 1 (s.srtt + d)
      by_cases hn : s.srtt + d ≤ 0
      · rw [if_pos hn]; omega
      · rw [if_neg hn]; omega
    · generalize s.rttvar + ((if d < 0 then -d else d) - s.rttvar / 4) = v
      show (if v ≤ 0 then 1 else v) = max 1 v
      by_cases hn : v ≤ 0
      · rw [if_pos hn]; omega
      · rw [if_neg hn]; omega
  · rw [if_neg hz, if_neg hz]
    refine Prod.ext ?_ ?_
    · show i32 (r * 32) = 32 * r
      rw [i32_id (by omega) (by omega)]; omega
    · show i32 (r * 8) = 8 * r
      rw [i32_id (by omega) (by omega)]; omega

theorem smooth_avg {B : Int} (hB : B ≤ 524288) {s : Rtt} (h : Avg B s) (r : Int) (h0 : 0 ≤ r) (h1 : r ≤ B) :
    0 ≤ (smooth s r).1 ∧ (smooth s r).1 ≤ 32 * B ∧ 0 ≤ (smooth s r).2 ∧ (smooth s r).2 ≤ 16 * B + 16 := by
  have e := smooth_exact hB h r h0 h1
  rw [e]
  obtain ⟨a1, a2, a3, a4, a5⟩ := h
  by_cases hz : s.srtt ≠ 0
  · have a6 := a5 hz
    rw [if_pos hz]
    by_cases hn : 4 * (r - 1) - s.srtt / 8 < 0
    · rw [if_pos hn]
      show 0 ≤ max 1 _ ∧ max 1 _ ≤ _ ∧ 0 ≤ max 1 _ ∧ max 1 _ ≤ _
      omega
    · rw [if_neg hn]
      show 0 ≤ max 1 _ ∧ max 1 _ ≤ _ ∧ 0 ≤ max 1 _ ∧ max 1 _ ≤ _
      omega
  · rw [if_neg hz]
    show 0 ≤ 32 * r ∧ 32 * r ≤ _ ∧ 0 ≤ 8 * r ∧ 8 * r ≤ _
    omega

/-- The base timeout, without overflow. -/
theorem rexmtVal_exact {B : Int} (hB : B ≤ 524288) {s : Rtt} (h : Avg B s) (hm : 0 ≤ s.rttmin) (hm' : s.rttmin ≤ 6400) :
    rexmtVal s = max s.rttmin ((s.srtt / 8 + s.rttvar) / 4) := by
  obtain ⟨a1, a2, a3, a4, a5⟩ := h
  unfold rexmtVal
  rw [i32_id (by omega) (by omega), umax_exact hm (by omega) (by omega) (by omega)]

/-- **C131** (part).  The first measurement `R` gives `SRTT = R` and `RTTVAR = R/2`
(RFC 6298, 2.2; `t_srtt` counts 32nds and `t_rttvar` 16ths of a tick). -/
theorem first_sample (c : Cfg) {s : Rtt} (hz : s.srtt = 0) (r : Int) (h0 : 0 ≤ r) (h1 : r ≤ 524288) :
    (xmitTimer c s r).srtt = 32 * r ∧ 2 * (xmitTimer c s r).rttvar = 16 * r := by
  have e : smooth s r = (32 * r, 8 * r) := by
    unfold smooth
    rw [if_neg (by rw [hz]; exact fun h => h rfl)]
    rw [i32_id (x := r * 32) (by omega) (by omega), i32_id (x := r * 8) (by omega) (by omega)]
    refine Prod.ext ?_ ?_
    · show r * 32 = 32 * r; omega
    · show r * 8 = 8 * r; omega
  show (smooth s r).1 = _ ∧ 2 * (smooth s r).2 = _
  rw [e]
  show 32 * r = _ ∧ 2 * (8 * r) = _
  omega

/-- A later measurement `R` (its first tick, which may be partial, discounted)
moves the averages as RFC 6298, 2.3 asks: `SRTT' = 7/8 SRTT + 1/8 R` and
`RTTVAR' = 3/4 RTTVAR + 1/4 |SRTT - R|`, up to rounding by less than one unit (a 32nd and a 16th of
a tick) and the smallest value 1. -/
theorem later_sample_avg (c : Cfg) {B : Int} (hB : B ≤ 524288) {s : Rtt} (h : Avg B s) (hz : s.srtt ≠ 0) (r : Int) (h0 : 0 ≤ r) (h1 : r ≤ B) :
    let s' := xmitTimer c s r
    (s'.srtt = 1 ∧ 7 * s.srtt + 32 * (r - 1) ≤ 8 ∨
      0 ≤ 8 * s'.srtt - (7 * s.srtt + 32 * (r - 1)) ∧ 8 * s'.srtt - (7 * s.srtt + 32 * (r - 1)) < 8) ∧
    (s'.rttvar = 1 ∨
      ∃ d : Int, (d = s.srtt - 32 * (r - 1) ∨ d = 32 * (r - 1) - s.srtt) ∧ 0 ≤ d + 8 ∧
      -- 4 RTTVAR' = 3 RTTVAR + |SRTT - R|, with |SRTT - R| = d/2 in 16ths
      -8 < 8 * s'.rttvar - (6 * s.rttvar + d) ∧ 8 * s'.rttvar - (6 * s.rttvar + d) < 16) := by
  have e := smooth_exact hB h r h0 h1
  rw [if_pos hz] at e
  obtain ⟨a1, a2, a3, a4, a5⟩ := h
  have a6 := a5 hz
  dsimp only
  have e1 : (xmitTimer c s r).srtt = max 1 (s.srtt + (4 * (r - 1) - s.srtt / 8)) := by
    show (smooth s r).1 = _
    rw [e]
  have e2 : (xmitTimer c s r).rttvar = max 1 (s.rttvar + ((if 4 * (r - 1) - s.srtt / 8 < 0 then -(4 * (r - 1) - s.srtt / 8) else 4 * (r - 1) - s.srtt / 8) - s.rttvar / 4)) := by
    show (smooth s r).2 = _
    rw [e]
  rw [e1, e2]
  refine ⟨by omega, ?_⟩
  by_cases hn : 4 * (r - 1) - s.srtt / 8 < 0
  · rw [if_pos hn]
    by_cases hv : s.rttvar + (-(4 * (r - 1) - s.srtt / 8) - s.rttvar / 4) ≤ 0
    · left; omega
    · right
      exact ⟨s.srtt - 32 * (r - 1), .inl rfl, by omega, by omega, by omega⟩
  · rw [if_neg hn]
    by_cases hv : s.rttvar + ((4 * (r - 1) - s.srtt / 8) - s.rttvar / 4) ≤ 0
    · left; omega
    · right
      exact ⟨32 * (r - 1) - s.srtt, .inr rfl, by omega, by omega, by omega⟩

/-- The timeout a measurement sets is `SRTT + 4 RTTVAR`, rounded down to ticks,
but at least the minimum, plus the slop; then clamped. -/
theorem rto_formula_avg (c : Cfg) (hc : c.Sane) {B : Int} (hB : B ≤ 524288) {s : Rtt} (hr : Rng c s) (h : Avg B s) (r : Int) (h0 : 0 ≤ r) (h1 : r ≤ B) :
    let s' := xmitTimer c s r
    s'.rxtcur = min 6400 (max (max c.rmin (r + 2)) (max c.rmin ((s'.srtt / 8 + s'.rttvar) / 4) + c.slop)) := by
  dsimp only
  have ha := smooth_avg hB h r h0 h1
  obtain ⟨c1, c2, c3, c4⟩ := hc
  have hrv : rexmtVal { s with srtt := (smooth s r).1, rttvar := (smooth s r).2, rtttime := 0, rxtshift := 0, softerror := 0 } =
      max s.rttmin (((smooth s r).1 / 8 + (smooth s r).2) / 4) :=
    rexmtVal_exact hB (s := { s with srtt := (smooth s r).1, rttvar := (smooth s r).2, rtttime := 0, rxtshift := 0, softerror := 0 })
      ⟨ha.1, ha.2.1, ha.2.2.1, by show (smooth s r).2 ≤ _; omega, fun _ => ha.2.2.2⟩ (by show 0 ≤ s.rttmin; rw [hr.1]; omega) (by show s.rttmin ≤ 6400; rw [hr.1]; omega)
  show rangeSet c (rexmtVal { s with srtt := (smooth s r).1, rttvar := (smooth s r).2, rtttime := 0, rxtshift := 0, softerror := 0 })
    (umax s.rttmin (i32 (r + 2))) rexmtMax = min 6400 (max (max c.rmin (r + 2)) (max c.rmin (((smooth s r).1 / 8 + (smooth s r).2) / 4) + c.slop))
  rw [hrv, hr.1, i32_id (by omega) (by omega), umax_exact (by omega) (by omega) (by omega) (by omega)]
  have e : rexmtMax = 6400 := by decide
  rw [e]
  exact rangeSet_exact c _ _ _ (by omega) (by omega) (by omega) (by omega) (by omega) (by omega)

end Verif.Rto

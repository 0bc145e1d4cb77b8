import Verif.Rto.Keep
import Verif.Rto.Thm2

/-! # Keep-alive and persist timers: proofs -/

namespace Verif.Rto

/-- Without a timestamp, what is measured is the time since the segment being timed was sent. -/
theorem measure_timed (s : Rtt) (t ticks off : Int) (h0 : u32 t ≠ 0) (hs : s.rtttime = u32 t) (h1 : t ≤ ticks) (h2 : ticks < t + 2147483648) :
    measure s ticks off none true = some (ticks - t) := by
  unfold measure
  show (if s.rtttime ≠ 0 ∧ true = true then some (i32 (u32 (ticks - s.rtttime))) else none) = _
  rw [if_pos ⟨by rw [hs]; exact h0, rfl⟩, hs]
  have : u32 (ticks - u32 t) = ticks - t := by unfold u32; omega
  rw [this, i32_id (by omega) (by omega)]

/-- **C131** (part).  Retransmitted data is not measured (Karn's rule): after a timeout, an
acknowledgement without a usable timestamp yields no measurement until new data has been sent. -/
theorem karn (c : Cfg) (ss : Bool) (s s' : Rtt) (hf : step c s (.timeout ss) = some s') (ticks off : Int) (newer : Bool) :
    measure s' ticks off none newer = none ∧ measure s' ticks off (some 0) newer = none := by
  have hz : s'.rtttime = 0 := by
    simp only [step] at hf
    cases hq : rexmtFire c ss s with
    | dropped e => rw [hq] at hf; cases hf
    | again t =>
      rw [hq] at hf
      cases hf
      unfold rexmtFire at hq
      by_cases hm : s.rxtshift + 1 > maxShift
      · rw [if_pos hm] at hq; cases hq
      · rw [if_neg hm] at hq
        dsimp only at hq
        by_cases hg : s.rxtshift + 1 > maxShift / 4
        · rw [if_pos hg] at hq; cases hq; rfl
        · rw [if_neg hg] at hq; cases hq; rfl
  constructor
  · unfold measure
    show (if s'.rtttime ≠ 0 ∧ newer = true then some (i32 (u32 (ticks - s'.rtttime))) else none) = _
    rw [if_neg (by rw [hz]; exact fun h => h.1 rfl)]
  · unfold measure
    show (if s'.rtttime ≠ 0 ∧ newer = true then some (i32 (u32 (ticks - s'.rtttime))) else none) = _
    rw [if_neg (by rw [hz]; exact fun h => h.1 rfl)]

/-! ## Keep-alive -/

/-- The idle time, the interval and the number of probes in force are positive and their total is
below 2^31 ticks. -/
def Times (g : KCfg) (k : Kcb) (idle intvl cnt : Int) : Prop :=
  tpIdle g k = idle ∧ tpIntvl g k = intvl ∧ tpCnt g k = cnt ∧ 10 ≤ idle ∧ 0 < intvl ∧ 0 < cnt ∧ idle + cnt * intvl + 100 < 2147483648

instance (g : KCfg) (k : Kcb) (a b c : Int) : Decidable (Times g k a b c) := by unfold Times; infer_instance

theorem Times.maxidle {g : KCfg} {k : Kcb} {idle intvl cnt : Int} (h : Times g k idle intvl cnt) :
    tpMaxidle g k = cnt * intvl ∧ i32 (tpIdle g k + tpMaxidle g k) = idle + cnt * intvl := by
  obtain ⟨h1, h2, h3, h4, h5, h6, h7⟩ := h
  have hp : 0 < cnt * intvl := Int.mul_pos h6 h5
  have e : tpMaxidle g k = cnt * intvl := by
    unfold tpMaxidle
    rw [h2, h3]
    exact i32_id (by omega) (by omega)
  refine ⟨e, ?_⟩
  rw [e, h1]
  exact i32_id (by omega) (by omega)

theorem Times.grain {g : KCfg} {k : Kcb} {idle intvl cnt : Int} (h : Times g k idle intvl cnt) :
    Rto.grain g k = min (idle / 10) 100 := by
  obtain ⟨h1, h2, h3, h4, h5, h6, h7⟩ := h
  have hp : 0 < cnt * intvl := Int.mul_pos h6 h5
  unfold Rto.grain
  rw [h1, Int.tdiv_eq_ediv_of_nonneg (by omega), u32_id (by omega) (by omega)]
  by_cases hlt : idle / 10 < 100
  · rw [if_pos hlt]; omega
  · rw [if_neg hlt]; omega

/-- The state of a living connection within the first 2^31 ticks. -/
def KInv (g : KCfg) (idle intvl cnt : Int) (k : Kcb) : Prop :=
  Times g k idle intvl cnt ∧ k.est = true ∧ (g.always || k.soKeep) = true ∧
  0 ≤ k.rcvtime ∧ k.rcvtime ≤ k.heard ∧ k.heard ≤ k.now ∧ k.heard ≤ k.rcvtime + min (idle / 10) 100 ∧
  (k.dropped = false → ∃ t, k.timer = some t ∧ t < k.rcvtime + idle + cnt * intvl + intvl)

theorem recv_kinv {g : KCfg} {idle intvl cnt : Int} {k : Kcb} (h : KInv g idle intvl cnt k) (hn : k.now < 2147483548) (hd : k.dropped = false) :
    KInv g idle intvl cnt (recvSeg g k) ∧ (recvSeg g k).now = k.now ∧ (recvSeg g k).heard = k.now ∧ (recvSeg g k).dropped = false := by
  obtain ⟨ht, he, ha, h1, h2, h3, h4, h5⟩ := h
  have hg := ht.grain
  have hT := ht
  obtain ⟨t1, t2, t3, t4, t5, t6, t7⟩ := ht
  have hp : 0 < cnt * intvl := Int.mul_pos t6 t5
  have eg : grain g { k with heard := k.now, probes := [] } = min (idle / 10) 100 := hg
  have ei : tpIdle g { k with heard := k.now, probes := [] } = idle := t1
  have e1 : ticksOf k.now = k.now := i32_id (by omega) (by omega)
  have e2 : i32 (u32 (k.rcvtime + min (idle / 10) 100)) = k.rcvtime + min (idle / 10) 100 := by
    rw [u32_id (by omega) (by omega), i32_id (by omega) (by omega)]
  unfold recvSeg
  dsimp only
  rw [eg, e1, e2]
  by_cases hc : k.now > k.rcvtime + min (idle / 10) 100
  · rw [if_pos hc]
    refine ⟨⟨hT, he, ha, ?_, ?_, ?_, ?_, ?_⟩, rfl, rfl, hd⟩
    · exact (u32_range _).1
    · show u32 k.now ≤ k.now
      rw [u32_id (by omega) (by omega)]; exact Int.le_refl _
    · exact Int.le_refl _
    · show k.now ≤ u32 k.now + _
      rw [u32_id (by omega) (by omega)]; omega
    · intro _
      show ∃ t, (if k.est = true then activateKeep k.now (tpIdle g { k with heard := k.now, probes := [] }) else k.timer) = some t ∧ t < u32 k.now + idle + cnt * intvl + intvl
      rw [if_pos he, ei, u32_id (x := k.now) (by omega) (by omega)]
      unfold activateKeep
      dsimp only
      rw [u32_id (by omega) (by omega)]
      by_cases h6 : idle > 6000
      · rw [if_pos h6, if_neg (by omega)]; exact ⟨_, rfl, by omega⟩
      · rw [if_neg h6, if_neg (by omega)]; exact ⟨_, rfl, by omega⟩
  · rw [if_neg hc]
    exact ⟨⟨hT, he, ha, h1, by show k.rcvtime ≤ k.now; omega, Int.le_refl _, Int.not_lt.1 hc, h5⟩, rfl, rfl, hd⟩

theorem fire_kinv {g : KCfg} {idle intvl cnt : Int} {k : Kcb} (h : KInv g idle intvl cnt k) (hn : k.now < 2147483548) (hd : k.dropped = false) :
    KInv g idle intvl cnt (keepFire g k) ∧ (keepFire g k).now = k.now ∧ (keepFire g k).heard = k.heard ∧
    ((keepFire g k).dropped = true ↔ idle + cnt * intvl ≤ k.now - k.rcvtime) := by
  obtain ⟨ht, he, ha, h1, h2, h3, h4, h5⟩ := h
  have hm := ht.maxidle
  have hT := ht
  obtain ⟨t1, t2, t3, t4, t5, t6, t7⟩ := ht
  have hp : 0 < cnt * intvl := Int.mul_pos t6 t5
  have e1 : ticksOf k.now = k.now := i32_id (by omega) (by omega)
  have e2 : i32 (u32 (k.now - k.rcvtime)) = k.now - k.rcvtime := by
    rw [u32_id (by omega) (by omega), i32_id (by omega) (by omega)]
  have em : i32 (tpIdle g { k with timer := none } + tpMaxidle g { k with timer := none }) = idle + cnt * intvl := hm.2
  have ev : tpIntvl g { k with timer := none } = intvl := t2
  unfold keepFire
  dsimp only
  rw [if_neg (by rw [he]; exact fun h => by cases h), if_pos ha, em, e1, e2]
  by_cases hc : k.now - k.rcvtime ≥ idle + cnt * intvl
  · rw [if_pos hc]
    refine ⟨⟨hT, he, ha, h1, h2, h3, h4, (fun h => by cases h)⟩, rfl, rfl, ⟨fun _ => hc, fun _ => rfl⟩⟩
  · rw [if_neg hc]
    refine ⟨⟨hT, he, ha, h1, h2, h3, h4, fun _ => ⟨k.now + intvl, by show some (k.now + tpIntvl g _) = _; rw [ev], ?_⟩⟩, rfl, rfl, ⟨fun h => ?_, fun h => absurd h hc⟩⟩
    · show k.now + intvl < k.rcvtime + idle + cnt * intvl + intvl
      omega
    · rw [show ({ k with probes := k.now :: k.probes, timer := some (k.now + tpIntvl g { k with timer := none }) } : Kcb).dropped = k.dropped from rfl, hd] at h
      cases h

/-- Connections that live through a history. -/
theorem krun_inv {g : KCfg} {idle intvl cnt : Int} (es : List KEv) : ∀ {k : Kcb}, KInv g idle intvl cnt k →
    (∀ n, (krun g k (es.take n)).now < 2147483548) → KInv g idle intvl cnt (krun g k es) := by
  induction es with
  | nil => intro k h _; exact h
  | cons e es ih =>
    intro k h hn
    have h0 := hn 0
    have hk : KInv g idle intvl cnt (kstep g k e) := by
      cases e with
      | pass d =>
        obtain ⟨ht, he, ha, h1, h2, h3, h4, h5⟩ := h
        exact ⟨ht, he, ha, h1, h2, by show k.heard ≤ k.now + d; omega, h4, h5⟩
      | recv =>
        show KInv g idle intvl cnt (if k.dropped then k else recvSeg g k)
        cases hd : k.dropped with
        | true => exact h
        | false => exact (recv_kinv h h0 hd).1
      | serve =>
        show KInv g idle intvl cnt (match k.timer with | none => k | some t => if t ≤ k.now then (if k.dropped then k else keepFire g k) else k)
        cases ht : k.timer with
        | none => exact h
        | some t =>
          by_cases hle : t ≤ k.now
          · show KInv g idle intvl cnt (if t ≤ k.now then (if k.dropped then k else keepFire g k) else k)
            rw [if_pos hle]
            cases hd : k.dropped with
            | true => exact h
            | false => exact (fire_kinv h h0 hd).1
          · show KInv g idle intvl cnt (if t ≤ k.now then (if k.dropped then k else keepFire g k) else k)
            rw [if_neg hle]; exact h
    exact ih hk (fun n => hn (n + 1))

theorem established_kinv {g : KCfg} {now oIdle oIntvl oCnt idle intvl cnt : Int} {soKeep : Bool} (h0 : 0 ≤ now) (hn : now < 2147483548)
    (ht : Times g (kestablished g now oIdle oIntvl oCnt soKeep) idle intvl cnt) (ha : (g.always || soKeep) = true) :
    KInv g idle intvl cnt (kestablished g now oIdle oIntvl oCnt soKeep) := by
  have hT := ht
  obtain ⟨t1, t2, t3, t4, t5, t6, t7⟩ := ht
  have hp : 0 < cnt * intvl := Int.mul_pos t6 t5
  have e1 : u32 (ticksOf now) = now := by
    unfold ticksOf
    rw [i32_id (by omega) (by omega), u32_id (by omega) (by omega)]
  refine ⟨hT, rfl, ha, ?_, ?_, Int.le_refl _, ?_, fun _ => ?_⟩
  · exact (u32_range _).1
  · show u32 (ticksOf now) ≤ now
    rw [e1]; exact Int.le_refl _
  · show now ≤ u32 (ticksOf now) + _
    rw [e1]; omega
  · show ∃ t, activateKeep now (tpIdle g (kestablished g now oIdle oIntvl oCnt soKeep)) = some t ∧ t < u32 (ticksOf now) + _ + _ + _
    rw [t1, e1]
    unfold activateKeep
    dsimp only
    rw [u32_id (by omega) (by omega)]
    by_cases h6 : idle > 6000
    · rw [if_pos h6, if_neg (by omega)]; exact ⟨_, rfl, by omega⟩
    · rw [if_neg h6, if_neg (by omega)]; exact ⟨_, rfl, by omega⟩

/-- **C135** (part, proved for the first 248 days of running).  The keep-alive timer ends an
established connection only if no segment has been received for the configured idle time plus
the configured number of probe intervals, less at most one second (a tenth of the idle time if
that is shorter); and then it does so as soon as it is served. -/
theorem keep_drop_partial (g : KCfg) (now oIdle oIntvl oCnt idle intvl cnt : Int) (soKeep : Bool) (h0 : 0 ≤ now)
    (ht : Times g (kestablished g now oIdle oIntvl oCnt soKeep) idle intvl cnt) (ha : (g.always || soKeep) = true)
    (es : List KEv) (hn : ∀ n, (krun g (kestablished g now oIdle oIntvl oCnt soKeep) (es.take n)).now < 2147483548)
    (k : Kcb) (hk : k = krun g (kestablished g now oIdle oIntvl oCnt soKeep) es) (hd : k.dropped = false) :
    ((kstep g k .serve).dropped = true → idle + cnt * intvl - min (idle / 10) 100 ≤ k.now - k.heard) ∧
    -- the timer is always set, for a moment before this sum plus one interval
    (∃ t, k.timer = some t ∧ t < k.heard + idle + cnt * intvl + intvl ∧
      (t ≤ k.now → idle + cnt * intvl ≤ k.now - k.heard → (kstep g k .serve).dropped = true)) := by
  subst hk
  have hi := krun_inv es (established_kinv h0 (hn 0) ht ha) hn
  have hnow : (krun g (kestablished g now oIdle oIntvl oCnt soKeep) es).now < 2147483548 := by
    have := hn es.length
    rwa [List.take_length] at this
  generalize krun g (kestablished g now oIdle oIntvl oCnt soKeep) es = k at *
  have hf := fire_kinv hi hnow hd
  obtain ⟨t, et, lt⟩ := hi.2.2.2.2.2.2.2 hd
  have b1 := hi.2.2.2.2.1
  have b2 := hi.2.2.2.2.2.2.1
  have hstep : kstep g k .serve = if t ≤ k.now then keepFire g k else k := by
    show (match k.timer with | none => k | some t => if t ≤ k.now then (if k.dropped then k else keepFire g k) else k) = _
    rw [et]
    show (if t ≤ k.now then (if k.dropped then k else keepFire g k) else k) = _
    rw [hd]; rfl
  refine ⟨fun h => ?_, t, et, by omega, fun h1 h2 => ?_⟩
  · rw [hstep] at h
    by_cases hle : t ≤ k.now
    · rw [if_pos hle] at h
      have := hf.2.2.2.1 h
      omega
    · rw [if_neg hle, hd] at h; cases h
  · rw [hstep, if_pos h1]
    exact hf.2.2.2.2 (by omega)

/-- The default settings satisfy the hypotheses. -/
example : Times kdefaults (kestablished kdefaults 1000 0 0 0 false) 720000 7500 8 ∧ (kdefaults.always || false) = true := by decide

/-- **C136, violated.**  With the default settings (probes after two hours of silence) the first
probe goes out after one minute: the timer never runs longer
(src/ofp_tcp_timer.c:618). -/
theorem keepidle_violated : ∃ k, k = krun kdefaults (kestablished kdefaults 1000 0 0 0 false) [.pass 6000, .serve] ∧
    tpIdle kdefaults k = 2 * 60 * 60 * 100 ∧ k.heard = 1000 ∧ k.probes = [7000] := ⟨_, rfl, by decide +kernel⟩

/-- What is true of the first probe: it is not sent before the idle time chosen or one minute,
whichever is less, has passed without a segment (again for 248 days, and but for the last second). -/
theorem first_probe_partial (g : KCfg) (k : Kcb) (idle intvl cnt : Int) (h : KInv g idle intvl cnt k) (hn : k.now < 2147483548) (hd : k.dropped = false)
    (hc : k.now > k.rcvtime + min (idle / 10) 100) :
    (recvSeg g k).timer = some (k.now + min idle 6000) := by
  obtain ⟨ht, he, ha, h1, h2, h3, h4, h5⟩ := h
  have hg := ht.grain
  obtain ⟨t1, t2, t3, t4, t5, t6, t7⟩ := ht
  have hp : 0 < cnt * intvl := Int.mul_pos t6 t5
  have eg : grain g { k with heard := k.now, probes := [] } = min (idle / 10) 100 := hg
  have ei : tpIdle g { k with heard := k.now, probes := [] } = idle := t1
  have e1 : ticksOf k.now = k.now := i32_id (by omega) (by omega)
  have e2 : i32 (u32 (k.rcvtime + min (idle / 10) 100)) = k.rcvtime + min (idle / 10) 100 := by
    rw [u32_id (by omega) (by omega), i32_id (by omega) (by omega)]
  unfold recvSeg
  dsimp only
  rw [eg, e1, e2, if_pos hc]
  show (if k.est = true then activateKeep k.now (tpIdle g { k with heard := k.now, probes := [] }) else k.timer) = _
  rw [if_pos he, ei]
  unfold activateKeep
  dsimp only
  rw [u32_id (by omega) (by omega)]
  by_cases h6 : idle > 6000
  · rw [if_pos h6, if_neg (by omega)]; congr 1; omega
  · rw [if_neg h6, if_neg (by omega)]; congr 1; omega

/-- `n` times: time passes until the timer runs out, and it is served. -/
def rounds (n : Nat) : List KEv := .pass 6000 :: .serve :: (List.replicate n [KEv.pass 7500, .serve]).flatten

/-- **C136, violated.**  The number of unanswered probes before the connection is given up is not the
number configured (8) but 104 with the default settings. -/
theorem keepcnt_violated : (krun kdefaults (kestablished kdefaults 1000 0 0 0 false) (rounds 103)).dropped = false ∧
    (krun kdefaults (kestablished kdefaults 1000 0 0 0 false) (rounds 103)).probes.length = 104 ∧
    (krun kdefaults (kestablished kdefaults 1000 0 0 0 false) (rounds 104)).dropped = true ∧
    tpCnt kdefaults (krun kdefaults (kestablished kdefaults 1000 0 0 0 false) (rounds 103)) = 8 := by
  refine ⟨by decide +kernel, by decide +kernel, by decide +kernel, by decide +kernel⟩

/-- **C136.**  A keep-alive time given to `setsockopt` is either stored exactly, in ticks, or
refused; it is refused only if the number of ticks does not fit in 32 bits. -/
theorem keep_option_exact (secs : Int) (h0 : 0 ≤ secs) (_ : secs ≤ 4294967295) :
    (∀ v, setKeep secs = some v → v = secs * 100) ∧ (setKeep secs = none ↔ 4294967296 ≤ secs * 100) := by
  unfold setKeep u32
  by_cases h : secs > 4294967295 / 100
  · rw [if_pos h]
    exact ⟨fun v hv => (by cases hv), fun _ => (by omega), fun _ => rfl⟩
  · rw [if_neg h]
    have e : secs * 100 % 4294967296 = secs * 100 := Int.emod_eq_of_lt (by omega) (by omega)
    rw [e]
    refine ⟨fun v hv => ?_, fun hn => ?_, fun hn => ?_⟩
    · cases hv; rfl
    · cases hn
    · omega

/-- Both cases occur. -/
example : setKeep 7200 = some 720000 ∧ setKeep 42949672 = some 4294967200 ∧ setKeep 42949673 = none := by decide

/-- **C136, violated.**  `setsockopt` accepts an idle time of 30 million seconds and one of the next
keep-alive checks, a minute later, drops the connection: the ticks are stored unsigned and
read as a signed number. -/
theorem keepidle_large_violated : ∃ v, setKeep 30000000 = some v ∧
    (krun kdefaults (kestablished kdefaults 1000 v 0 0 false) [.pass 6000, .serve]).dropped = true ∧
    (krun kdefaults (kestablished kdefaults 1000 v 0 0 false) [.pass 6000, .serve]).heard = 1000 := by
  refine ⟨_, rfl, by decide +kernel, by decide +kernel⟩

/-- **C135, violated.**  After 248 days of running, when the tick counter becomes negative, a
connection on which segments keep arriving is dropped: the time of the last segment is compared
as a signed number and stops being updated (src/ofp_tcp_input.c:1392).  In this history the
connection becomes established two seconds before that moment and a segment arrives just
before every check. -/
theorem uptime_violated : ∃ es : List KEv, ∃ k, k = krun kdefaults (kestablished kdefaults 2147483448 0 0 0 true) es ∧
    es.getLast? = some .serve ∧ k.dropped = true ∧ k.heard = k.now := by
  refine ⟨[.pass 300, .recv] ++ (.pass 6000 :: .recv :: .serve :: (List.replicate 104 [KEv.pass 7500, .recv, .serve]).flatten), _, rfl, by decide +kernel, by decide +kernel, by decide +kernel⟩

/-- **C136** (part).  An attempt to connect ends, if nothing establishes the connection, when the
configured time or one minute has passed, whichever comes first. -/
theorem connect_timeout_partial (g : KCfg) (now oInit t : Int) (h0 : 0 ≤ now) (ht : tpInit g (kopening g now oInit) = t) (h1 : 0 < t) (h2 : t < 2147483648) :
    (kopening g now oInit).timer = some (now + min t 6000) ∧
    (∀ d : Nat, (krun g (kopening g now oInit) [.pass d, .serve]).dropped = true ↔ min t 6000 ≤ d) := by
  have e : (kopening g now oInit).timer = some (now + min t 6000) := by
    show activateKeep now (tpInit g (kopening g now oInit)) = _
    rw [ht]
    unfold activateKeep
    dsimp only
    rw [u32_id (by omega) (by omega)]
    by_cases h6 : t > 6000
    · rw [if_pos h6, if_neg (by omega)]; congr 1; omega
    · rw [if_neg h6, if_neg (by omega)]; congr 1; omega
  refine ⟨e, fun d => ?_⟩
  show (kstep g (kstep g (kopening g now oInit) (.pass d)) .serve).dropped = true ↔ _
  have e2 : (kstep g (kopening g now oInit) (.pass d)).timer = some (now + min t 6000) := e
  have e3 : (kstep g (kopening g now oInit) (.pass d)).now = now + d := rfl
  have e4 : (kstep g (kopening g now oInit) (.pass d)).dropped = false := rfl
  have e5 : (kstep g (kopening g now oInit) (.pass d)).est = false := rfl
  generalize kstep g (kopening g now oInit) (.pass d) = k at *
  have hstep : kstep g k .serve = if now + min t 6000 ≤ k.now then keepFire g k else k := by
    show (match k.timer with | none => k | some t => if t ≤ k.now then (if k.dropped then k else keepFire g k) else k) = _
    rw [e2]
    show (if _ ≤ k.now then (if k.dropped then k else keepFire g k) else k) = _
    rw [e4]; rfl
  rw [hstep]
  by_cases hle : now + min t 6000 ≤ k.now
  · rw [if_pos hle]
    unfold keepFire
    dsimp only
    rw [if_pos e5]
    exact ⟨fun _ => by omega, fun _ => rfl⟩
  · rw [if_neg hle, e4]
    exact ⟨(fun h => by cases h), fun h => by omega⟩

/-- **C136, violated.**  The default time to establish a connection is 75 s; the attempt ends after
60 s. -/
theorem keepinit_violated : tpInit kdefaults (kopening kdefaults 1000 0) = 75 * 100 ∧
    (krun kdefaults (kopening kdefaults 1000 0) [.pass 6000, .serve]).dropped = true := by decide +kernel

/-! ## The persist timer -/

theorem fire_val_mul {v : Int} (h0 : 3 ≤ v) (h1 : v ≤ 1678354) : u32 (v * totBackoff) = v * 2559 ∧ 7677 ≤ v * 2559 := by
  unfold totBackoff
  rw [u32_id (by omega) (by omega)]
  omega

/-- **C137** (part).  With the default settings (and round trips below 16 minutes) the persist timer
does not end a connection whose peer has been heard within the last 75 s; window probes go out at
least every 60 s (`persist_range`), so a peer that answers each probe within 15 s keeps the
connection for ever, however long its window stays closed. -/
theorem persist_keeps {B : Int} (hB0 : 0 ≤ B) (hB : B ≤ 100000) {s : Rtt} (h : Reached defaults B s) (now heard rcvtime : Int)
    (h1 : heard ≤ now) (h2 : now < heard + 7577) (h3 : rcvtime = u32 heard ∨ ∃ d, 0 ≤ d ∧ d ≤ 100 ∧ rcvtime = u32 (heard - d)) :
    persistGivesUp 720000 now rcvtime s = false ∧ (setPersist defaults s).1 ≤ 6000 := by
  refine ⟨?_, (persist_range _ s).2⟩
  have hr := h.rng (by decide)
  have ha := h.avg hB0 (by omega)
  have hv := rexmtVal_exact (by omega) ha (by rw [hr.1]; decide) (by rw [hr.1]; decide)
  have rm : s.rttmin = 3 := by rw [hr.1]; decide
  rw [rm] at hv
  obtain ⟨a1, a2, a3, a4, a5⟩ := ha
  have hm := fire_val_mul (v := rexmtVal s) (by omega) (by omega)
  obtain ⟨x, hx0, hx1, hx⟩ : ∃ x, 0 ≤ x ∧ x < 7677 ∧ u32 (ticksOf now - rcvtime) = x := by
    rcases h3 with h3 | ⟨d, d0, d1, h3⟩
    · refine ⟨now - heard, by omega, by omega, ?_⟩
      rw [h3]; unfold ticksOf i32 u32; omega
    · refine ⟨now - heard + d, by omega, by omega, ?_⟩
      rw [h3]; unfold ticksOf i32 u32; omega
  unfold persistGivesUp
  rw [hx, i32_id (by omega) (by omega), hm.1]
  have k1 : ¬ x ≥ 720000 := by omega
  have k2 : ¬ x ≥ rexmtVal s * 2559 := by omega
  rw [decide_eq_false k1, decide_eq_false k2]
  exact Bool.and_false _

/-- A connection over a path of 40 ms, measured with timestamps, whose window then stays closed for
a while: the persist timer has been set twelve times. -/
def closedWindow : List Ev := List.flatten ((List.range 60).map fun (i : Nat) =>
  [Ev.send (1000 + 10 * (i : Int)), .ack (1004 + 10 * (i : Int)) 0 (some (10000 + 100 * (i : Int))) true]) ++
  (.clear :: List.replicate 12 .persist)

/-- **C137, violated.**  One lost probe or answer ends the connection, if the round trip is 40 ms and
the window has been closed for a while: two probe intervals exceed the limit, which is computed
from the round-trip time. -/
theorem persist_single_loss_violated : ∃ s, run defaults (fresh defaults) closedWindow = some s ∧
    (setPersist defaults s).1 = 6000 ∧
    -- probe at 100000, answered at once; probe at 106000 lost; timer at 112000
    persistGivesUp 720000 106000 (u32 100000) s = false ∧ persistGivesUp 720000 112000 (u32 100000) s = true := by
  obtain ⟨s, e, h⟩ := ex_of (run defaults (fresh defaults) closedWindow) (fun (s : Rtt) => decide ((setPersist defaults s).1 = 6000 ∧
    persistGivesUp 720000 106000 (u32 100000) s = false ∧ persistGivesUp 720000 112000 (u32 100000) s = true)) (by decide +kernel)
  exact ⟨s, e, of_decide_eq_true h⟩

end Verif.Rto

import Verif.Sockopt.Props
/-!
# Properties of socket options: marks, linger, times, refusals, locks, errors, inheritance
-/
namespace Verif.Sockopt
open Verif.Sysctl (ofInt toInt toInt_ofInt)

/-- **C220**: setting a low-water mark: a number below 1 is refused, and nothing changes; otherwise the mark is that number, or
the size if it is above it, and every other option reads as before. -/
theorem mark_exact {e : Env} (hb : 1 ≤ e.bufsize) {s : Sock} (h : Reach e s) (snd : Bool) (b : List UInt8)
    (hlen : 4 ≤ b.length) {v : Int} (hv : toInt (b.take 4) = v) :
    let o : Opt := if snd then .sndbuf else .rcvbuf
    let m : Opt := if snd then .sndlowat else .rcvlowat
    let r := setsockopt e s (.sock m) b
    (v < 1 → r.err = some .inval ∧ r.sock = s) ∧
    (1 ≤ v → r.err = none ∧ (∀ w, ReadsInt s o w → ReadsInt r.sock m (min v w)) ∧ ∀ l, l ≠ .sock m → ReadsSame s r.sock l) := by
  obtain ⟨hs, hr⟩ := reach_ok hb h
  have hm := max_le e
  unfold sbMax at hm
  have hread : ∀ {o : Opt} {u w : Int}, ReadsInt s o w → valueOf s o = .ok (ofInt u) → -2147483648 ≤ u → u < 2147483648 → w = u := by
    intro o u w h1 h2 h3 h4
    obtain ⟨b1, _, e2, _, _, e5⟩ := h1 4 (by omega)
    obtain ⟨b2, _, e2', _, _, e5'⟩ := readsInt h2 h3 h4 4 (by omega)
    rw [← e5, ← e5', ← e2, ← e2']
  obtain ⟨s1, s2, s3⟩ := hs
  obtain ⟨r1, r2, r3⟩ := hr
  cases snd with
  | true =>
    simp only [if_true, setsockopt, setSock, copyin_some hlen, hv]
    refine ⟨fun h => by simp only [if_pos h]; exact ⟨trivial, trivial⟩, fun h1 => ?_⟩
    simp only [if_neg (show ¬ v < 1 by omega)]
    refine ⟨trivial, fun w hw => ?_, fun l h1 => ?_⟩
    · have := hread hw rfl (by omega) (by omega)
      subst this
      have hmin : (if v > (s.snd.hiwat : Int) then (s.snd.hiwat : Int) else v) = min v s.snd.hiwat := by split <;> omega
      exact readsInt (by simp only [valueOf]; rw [← hmin]) (by omega) (by omega)
    · refine readsSame_but (P := fun o => o = .sndlowat) ?_ (by rfl) l (by rintro o rfl h; exact h1 (by rw [h]))
      intro o ho
      cases o with
      | flag f => cases f <;> rfl
      | sndlowat => exact absurd rfl ho
      | _ => rfl
  | false =>
    simp only [Bool.false_eq_true, if_false, setsockopt, setSock, copyin_some hlen, hv]
    refine ⟨fun h => by simp only [if_pos h]; exact ⟨trivial, trivial⟩, fun h1 => ?_⟩
    simp only [if_neg (show ¬ v < 1 by omega)]
    refine ⟨trivial, fun w hw => ?_, fun l h1 => ?_⟩
    · have := hread hw rfl (by omega) (by omega)
      subst this
      have hmin : (if v > (s.rcv.hiwat : Int) then (s.rcv.hiwat : Int) else v) = min v s.rcv.hiwat := by split <;> omega
      exact readsInt (by simp only [valueOf]; rw [← hmin]) (by omega) (by omega)
    · refine readsSame_but (P := fun o => o = .rcvlowat) ?_ (by rfl) l (by rintro o rfl h; exact h1 (by rw [h]))
      intro o ho
      cases o with
      | flag f => cases f <;> rfl
      | rcvlowat => exact absurd rfl ho
      | _ => rfl

/-! ## Structures of two numbers -/

/-- The first number. -/
def fst4 (b : List UInt8) : Int := toInt (b.take 4)
/-- The second number. -/
def snd4 (b : List UInt8) : Int := toInt ((b.drop 4).take 4)

theorem take8_fst (b : List UInt8) : (b.take 8).take 4 = b.take 4 := by simp [List.take_take]

theorem take8_snd (b : List UInt8) : (b.take 8).drop 4 = (b.drop 4).take 4 := by simp [List.drop_take]

theorem fst4_ofInt {i : Int} (r : List UInt8) (h0 : -2147483648 ≤ i) (h1 : i < 2147483648) : fst4 (ofInt i ++ r) = i := by
  have : (ofInt i ++ r).take 4 = ofInt i := by
    rw [List.take_append_of_le_length (by rw [ofInt_length]; exact Nat.le_refl 4)]; exact take_ofInt _ (by omega)
  unfold fst4
  rw [this, toInt_ofInt h0 h1]

theorem snd4_ofInt {i j : Int} (r : List UInt8) (h0 : -2147483648 ≤ j) (h1 : j < 2147483648) : snd4 (ofInt i ++ ofInt j ++ r) = j := by
  have hd : (ofInt i ++ ofInt j ++ r).drop 4 = ofInt j ++ r := by
    rw [List.append_assoc, List.drop_append, ofInt_length]
    rfl
  have : (ofInt j ++ r).take 4 = ofInt j := by
    rw [List.take_append_of_le_length (by rw [ofInt_length]; exact Nat.le_refl 4)]; exact take_ofInt _ (by omega)
  unfold snd4
  rw [hd, this, toInt_ofInt h0 h1]

/-! ## Linger -/

theorem short_small {i : Int} (h0 : -32768 ≤ i) (h1 : i < 32768) : short i = i := by unfold short; omega

theorem short_range (i : Int) : -32768 ≤ short i ∧ short i < 32768 := by unfold short; omega

/-- **C221**: the option to linger: a value that is too short is refused.  Otherwise what is read then is on just if what was set
was, with the same time if it is in the range of `short`; every other option reads as before. -/
theorem linger_partial (e : Env) (s : Sock) (b : List UInt8) :
    (b.length < 8 → (setsockopt e s (.sock .linger) b).err = some .inval ∧ (setsockopt e s (.sock .linger) b).sock = s) ∧
    (8 ≤ b.length → (setsockopt e s (.sock .linger) b).err = none ∧
      (∀ n, 8 ≤ n → ∃ g, getsockopt (setsockopt e s (.sock .linger) b).sock (.sock .linger) n = g ∧ g.err = none ∧ g.len = 8 ∧
        (fst4 g.out ≠ 0 ↔ fst4 b ≠ 0) ∧ (-32768 ≤ snd4 b → snd4 b < 32768 → snd4 g.out = snd4 b)) ∧
      ∀ l, l ≠ .sock .linger → ReadsSame s (setsockopt e s (.sock .linger) b).sock l) := by
  simp only [setsockopt, setSock]
  constructor
  · intro h; rw [copyin_none h]; exact ⟨rfl, rfl⟩
  · intro h
    rw [copyin_some h]
    simp only [take8_fst, take8_snd]
    refine ⟨trivial, fun n hn => ⟨_, rfl, rfl, ?_, ?_, ?_⟩, fun l hl => ?_⟩
    · show min (ofInt _ ++ ofInt _).length n = 8
      rw [List.length_append, ofInt_length, ofInt_length]; omega
    · show fst4 ((ofInt _ ++ ofInt _).take n) ≠ 0 ↔ _
      rw [List.take_of_length_le (by rw [List.length_append, ofInt_length, ofInt_length]; omega)]
      rw [fst4_ofInt _ (by split <;> omega) (by split <;> omega)]
      unfold fst4
      by_cases hz : toInt (b.take 4) = 0 <;> simp [hz]
    · intro h0 h1
      show snd4 ((ofInt _ ++ ofInt _).take n) = _
      rw [List.take_of_length_le (by rw [List.length_append, ofInt_length, ofInt_length]; omega)]
      rw [← List.append_nil (ofInt _ ++ ofInt _)]
      have hr := short_range (toInt ((b.drop 4).take 4))
      rw [snd4_ofInt _ (Int.le_trans (by decide) hr.1) (Int.lt_trans hr.2 (by decide))]
      exact short_small h0 h1
    · refine readsSame_but (P := fun o => o = .linger) ?_ (by rfl) l (by rintro o rfl h; exact hl (by rw [h]))
      intro o ho
      cases o with
      | flag f => cases f <;> rfl
      | linger => exact absurd rfl ho
      | _ => rfl

/-- **C221, violated**: every other time is set with success, and another is read. -/
theorem linger_violated (e : Env) (s : Sock) (b : List UInt8) (hb : 8 ≤ b.length) (h : snd4 b < -32768 ∨ 32768 ≤ snd4 b)
    (n : Nat) (hn : 8 ≤ n) :
    (setsockopt e s (.sock .linger) b).err = none ∧
    snd4 (getsockopt (setsockopt e s (.sock .linger) b).sock (.sock .linger) n).out ≠ snd4 b := by
  simp only [setsockopt, setSock, copyin_some hb, take8_fst, take8_snd]
  refine ⟨trivial, ?_⟩
  show snd4 ((ofInt _ ++ ofInt _).take n) ≠ _
  rw [List.take_of_length_le (by rw [List.length_append, ofInt_length, ofInt_length]; omega)]
  rw [← List.append_nil (ofInt _ ++ ofInt _)]
  have hr := short_range (toInt ((b.drop 4).take 4))
  rw [snd4_ofInt _ (Int.le_trans (by decide) hr.1) (Int.lt_trans hr.2 (by decide))]
  change short (toInt ((b.drop 4).take 4)) ≠ snd4 b
  omega

/-! ## Times -/

/-- The time a call that waits asks to sleep, in microseconds; 0 is for ever. -/
def waitOf (s : Sock) (snd : Bool) : Nat := waitUs (if snd then s.snd.timeo else s.rcv.timeo)

/-- The option. -/
def timeOpt (snd : Bool) : Opt := if snd then .sndtimeo else .rcvtimeo

/-- Setting a time that is accepted. -/
theorem setTime_ok (e : Env) (s : Sock) (snd : Bool) {b : List UInt8} (hb : 8 ≤ b.length) {t : Int}
    (ht : ticksOf (unsigned (fst4 b)) (unsigned (snd4 b)) = some t) :
    setsockopt e s (.sock (timeOpt snd)) b = ⟨none,
      if snd then { s with snd := { s.snd with timeo := t } } else { s with rcv := { s.rcv with timeo := t } }, false⟩ := by
  unfold fst4 snd4 at ht
  cases snd <;> simp [timeOpt, setsockopt, setSock, copyin_some hb, take8_fst, take8_snd, ht]

theorem setTime_bad (e : Env) (s : Sock) (snd : Bool) {b : List UInt8} (hb : 8 ≤ b.length)
    (ht : ticksOf (unsigned (fst4 b)) (unsigned (snd4 b)) = none) :
    setsockopt e s (.sock (timeOpt snd)) b = ⟨some .dom, s, false⟩ := by
  unfold fst4 snd4 at ht
  cases snd <;> simp [timeOpt, setsockopt, setSock, copyin_some hb, take8_fst, take8_snd, ht]

theorem ticks_some {sec usec : Nat} {t : Int} (h : ticksOf sec usec = some t) :
    sec ≤ 21474836 ∧ usec < 1000000 ∧ sec * 100 + usec / 10000 ≤ 2147483647 ∧
    ((sec = 0 ∧ 0 < usec ∧ usec < 10000 ∧ t = 1) ∨
      (t = sec * 100 + usec / 10000 ∧ ¬ (sec = 0 ∧ 0 < usec ∧ usec < 10000))) := by
  unfold ticksOf at h
  split at h
  · simp at h
  · split at h
    · simp at h
    · have h := Option.some.inj h
      refine ⟨by omega, by omega, by omega, ?_⟩
      split at h
      · left; omega
      · right; omega

theorem waitUs_small {t : Int} (h0 : 0 ≤ t) (h1 : t < 429496) : waitUs t = (10000 * t).toNat := by
  unfold waitUs unsigned
  rw [Int.emod_eq_of_lt (by omega) (by omega)]

/-- **C222**: a time to send or receive: more than 21474836 seconds, or 1000000 microseconds or more, is refused, and nothing
changes; what is accepted changes no other option; and if it is less than 4294 seconds, calls wait for ever just if it is 0, and
otherwise at most that time, or 10 milliseconds, and not less by 10 milliseconds or more. -/
theorem timeout_partial (e : Env) (s : Sock) (snd : Bool) (b : List UInt8) (hb : 8 ≤ b.length) {sec usec : Nat}
    (hs : unsigned (fst4 b) = sec) (hu : unsigned (snd4 b) = usec) :
    let r := setsockopt e s (.sock (timeOpt snd)) b
    (21474836 < sec ∨ 1000000 ≤ usec → r.err = some .dom ∧ r.sock = s) ∧
    (sec < 21474836 → usec < 1000000 → r.err = none ∧ (∀ l, l ≠ .sock (timeOpt snd) → ReadsSame s r.sock l) ∧
      waitOf r.sock (!snd) = waitOf s (!snd)) ∧
    (sec < 4294 → usec < 1000000 →
      (waitOf r.sock snd = 0 ↔ sec * 1000000 + usec = 0) ∧
      waitOf r.sock snd ≤ max (sec * 1000000 + usec) 10000 ∧ sec * 1000000 + usec < waitOf r.sock snd + 10000) := by
  have hok : ∀ _ : sec < 21474836 ∧ usec < 1000000, ∃ t, ticksOf sec usec = some t := by
    intro ⟨h1, h2⟩
    unfold ticksOf
    rw [if_neg (by omega), if_neg (by omega)]
    exact ⟨_, rfl⟩
  intro r
  refine ⟨fun h => ?_, fun h1 h2 => ?_, fun h1 h2 => ?_⟩
  · have : ticksOf sec usec = none := by unfold ticksOf; rw [if_pos (by omega)]
    have hr : r = _ := setTime_bad e s snd hb (by rw [hs, hu]; exact this)
    rw [hr]; exact ⟨rfl, rfl⟩
  · obtain ⟨t, ht⟩ := hok ⟨h1, h2⟩
    have hr : r = _ := setTime_ok e s snd hb (by rw [hs, hu]; exact ht)
    rw [hr]
    refine ⟨rfl, fun l hl => ?_, ?_⟩
    · refine readsSame_but (P := fun o => o = timeOpt snd) ?_ (by cases snd <;> rfl) l (by rintro o rfl h; exact hl (by rw [h]))
      intro o ho
      cases snd <;> cases o with
      | flag f => cases f <;> rfl
      | sndtimeo => first | rfl | exact absurd rfl ho
      | rcvtimeo => first | rfl | exact absurd rfl ho
      | _ => rfl
    · cases snd <;> rfl
  · obtain ⟨t, ht⟩ := hok ⟨by omega, h2⟩
    have hr : r = _ := setTime_ok e s snd hb (by rw [hs, hu]; exact ht)
    have hw : waitOf r.sock snd = waitUs t := by rw [hr]; cases snd <;> rfl
    rw [hw]
    obtain ⟨_, _, _, h | h⟩ := ticks_some ht
    · rw [waitUs_small (by omega) (by omega)]; omega
    · rw [waitUs_small (by omega) (by omega)]; omega

/-- **C222, violated**: a time is read, into `struct ofp_timeval` or into more, without its microseconds. -/
theorem timeout_read_violated (e : Env) (s : Sock) (snd : Bool) (b : List UInt8) (hb : 8 ≤ b.length)
    (hs : unsigned (fst4 b) < 21474836) (hu : unsigned (snd4 b) < 1000000) (n : Nat) (hn : 8 ≤ n) :
    let r := setsockopt e s (.sock (timeOpt snd)) b
    r.err = none ∧ (getsockopt r.sock (.sock (timeOpt snd)) n).err = none ∧
    unsigned (fst4 (getsockopt r.sock (.sock (timeOpt snd)) n).out) = unsigned (fst4 b) ∧
    snd4 (getsockopt r.sock (.sock (timeOpt snd)) n).out = 0 := by
  intro r
  generalize hsec : unsigned (fst4 b) = sec at *
  generalize husec : unsigned (snd4 b) = usec at *
  obtain ⟨t, ht⟩ : ∃ t, ticksOf sec usec = some t := by
    unfold ticksOf
    rw [if_neg (by omega), if_neg (by omega)]
    exact ⟨_, rfl⟩
  have hr : r = _ := setTime_ok e s snd hb (by rw [hsec, husec]; exact ht)
  have ht2 : t / 100 = sec := by
    obtain ⟨_, _, _, h | h⟩ := ticks_some ht <;> omega
  have hv : valueOf r.sock (timeOpt snd) = .ok (ofInt (t / 100) ++ ofInt 0 ++ ofInt (t % 100 * 10000) ++ ofInt 0) := by
    rw [hr]; cases snd <;> rfl
  have ho : ∃ z, (getsockopt r.sock (.sock (timeOpt snd)) n).out = ofInt (t / 100) ++ ofInt 0 ++ z ∧
      (getsockopt r.sock (.sock (timeOpt snd)) n).err = none := by
    refine ⟨(ofInt (t % 100 * 10000) ++ ofInt 0).take (n - 8), ?_, ?_⟩
    · simp only [getsockopt, hv]
      rw [List.append_assoc, List.take_append, List.take_of_length_le (by rw [List.length_append, ofInt_length, ofInt_length]; omega)]
      rw [List.length_append, ofInt_length, ofInt_length]
    · simp only [getsockopt, hv]
  obtain ⟨z, h1, h2⟩ := ho
  rw [h1, h2, snd4_ofInt _ (by omega) (by omega), List.append_assoc, fst4_ofInt _ (by omega) (by omega)]
  refine ⟨by rw [hr], rfl, ?_, rfl⟩
  rw [ht2]
  unfold unsigned
  omega

/-- **C222, violated**: a time of 4295 seconds or more that is accepted is not waited for: the sleep asked for is shorter, or
for ever. -/
theorem timeout_wrap_violated (e : Env) (s : Sock) (snd : Bool) (b : List UInt8) (hb : 8 ≤ b.length)
    (h4295 : 4295 ≤ unsigned (fst4 b)) (hs : unsigned (fst4 b) < 21474836) (hu : unsigned (snd4 b) < 1000000) :
    let r := setsockopt e s (.sock (timeOpt snd)) b
    r.err = none ∧ waitOf r.sock snd < unsigned (fst4 b) * 1000000 + unsigned (snd4 b) - 32704 := by
  intro r
  have hok := (timeout_partial e s snd b hb rfl rfl).2.1 hs hu
  refine ⟨hok.1, ?_⟩
  generalize unsigned (fst4 b) = sec at *
  have : waitOf r.sock snd < 4294967296 := by unfold waitOf waitUs unsigned; omega
  omega

/-! ## Refusals -/

/-- **C223**: a call to set an option that fails changes nothing of the socket, if it is not `OFP_SO_SETFIB` with a value that
is too short. -/
theorem refused_partial (e : Env) (s : Sock) (l : Level) (b : List UInt8) (h : (setsockopt e s l b).err ≠ none)
    (hf : l = .sock .setfib → 4 ≤ b.length) : (setsockopt e s l b).sock = s ∧ (setsockopt e s l b).flush = false := by
  cases l with
  | sock o =>
    refine ⟨?_, rfl⟩
    simp only [setsockopt] at h ⊢
    cases o with
    | setfib =>
      have hb := hf rfl
      have hl : ¬ b.length < 4 := by omega
      simp only [setSock, if_neg hl, copyin_some hb] at h ⊢
      by_cases hc : toInt (b.take 4) < 0 ∨ toInt (b.take 4) ≥ 4096
      · rw [if_pos hc]
      · rw [if_neg hc] at h
        exact absurd rfl h
    | flag f =>
      by_cases hf : f = .acceptconn
      · subst hf; rfl
      · rw [setSock_flag e s hf] at h ⊢
        cases hc : copyin 4 b with
        | none => rfl
        | some v => rw [hc] at h; exact absurd rfl h
    | _ =>
      simp only [setSock] at h ⊢
      repeat' split
      all_goals first | rfl | (simp_all; done)
  | tcp name =>
    cases hp : s.proto with
    | tcp =>
      simp only [setsockopt, hp, setTcp] at h ⊢
      by_cases h4 : name = 4
      · simp only [if_pos h4] at h ⊢
        cases hc : copyin 4 b with
        | none => exact ⟨rfl, rfl⟩
        | some v => rw [hc] at h; simp only at h; split at h <;> exact absurd rfl h
      · by_cases h5 : name = 0x1000
        · simp only [if_neg h4, if_pos h5] at h ⊢
          cases hc : copyin 4 b with
          | none => exact ⟨rfl, rfl⟩
          | some v => rw [hc] at h; exact absurd rfl h
        · simp only [if_neg h4, if_neg h5] at h; exact absurd rfl h
    | _ => simp only [setsockopt, hp]; exact ⟨trivial, trivial⟩
  | ip name => simp only [setsockopt]; split <;> exact ⟨rfl, rfl⟩
  | udp name =>
    cases hp : s.proto with
    | udp => simp only [setsockopt, hp] at h; exact absurd rfl h
    | _ => simp only [setsockopt, hp]; exact ⟨trivial, trivial⟩
  | other a name => simp only [setsockopt]; split <;> exact ⟨rfl, rfl⟩

/-- **C223, violated**: `OFP_SO_SETFIB` with a value that is too short fails, and the socket is moved to VRF 0. -/
theorem setfib_violated (e : Env) (s : Sock) (b : List UInt8) (h : b.length < 4) :
    (setsockopt e s (.sock .setfib) b).err = some .inval ∧ (setsockopt e s (.sock .setfib) b).sock = { s with fib := 0 } := by
  simp only [setsockopt, setSock, copyin_none h, if_pos h]
  have hc : ¬ ((0 : Int) < 0 ∨ (0 : Int) ≥ 4096) := by decide
  rw [if_neg hc]
  exact ⟨rfl, rfl⟩

/-! ## Success -/

/-- **C224**: of a TCP socket, `OFP_TCP_NOPUSH` sets what its value says, or fails; `OFP_TCP_CORK` sends if its value is 0 and
the connection is established. -/
theorem nopush_partial (e : Env) (s : Sock) (hp : s.proto = .tcp) (b : List UInt8) :
    (b.length < 4 → (setsockopt e s (.tcp 4) b).err = some .inval ∧ (setsockopt e s (.tcp 0x1000) b).err = some .inval) ∧
    (4 ≤ b.length → (setsockopt e s (.tcp 4) b).err = none ∧
      (setsockopt e s (.tcp 4) b).sock = { s with nopush := decide (toInt (b.take 4) ≠ 0) } ∧
      (setsockopt e s (.tcp 4) b).flush = (s.nopush && s.est && decide (toInt (b.take 4) = 0)) ∧
      (setsockopt e s (.tcp 0x1000) b).err = none ∧
      (setsockopt e s (.tcp 0x1000) b).flush = (s.est && decide (toInt (b.take 4) = 0))) := by
  simp only [setsockopt, hp, setTcp, if_true]
  constructor
  · intro h; rw [copyin_none h]; exact ⟨rfl, rfl⟩
  · intro h
    rw [copyin_some h]
    by_cases hz : toInt (b.take 4) = 0 <;> simp [hz]

/-- **C224, violated**: a TCP socket takes every other option, of every level but `OFP_SOL_SOCKET`, whatever its value, with
success and without effect; reading any option of these levels succeeds, and writes nothing into the buffer. -/
theorem ignored_violated (e : Env) (s : Sock) (hp : s.proto = .tcp) (l : Level) (hl : ∀ o, l ≠ .sock o) :
    (l ≠ .tcp 4 → l ≠ .tcp 0x1000 → ∀ b, setsockopt e s l b = ⟨none, s, false⟩) ∧ ∀ n, getsockopt s l n = ⟨none, s, [], n⟩ := by
  cases l with
  | sock o => exact absurd rfl (hl o)
  | tcp m =>
    refine ⟨fun h1 h2 b => ?_, fun n => by simp only [getsockopt, hp]⟩
    have h1 : m ≠ 4 := fun h => h1 (by rw [h])
    have h2 : m ≠ 0x1000 := fun h => h2 (by rw [h])
    simp only [setsockopt, hp, setTcp, if_neg h1, if_neg h2]
  | _ => exact ⟨fun _ _ b => by simp only [setsockopt, hp], fun n => by simp only [getsockopt, hp]⟩

/-- **C224, violated**: so does a UDP socket every option of IP that is not for multicast. -/
theorem ignored_udp_violated (e : Env) (s : Sock) (hp : s.proto = .udp) (m : Nat) (hm : m ∉ mcastNames) (b : List UInt8) (n : Nat) :
    setsockopt e s (.ip m) b = ⟨none, s, false⟩ ∧ getsockopt s (.ip m) n = ⟨none, s, [], n⟩ := by
  simp only [setsockopt, getsockopt, hp, if_neg hm]
  exact ⟨trivial, trivial⟩

/-! ## Locks -/

/-- **C225**: calls to set or get an option leave no lock held, if they are not for the level UDP of a UDP socket. -/
theorem held_partial (e : Env) (s : Sock) (l : Level) (h : s.proto = .udp → ∀ m, l ≠ .udp m) (b : List UInt8) (n : Nat) :
    (setsockopt e s l b).sock.held = s.held ∧ (getsockopt s l n).sock.held = s.held := by
  cases l with
  | sock o =>
    constructor
    · simp only [setsockopt]
      cases o with
      | flag f =>
        by_cases hf : f = .acceptconn
        · subst hf; rfl
        · rw [setSock_flag e s hf]; split <;> rfl
      | _ =>
        simp only [setSock]
        repeat' split
        all_goals rfl
    · simp only [getsockopt]
      repeat' split
      all_goals rfl
  | udp m =>
    cases hp : s.proto with
    | udp => exact absurd rfl (h hp m)
    | _ => simp only [setsockopt, getsockopt, hp]; exact ⟨trivial, trivial⟩
  | tcp m =>
    cases hp : s.proto with
    | tcp =>
      obtain ⟨x, hx⟩ := setTcp_same s m b
      simp only [setsockopt, getsockopt, hp, hx]; exact ⟨trivial, trivial⟩
    | _ => simp only [setsockopt, getsockopt, hp]; exact ⟨trivial, trivial⟩
  | ip m =>
    cases hp : s.proto <;> simp only [setsockopt, getsockopt, hp] <;> exact ⟨trivial, trivial⟩
  | other a m =>
    cases hp : s.proto <;> simp only [setsockopt, getsockopt, hp] <;> exact ⟨trivial, trivial⟩

/-- **C225, violated**: every call for the level UDP of a UDP socket succeeds, and leaves the lock of its control block held once
more. -/
theorem held_violated (e : Env) (s : Sock) (hp : s.proto = .udp) (m : Nat) (b : List UInt8) (n : Nat) :
    (setsockopt e s (.udp m) b).err = none ∧ (setsockopt e s (.udp m) b).sock.held = s.held + 1 ∧
    (getsockopt s (.udp m) n).err = none ∧ (getsockopt s (.udp m) n).sock.held = s.held + 1 := by
  simp only [setsockopt, getsockopt, hp]
  exact ⟨trivial, trivial, trivial, trivial⟩

/-! ## The error -/

/-- A history. -/
def run (e : Env) (s : Sock) (evs : List Ev) : Sock := evs.foldl (step e) s

theorem setSock_err (e : Env) (s : Sock) (o : Opt) (b : List UInt8) : (setSock e s o b).2.err = s.err := by
  cases o with
  | flag f =>
    by_cases hf : f = .acceptconn
    · subst hf; rfl
    · rw [setSock_flag e s hf]; split <;> rfl
  | _ =>
    simp only [setSock]
    repeat' split
    all_goals rfl

theorem step_err (e : Env) (s : Sock) (ev : Ev) :
    (step e s ev).err = match ev with
      | .error n => n
      | .get (.sock .error) _ => 0
      | _ => s.err := by
  cases ev with
  | set l b =>
    by_cases hl : ∃ o, l = .sock o
    · obtain ⟨o, rfl⟩ := hl; exact setSock_err e s o b
    · obtain ⟨x, k, hx⟩ := setsockopt_bufs e s l (fun o ho => hl ⟨o, ho⟩) b
      simp only [step, hx]
  | get l n =>
    cases l with
    | sock o =>
      by_cases ho : o = .error
      · subst ho; rfl
      · have : (getsockopt s (.sock o) n).sock = s := by
          simp only [getsockopt]; split
          · rfl
          · rw [if_neg ho]
        simp only [step, this]
        cases o <;> first | rfl | exact absurd rfl ho
    | ip m => simp only [step, getsockopt]; split <;> rfl
    | tcp m => simp only [step, getsockopt]; split <;> rfl
    | udp m => simp only [step, getsockopt]; split <;> rfl
    | other a m => simp only [step, getsockopt]; split <;> rfl
  | _ => rfl

/-- An event at which no error comes in. -/
def NoError (ev : Ev) : Prop := ∀ n, ev ≠ .error n
/-- An event that does not read the error. -/
def NoRead (ev : Ev) : Prop := ∀ n, ev ≠ .get (.sock .error) n

/-- **C226**: after an error has come in, and any history without another or a reading of it, it is read; after a reading, and
any history without another error, 0 is read. -/
theorem error_exact (e : Env) (s : Sock) (pre post : List Ev) (hpost : ∀ ev ∈ post, NoError ev) :
    (∀ k, k < 2147483648 → (∀ ev ∈ post, NoRead ev) → ReadsInt (run e s (pre ++ .error k :: post)) .error k) ∧
    (∀ n, ReadsInt (run e s (pre ++ .get (.sock .error) n :: post)) .error 0) := by
  have hkeep : ∀ (evs : List Ev) (s : Sock), (∀ ev ∈ evs, NoError ev) → ((∀ ev ∈ evs, NoRead ev) ∨ s.err = 0) →
      (run e s evs).err = s.err := by
    intro evs
    induction evs with
    | nil => intro s _ _; rfl
    | cons ev evs ih =>
      intro s h1 h2
      have h1' := h1 ev (by simp)
      have hst : (step e s ev).err = s.err := by
        rw [step_err]
        split
        · rename_i n; exact absurd rfl (h1' n)
        · rename_i n
          rcases h2 with h2 | h2
          · exact absurd rfl (h2 _ (by simp) n)
          · exact h2.symm
        · rfl
      show (run e (step e s ev) evs).err = _
      rw [ih _ (fun x hx => h1 x (by simp [hx])) (by
        rcases h2 with h2 | h2
        · exact .inl fun x hx => h2 x (by simp [hx])
        · exact .inr (hst.trans h2)), hst]
  constructor
  · intro k hk hr
    have : (run e s (pre ++ .error k :: post)).err = k := by
      unfold run
      rw [List.foldl_append]
      exact hkeep post _ hpost (.inl hr)
    exact readsInt (by simp only [valueOf, this]) (by omega) (by omega)
  · intro n
    have : (run e s (pre ++ .get (.sock .error) n :: post)).err = 0 := by
      unfold run
      rw [List.foldl_append]
      have h0 : (step e (List.foldl (step e) s pre) (.get (.sock .error) n)).err = 0 := step_err ..
      exact (hkeep post _ hpost (.inr h0)).trans h0
    exact readsInt (by simp only [valueOf, this]; rfl) (by omega) (by omega)

/-! ## Accepted sockets -/

/-- What an accepted socket does not take over. -/
def Own (o : Opt) : Prop := o = .flag .acceptconn ∨ o = .error ∨ o = .qlimit ∨ o = .qlen ∨ o = .incqlen

/-- **C227**: every option of an accepted socket reads as that of the socket it was accepted on, but for whether it listens, the
error and the queues. -/
theorem inherit_partial {e : Env} (hb : 1 ≤ e.bufsize) {h s : Sock} (hr : Reach e h) (hn : newconn e h = some s) (l : Level)
    (hl : ∀ o, l = .sock o → ¬ Own o) : ReadsSame h s l ∧ s.fib = h.fib := by
  obtain ⟨⟨a1, a2, a3⟩, b1, b2, b3⟩ := reach_ok hb hr
  unfold newconn at hn
  split at hn
  · simp at hn
  · rename_i s0 h0
    obtain ⟨_, _, h3, h4⟩ := soreserve_ok (by rfl) (by rfl) (by omega) (by omega) hb h0
    have hrest : s0.proto = h.proto ∧ s0.type = h.type ∧ s0.protocol = h.protocol ∧ s0.lingerOn = h.lingerOn ∧
        s0.linger = h.linger ∧ s0.fib = h.fib ∧ s0.flags = fun f => if f = .acceptconn then false else h.flags f := by
      unfold soreserve at h0
      split at h0
      · have h0 := Option.some.inj h0
        subst h0
        exact ⟨rfl, rfl, rfl, rfl, rfl, rfl, rfl⟩
      · simp at h0
    obtain ⟨c1, c2, c3, c4, c5, c6, c7⟩ := hrest
    have hn := Option.some.inj hn
    subst hn
    refine ⟨readsSame_but (P := Own) ?_ (by simp only [c1]) l hl, c6⟩
    intro o ho
    cases o with
    | flag f => cases f <;> first | exact absurd (.inl rfl) ho | (simp [valueOf, c7])
    | error => exact absurd (.inr (.inl rfl)) ho
    | qlimit => exact absurd (.inr (.inr (.inl rfl))) ho
    | qlen => exact absurd (.inr (.inr (.inr (.inl rfl)))) ho
    | incqlen => exact absurd (.inr (.inr (.inr (.inr rfl)))) ho
    | linger => simp only [valueOf, c4, c5]
    | type => simp only [valueOf, c2]
    | protocol => simp only [valueOf, c3]
    | sndbuf => simp only [valueOf, h3]
    | rcvbuf => simp only [valueOf, h4]
    | _ => rfl

/-- **C227, violated**: a size set on the listening socket is taken over, but that it was set is not: on the accepted socket it
is adjusted again. -/
theorem autosize_violated {e : Env} {h s : Sock} (hn : newconn e h = some s) : s.snd.auto = true ∧ s.rcv.auto = true := by
  unfold newconn at hn
  split at hn
  · simp at hn
  · have hn := Option.some.inj hn
    subst hn
    exact ⟨rfl, rfl⟩

/-- Setting the size on a socket itself ends the adjusting. -/
theorem size_fixed {e : Env} {s : Sock} (snd : Bool) (b : List UInt8)
    (hok : (setsockopt e s (.sock (if snd then .sndbuf else .rcvbuf)) b).err = none) :
    let r := (setsockopt e s (.sock (if snd then .sndbuf else .rcvbuf)) b).sock
    (if snd then r.snd.auto else r.rcv.auto) = false := by
  cases snd with
  | true =>
    simp only [if_true, setsockopt, setSock] at hok ⊢
    cases hc : copyin 4 b with
    | none => rw [hc] at hok; simp at hok
    | some v =>
      rw [hc] at hok
      simp only at hok ⊢
      by_cases h1 : toInt v < 1
      · rw [if_pos h1] at hok; simp at hok
      · rw [if_neg h1] at hok ⊢
        cases hr : reserve e s.snd (toInt v).toNat with
        | none => rw [hr] at hok; simp at hok
        | some x => rfl
  | false =>
    simp only [Bool.false_eq_true, if_false, setsockopt, setSock] at hok ⊢
    cases hc : copyin 4 b with
    | none => rw [hc] at hok; simp at hok
    | some v =>
      rw [hc] at hok
      simp only at hok ⊢
      by_cases h1 : toInt v < 1
      · rw [if_pos h1] at hok; simp at hok
      · rw [if_neg h1] at hok ⊢
        cases hr : reserve e s.rcv (toInt v).toNat with
        | none => rw [hr] at hok; simp at hok
        | some x => rfl

/-! ## Cases -/

/-- Packet buffers of 1856 bytes. -/
def env0 : Env := ⟨1856, fun _ _ => none⟩

/-- A TCP socket as made: 36 kB and 80 kB or so. -/
def tcp0 : Sock := (soreserve env0 (blank .tcp 1 6) 36864 81920).getD (blank .tcp 1 6)

theorem tcp0_reach : Reach env0 tcp0 := .fresh (p := .tcp) (t := 1) (q := 6) (snd := 36864) (rcv := 81920) (by decide) (by decide) rfl

/-- The history of the hypotheses is met, and a size that is set is read, with the mark lowered. -/
example : (getsockopt (setsockopt env0 tcp0 (.sock .sndbuf) (ofInt 1000)).sock (.sock .sndlowat) 4).out = ofInt 1000 ∧
    (getsockopt tcp0 (.sock .sndlowat) 4).out = ofInt 1856 := by decide +kernel

/-- 60000 seconds to linger read as −5536. -/
example : snd4 (getsockopt (setsockopt env0 tcp0 (.sock .linger) (ofInt 1 ++ ofInt 60000)).sock (.sock .linger) 8).out = -5536 := by
  decide +kernel

/-- A time of 1.5 seconds reads as 1 second. -/
example : (getsockopt (setsockopt env0 tcp0 (.sock .rcvtimeo) (ofInt 1 ++ ofInt 500000)).sock (.sock .rcvtimeo) 8).out =
    ofInt 1 ++ ofInt 0 ∧ waitOf (setsockopt env0 tcp0 (.sock .rcvtimeo) (ofInt 1 ++ ofInt 500000)).sock false = 1500000 := by
  decide +kernel

/-- A time of 2684354.56 seconds is for ever. -/
example : waitOf (setsockopt env0 tcp0 (.sock .rcvtimeo) (ofInt 2684354 ++ ofInt 560000)).sock false = 0 := by decide +kernel

/-- A socket is accepted. -/
example : (newconn env0 (step env0 tcp0 (.set (.sock .rcvbuf) (ofInt 5000)))).isSome = true := by decide +kernel

end Verif.Sockopt

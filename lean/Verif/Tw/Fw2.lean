import Verif.Rto.Keep

/-!
# The limit on FIN_WAIT_2

A connection whose own side is closed and acknowledged waits for the FIN of the peer.  If the
application has given up the connection, a timer ends the wait: `tcp_usrclosed`
(src/ofp_tcp_usrreq.c:1827-1838), the acknowledgement processing (src/ofp_tcp_input.c:2630-2637),
`ofp_tcp_timer_2msl` (src/ofp_tcp_timer.c:188-256).
-/

namespace Verif.Tw

open Verif.Rto (i32 u32 ticksOf)

/-- `maxidle` and `intvl` are `TP_MAXIDLE`, `TP_KEEPINTVL` of the connection; `fast`:
`ofp_tcp_fast_finwait2_recycle`; `grain`: how old `t_rcvtime` may be (src/ofp_tcp_input.c:1392,
`Rto.grain`).  `heard` only observes: when the last segment was received. -/
structure Fw where
  now : Int
  maxidle : Int
  intvl : Int
  fast : Bool
  grain : Int
  rcvtime : Int
  timer : Option Int
  closed : Bool
  heard : Int
  deriving Repr, DecidableEq

/-- Entering FIN_WAIT_2 at time `now` with the receive side closed; the timer is not limited to
one minute as the keep-alive timer is (src/ofp_tcp_timer.c:594-634).  `finwait2` is
`ofp_tcp_finwait2_timeout`. -/
def enter (now maxidle intvl finwait2 grain : Int) (fast : Bool) : Fw :=
  { now := now, maxidle := maxidle, intvl := intvl, fast := fast, grain := grain, rcvtime := u32 (ticksOf now),
    timer := some (now + if fast then finwait2 else maxidle), closed := false, heard := now }

inductive FEv where
  | pass (d : Nat)
  /-- A segment that does not end the connection is received (src/ofp_tcp_input.c:1392-1393). -/
  | recv
  /-- The timer is served; nothing happens if it has not run out. -/
  | serve

def fstep (s : Fw) : FEv → Fw
  | .pass d => { s with now := s.now + d }
  | .recv => if s.closed then s else
    let s := { s with heard := s.now }
    if ticksOf s.now > i32 (u32 (s.rcvtime + s.grain)) then { s with rcvtime := u32 (ticksOf s.now) } else s
  | .serve => match s.timer with
    | none => s
    | some t => if t ≤ s.now then
        if s.closed then s
        else if s.fast then { s with closed := true, timer := none }
        else if i32 (u32 (ticksOf s.now - s.rcvtime)) ≤ s.maxidle then { s with timer := some (s.now + s.intvl) }
        else { s with closed := true, timer := none }
      else s

def frun (s : Fw) (es : List FEv) : Fw := es.foldl fstep s

/-- The tick counter stays positive for the first 248 days; `Rto.uptime_violated` shows what
happens then. -/
structure FInv (t0 M I F G : Int) (fast : Bool) (s : Fw) : Prop where
  pos : 0 ≤ s.rcvtime
  par : s.maxidle = M ∧ s.intvl = I ∧ s.fast = fast ∧ s.grain = G
  rcv : s.rcvtime ≤ s.heard
  fresh : s.heard ≤ s.rcvtime + G
  heard : s.heard ≤ s.now
  timer : s.closed = true ∨ ∃ t, s.timer = some t ∧ t ≤ max (t0 + if fast then F else M) (s.heard + M + I)

theorem fstep_inv {t0 M I F G : Int} {fast : Bool} {s : Fw} (e : FEv) (hi : FInv t0 M I F G fast s)
    (hG : 0 ≤ G) (hnow : (fstep s e).now + G < 2147483648) : FInv t0 M I F G fast (fstep s e) := by
  obtain ⟨p, ⟨q1, q2, q3, q4⟩, r, f, h, t⟩ := hi
  cases e with
  | pass d =>
    refine ⟨p, ⟨q1, q2, q3, q4⟩, r, f, ?_, t⟩
    show s.heard ≤ s.now + (d : Int); omega
  | recv =>
    have hn : s.now + G < 2147483648 := by
      unfold fstep at hnow
      by_cases hc : s.closed = true
      · simpa [hc] using hnow
      · simp only [hc] at hnow
        split at hnow
        · exact hnow
        · split at hnow <;> exact hnow
    have e1 : ticksOf s.now = s.now := by unfold ticksOf i32; omega
    have e2 : u32 s.now = s.now := by unfold u32; omega
    have e3 : i32 (u32 (s.rcvtime + s.grain)) = s.rcvtime + G := by rw [q4]; unfold i32 u32; omega
    by_cases hc : s.closed = true
    · have e : fstep s .recv = s := by show (if s.closed then s else _) = s; rw [if_pos hc]
      rw [e]; exact ⟨p, ⟨q1, q2, q3, q4⟩, r, f, h, t⟩
    · have t' : s.closed = true ∨ ∃ x, s.timer = some x ∧ x ≤ max (t0 + if fast then F else M) (s.now + M + I) := by
        rcases t with t | ⟨x, hx, hl⟩
        · exact .inl t
        · refine .inr ⟨x, hx, ?_⟩
          generalize (t0 + if fast then F else M) = z at *
          omega
      by_cases hg : s.now > s.rcvtime + G
      · have e : fstep s .recv = { s with heard := s.now, rcvtime := s.now } := by
          show (if s.closed then s else _) = _
          rw [if_neg hc]
          dsimp only
          rw [e1, e3, if_pos hg, e2]
        rw [e]
        exact ⟨by show 0 ≤ s.now; omega, ⟨q1, q2, q3, q4⟩, Int.le_refl _, by show s.now ≤ s.now + G; omega, Int.le_refl _, t'⟩
      · have e : fstep s .recv = { s with heard := s.now } := by
          show (if s.closed then s else _) = _
          rw [if_neg hc]
          dsimp only
          rw [e1, e3, if_neg hg]
        rw [e]
        exact ⟨p, ⟨q1, q2, q3, q4⟩, by show s.rcvtime ≤ s.now; omega, by show s.now ≤ s.rcvtime + G; omega, Int.le_refl _, t'⟩
  | serve =>
    have same : FInv t0 M I F G fast s := ⟨p, ⟨q1, q2, q3, q4⟩, r, f, h, t⟩
    match ht : s.timer with
    | none =>
      have e : fstep s .serve = s := by unfold fstep; dsimp only; rw [ht]
      rw [e]; exact same
    | some x =>
      by_cases hx : x ≤ s.now
      · by_cases hc : s.closed = true
        · have e : fstep s .serve = s := by unfold fstep; dsimp only; rw [ht]; dsimp only; rw [if_pos hx, if_pos hc]
          rw [e]; exact same
        · by_cases hf : s.fast = true
          · have e : fstep s .serve = { s with closed := true, timer := none } := by
              unfold fstep; dsimp only; rw [ht]; dsimp only; rw [if_pos hx, if_neg hc, if_pos hf]
            rw [e]
            exact ⟨p, ⟨q1, q2, q3, q4⟩, r, f, h, .inl rfl⟩
          · have hn : s.now + G < 2147483648 := by
              have : (fstep s .serve).now = s.now := by
                unfold fstep; dsimp only; rw [ht]; dsimp only; rw [if_pos hx, if_neg hc, if_neg hf]; split <;> rfl
              rw [this] at hnow; exact hnow
            have e0 : i32 (u32 (ticksOf s.now - s.rcvtime)) = s.now - s.rcvtime := by unfold ticksOf i32 u32; omega
            by_cases hl : s.now - s.rcvtime ≤ s.maxidle
            · have e : fstep s .serve = { s with timer := some (s.now + s.intvl) } := by
                unfold fstep; dsimp only; rw [ht]; dsimp only; rw [if_pos hx, if_neg hc, if_neg hf, e0, if_pos hl]
              rw [e]
              refine ⟨p, ⟨q1, q2, q3, q4⟩, r, f, h, .inr ⟨_, rfl, ?_⟩⟩
              dsimp only
              generalize (t0 + if fast then F else M) = z at *
              omega
            · have e : fstep s .serve = { s with closed := true, timer := none } := by
                unfold fstep; dsimp only; rw [ht]; dsimp only; rw [if_pos hx, if_neg hc, if_neg hf, e0, if_neg hl]
              rw [e]
              exact ⟨p, ⟨q1, q2, q3, q4⟩, r, f, h, .inl rfl⟩
      · have e : fstep s .serve = s := by unfold fstep; dsimp only; rw [ht]; dsimp only; rw [if_neg hx]
        rw [e]; exact same

theorem fstep_now (s : Fw) (e : FEv) : s.now ≤ (fstep s e).now := by
  cases e with
  | pass d => show s.now ≤ s.now + (d : Int); omega
  | recv =>
    show s.now ≤ (if s.closed then s else _).now
    by_cases hc : s.closed = true
    · rw [if_pos hc]; exact Int.le_refl _
    · rw [if_neg hc]; dsimp only; split <;> exact Int.le_refl _
  | serve =>
    unfold fstep
    dsimp only
    cases s.timer with
    | none => exact Int.le_refl _
    | some t =>
      dsimp only
      by_cases h1 : t ≤ s.now
      · rw [if_pos h1]
        by_cases h2 : s.closed = true
        · rw [if_pos h2]; exact Int.le_refl _
        · rw [if_neg h2]
          by_cases h3 : s.fast = true
          · rw [if_pos h3]; exact Int.le_refl _
          · rw [if_neg h3]; split <;> exact Int.le_refl _
      · rw [if_neg h1]; exact Int.le_refl _

theorem frun_now : ∀ es : List FEv, ∀ s : Fw, s.now ≤ (frun s es).now := by
  intro es
  induction es with
  | nil => intro s; exact Int.le_refl _
  | cons e es ih => intro s; exact Int.le_trans (fstep_now s e) (ih (fstep s e))

theorem frun_inv {t0 M I F G : Int} {fast : Bool} (hG : 0 ≤ G) : ∀ es : List FEv, ∀ s : Fw, FInv t0 M I F G fast s →
    (frun s es).now + G < 2147483648 → FInv t0 M I F G fast (frun s es) := by
  intro es
  induction es with
  | nil => intro s h _; exact h
  | cons e es ih =>
    intro s h hn
    have := frun_now es (fstep s e)
    refine ih (fstep s e) (fstep_inv e h hG ?_) hn
    have h2 : (frun (fstep s e) es).now + G < 2147483648 := hn
    omega

theorem enter_inv (t0 M I F G : Int) (fast : Bool) (h0 : 0 ≤ t0) (hG : 0 ≤ G) (hn : t0 + G < 2147483648) :
    FInv t0 M I F G fast (enter t0 M I F G fast) := by
  have e : u32 (ticksOf t0) = t0 := by unfold u32 ticksOf i32; omega
  refine ⟨?_, ⟨rfl, rfl, rfl, rfl⟩, ?_, ?_, Int.le_refl _, .inr ⟨_, rfl, Int.le_max_left _ _⟩⟩
  · show 0 ≤ u32 (ticksOf t0); rw [e]; exact h0
  · show u32 (ticksOf t0) ≤ t0; rw [e]; exact Int.le_refl _
  · show t0 ≤ u32 (ticksOf t0) + G; rw [e]; omega

/-- **C146** (part: the first 248 days).  A connection whose application is gone does not wait for
ever for the peer's FIN: in every history, once the time limit has passed since it was closed and
the peer has been silent for the idle time plus one interval, the next time the timer is served
the connection is released. -/
theorem fin_wait2_ends_partial (t0 M I F G : Int) (fast : Bool) (es : List FEv) (h0 : 0 ≤ t0) (hG : 0 ≤ G) (hI : 0 ≤ I)
    (hn : (frun (enter t0 M I F G fast) es).now + G < 2147483648)
    (h1 : (t0 + if fast then F else M) ≤ (frun (enter t0 M I F G fast) es).now)
    (h2 : (frun (enter t0 M I F G fast) es).heard + M + I < (frun (enter t0 M I F G fast) es).now) :
    (frun (enter t0 M I F G fast) (es ++ [.serve])).closed = true := by
  have hb := frun_now es (enter t0 M I F G fast)
  have hi := frun_inv hG es _ (enter_inv t0 M I F G fast h0 hG (by have : (enter t0 M I F G fast).now = t0 := rfl; omega)) hn
  have ea : frun (enter t0 M I F G fast) (es ++ [.serve]) = fstep (frun (enter t0 M I F G fast) es) .serve := by
    unfold frun; rw [List.foldl_append]; rfl
  rw [ea]
  generalize frun (enter t0 M I F G fast) es = s at *
  obtain ⟨p, ⟨q1, q2, q3, q4⟩, r, f, h, t⟩ := hi
  rcases t with t | ⟨x, hx, hl⟩
  · unfold fstep
    dsimp only
    cases s.timer with
    | none => exact t
    | some y =>
      dsimp only
      by_cases hy : y ≤ s.now
      · rw [if_pos hy, if_pos t]; exact t
      · rw [if_neg hy]; exact t
  · have hxn : x ≤ s.now := by
      generalize (t0 + if fast then F else M) = z at *
      omega
    have e0 : i32 (u32 (ticksOf s.now - s.rcvtime)) = s.now - s.rcvtime := by unfold ticksOf i32 u32; omega
    unfold fstep
    dsimp only
    rw [hx]
    dsimp only
    rw [if_pos hxn]
    by_cases hc : s.closed = true
    · rw [if_pos hc]; exact hc
    · rw [if_neg hc]
      by_cases hf : s.fast = true
      · rw [if_pos hf]
      · rw [if_neg hf, e0, if_neg (by omega)]

/-- **C146** (part).  Without fast recycling, it is released only if the peer has been silent for the
idle time (within the precision at which the last segment is remembered). -/
theorem fin_wait2_not_early_partial (t0 M I F G : Int) (es : List FEv) (h0 : 0 ≤ t0) (hG : 0 ≤ G)
    (hn : (frun (enter t0 M I F G false) es).now + G < 2147483648)
    (ho : (frun (enter t0 M I F G false) es).closed = false)
    (hc : (fstep (frun (enter t0 M I F G false) es) .serve).closed = true) :
    (frun (enter t0 M I F G false) es).heard + M - G < (frun (enter t0 M I F G false) es).now := by
  have hb := frun_now es (enter t0 M I F G false)
  have hi := frun_inv hG es _ (enter_inv t0 M I F G false h0 hG (by have : (enter t0 M I F G false).now = t0 := rfl; omega)) hn
  generalize frun (enter t0 M I F G false) es = s at *
  obtain ⟨p, ⟨q1, q2, q3, q4⟩, r, f, h, t⟩ := hi
  have e0 : i32 (u32 (ticksOf s.now - s.rcvtime)) = s.now - s.rcvtime := by unfold ticksOf i32 u32; omega
  unfold fstep at hc
  dsimp only at hc
  cases ht : s.timer with
  | none => rw [ht] at hc; dsimp only at hc; rw [ho] at hc; cases hc
  | some x =>
    rw [ht] at hc
    dsimp only at hc
    by_cases hx : x ≤ s.now
    · rw [if_pos hx, if_neg (by rw [ho]; decide), if_neg (by rw [q3]; decide), e0] at hc
      by_cases hl : s.now - s.rcvtime ≤ s.maxidle
      · rw [if_pos hl] at hc; dsimp only at hc; rw [ho] at hc; cases hc
      · omega
    · rw [if_neg hx, ho] at hc; cases hc

/-- Defaults: 8 probes of 75 seconds; the connection is kept while the peer sends and ends 600
seconds after its last segment. -/
example : (frun (enter 1000 60000 7500 6000 100 false) [.pass 30000, .recv, .pass 30000, .serve]).closed = false ∧
    (frun (enter 1000 60000 7500 6000 100 false) [.pass 30000, .recv, .pass 30000, .serve, .pass 30001, .serve]).closed = true := by
  decide +kernel

/-- **C146**, with fast recycling (`net.inet.tcp.fast_finwait2_recycle`, off by default): the connection is
dropped after the time limit although the peer sent something an instant ago. -/
theorem fast_recycle_effect : (frun (enter 1000 60000 7500 6000 100 true) [.pass 6000, .recv, .serve]).closed = true ∧
    (frun (enter 1000 60000 7500 6000 100 true) [.pass 6000, .recv, .serve]).heard = 7000 ∧
    (frun (enter 1000 60000 7500 6000 100 true) [.pass 6000, .recv, .serve]).now = 7000 := by decide +kernel

end Verif.Tw

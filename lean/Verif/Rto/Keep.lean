import Verif.Rto.Spec

/-!
# Keep-alive and persist timers

Model of `ofp_tcp_timer_keep`, `ofp_tcp_timer_persist`, `ofp_tcp_timer_activate`
(src/ofp_tcp_timer.c), of the bookkeeping of received segments at the head of
`ofp_tcp_do_segment` (src/ofp_tcp_input.c:1387-1396) and of the socket options that set the
times (src/ofp_tcp_usrreq.c:1486-1566).
-/

namespace Verif.Rto

/-- `ofp_tcp_keepinit`, `ofp_tcp_keepidle`, `ofp_tcp_keepintvl`, `ofp_tcp_keepcnt`,
`always_keepalive` (src/ofp_tcp_timer.c:58-91, 105), times in ticks. -/
structure KCfg where
  keepinit : Int
  keepidle : Int
  keepintvl : Int
  keepcnt : Int
  always : Bool

/-- Values after `ofp_tcp_init` (src/ofp_tcp_subr.c:309-312, src/ofp_tcp_timer.c:89, 105;
include/ofpi_tcp_timer.h:90-93). -/
def kdefaults : KCfg :=
  { keepinit := 75 * hz, keepidle := 120 * 60 * hz, keepintvl := 75 * hz, keepcnt := 8, always := true }

/-- The keep-alive part of a connection.  `oInit` ... `oCnt` are `t_keepinit` ... `t_keepcnt`
(zero: not set by the application), `est` says that the state is ESTABLISHED to CLOSING
(otherwise it is before ESTABLISHED), `timer` is the moment the keep-alive timer runs out.
`now` is the time since start in ticks.  `heard` (moment of the last segment received) and
`probes` (moments of the probes sent since then, last first) only observe. -/
structure Kcb where
  now : Int
  oInit : Int
  oIdle : Int
  oIntvl : Int
  oCnt : Int
  soKeep : Bool
  est : Bool
  rcvtime : Int
  timer : Option Int
  dropped : Bool
  heard : Int
  probes : List Int
  deriving Repr, DecidableEq

/-- `ofp_timer_ticks` (src/ofp_timer.c:546-560): the tick counter as an `int`. -/
def ticksOf (now : Int) : Int := i32 now

/-- `TP_KEEPINIT` ... `TP_MAXIDLE` (include/ofpi_tcp_timer.h:169-173). -/
def tpInit (g : KCfg) (k : Kcb) : Int := if k.oInit ≠ 0 then i32 k.oInit else g.keepinit
def tpIdle (g : KCfg) (k : Kcb) : Int := if k.oIdle ≠ 0 then i32 k.oIdle else g.keepidle
def tpIntvl (g : KCfg) (k : Kcb) : Int := if k.oIntvl ≠ 0 then i32 k.oIntvl else g.keepintvl
def tpCnt (g : KCfg) (k : Kcb) : Int := if k.oCnt ≠ 0 then i32 k.oCnt else g.keepcnt
def tpMaxidle (g : KCfg) (k : Kcb) : Int := i32 (tpCnt g k * tpIntvl g k)

/-- `ofp_tcp_timer_activate(tp, TT_KEEP, delta)` (src/ofp_tcp_timer.c:594-634): the new moment. -/
def activateKeep (now delta : Int) : Option Int :=
  let d := u32 delta
  let d := if d > 6000 then 6000 else d
  if d = 0 then none else some (now + d)

/-- The values accepted by `setsockopt` for `TCP_KEEPIDLE`, `TCP_KEEPINTVL`, `TCP_KEEPINIT`
(src/ofp_tcp_usrreq.c:1490-1499), in seconds, as stored in ticks; `none` is `EINVAL`. -/
def setKeep (secs : Int) : Option Int :=
  if secs > 4294967295 / 100 then none else some (u32 (secs * 100))

/-- How often the time of the last segment is brought up to date:
`min(HZ, TP_KEEPIDLE(tp)/10)` on unsigned integers (src/ofp_tcp_input.c:1392). -/
def grain (g : KCfg) (k : Kcb) : Int :=
  if u32 ((tpIdle g k).tdiv 10) < 100 then u32 ((tpIdle g k).tdiv 10) else 100

/-- A segment is received (src/ofp_tcp_input.c:1387-1396). -/
def recvSeg (g : KCfg) (k : Kcb) : Kcb :=
  let k := { k with heard := k.now, probes := [] }
  if ticksOf k.now > i32 (u32 (k.rcvtime + grain g k)) then
    { k with rcvtime := u32 (ticksOf k.now),
             timer := if k.est then activateKeep k.now (tpIdle g k) else k.timer }
  else k

/-- The keep-alive timer runs out: `ofp_tcp_timer_keep` (src/ofp_tcp_timer.c:258-352).  The
timer is set again without the limit of `ofp_tcp_timer_activate`. -/
def keepFire (g : KCfg) (k : Kcb) : Kcb :=
  let k := { k with timer := none }
  if k.est = false then { k with dropped := true }
  else if g.always || k.soKeep then
    if i32 (u32 (ticksOf k.now - k.rcvtime)) ≥ i32 (tpIdle g k + tpMaxidle g k) then { k with dropped := true }
    else { k with probes := k.now :: k.probes, timer := some (k.now + tpIntvl g k) }
  else { k with timer := some (k.now + tpIdle g k) }

/-- Events on the connection. -/
inductive KEv where
  /-- Time passes. -/
  | pass (d : Nat)
  /-- A segment is received. -/
  | recv
  /-- The keep-alive timer is served; nothing happens if it has not run out. -/
  | serve
  deriving Repr, DecidableEq

def kstep (g : KCfg) (k : Kcb) : KEv → Kcb
  | .pass d => { k with now := k.now + d }
  | .recv => if k.dropped then k else recvSeg g k
  | .serve => match k.timer with
    | none => k
    | some t => if t ≤ k.now then (if k.dropped then k else keepFire g k) else k

def krun (g : KCfg) (k : Kcb) (es : List KEv) : Kcb := es.foldl (kstep g) k

/-- A connection that becomes established at time `now` (src/ofp_tcp_input.c:1387-1396, 1859,
2272), with the options chosen by the application. -/
def kestablished (g : KCfg) (now oIdle oIntvl oCnt : Int) (soKeep : Bool) : Kcb :=
  let k : Kcb :=
  { now := now, oInit := 0, oIdle := oIdle, oIntvl := oIntvl, oCnt := oCnt, soKeep := soKeep, est := true,
    rcvtime := u32 (ticksOf now), timer := none, dropped := false, heard := now, probes := [] }
  { k with timer := activateKeep now (tpIdle g k) }

/-- A connection being opened: `tcp_connect` (src/ofp_tcp_usrreq.c:1158). -/
def kopening (g : KCfg) (now oInit : Int) : Kcb :=
  let k : Kcb :=
  { now := now, oInit := oInit, oIdle := 0, oIntvl := 0, oCnt := 0, soKeep := false, est := false,
    rcvtime := u32 (ticksOf now), timer := none, dropped := false, heard := now, probes := [] }
  { k with timer := activateKeep now (tpInit g k) }

/-! ## The persist timer -/

/-- `tcp_totbackoff` (src/ofp_tcp_timer.c:143). -/
def totBackoff : Int := 2559

/-- `ofp_tcp_timer_persist` (src/ofp_tcp_timer.c:354-417): does the connection go on?
`maxidle` is `ofp_tcp_maxpersistidle`. -/
def persistGivesUp (maxidle now rcvtime : Int) (s : Rtt) : Bool :=
  s.rxtshift = maxShift &&
    (decide (i32 (u32 (ticksOf now - rcvtime)) ≥ maxidle) ||
     decide (u32 (ticksOf now - rcvtime) ≥ u32 (rexmtVal s * totBackoff)))

end Verif.Rto

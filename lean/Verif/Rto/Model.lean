/-!
# TCP round-trip estimation and retransmission timeouts

Model of `tcp_xmit_timer` (src/ofp_tcp_input.c), `ofp_tcp_timer_rexmt` (src/ofp_tcp_timer.c),
`ofp_tcp_setpersist` (src/ofp_tcp_output.c) and of the macros they use.  Machine integers are
written as `Int` with the conversions of C made explicit; signed overflow, undefined in C, is
modelled as wrap-around (the result of every compiler the project supports), and
`Rto/Thm.lean` shows for which measurements it cannot happen at all.
-/

namespace Verif.Rto

/-- Conversion to `int` (32 bits, two's complement). -/
def i32 (x : Int) : Int := (x + 2147483648) % 4294967296 - 2147483648

/-- Conversion to `uint32_t` / `unsigned int`. -/
def u32 (x : Int) : Int := x % 4294967296

/-- Conversion to `uint64_t`, as in the comparisons of `TCPT_RANGESET`
(include/ofpi_tcp_timer.h:144-150). -/
def u64 (x : Int) : Int := x % 18446744073709551616

/-- `max` on `unsigned int` (include/ofpi_systm.h:79). -/
def umax (a b : Int) : Int := if u32 a > u32 b then u32 a else u32 b

/-- `hz`: ticks per second (include/ofpi_timer.h:22-27). -/
def hz : Int := 100

/-- `TCPTV_REXMTMAX` (include/ofpi_tcp_timer.h:122). -/
def rexmtMax : Int := 64 * hz

/-- `TCPTV_PERSMIN`, `TCPTV_PERSMAX` (include/ofpi_tcp_timer.h:87-88). -/
def persMin : Int := 5 * hz
def persMax : Int := 60 * hz

/-- `TCP_MAXRXTSHIFT` (include/ofpi_tcp_timer.h:128). -/
def maxShift : Nat := 12

/-- `ofp_tcp_backoff[]` (src/ofp_tcp_timer.c:140-141). -/
def backoff : Nat → Int
  | 0 => 1 | 1 => 2 | 2 => 4 | 3 => 8 | 4 => 16 | 5 => 32 | 6 => 64 | 7 => 128 | 8 => 256
  | _ => 512

/-- `ofp_tcp_syn_backoff[]` (src/ofp_tcp_timer.c:137-138). -/
def synBackoff : Nat → Int
  | 0 => 1 | 1 => 1 | 2 => 1 | 3 => 1 | 4 => 1 | 5 => 2 | 6 => 4 | 7 => 8 | 8 => 16 | 9 => 32
  | _ => 64

/-- The two sysctl variables read here: `ofp_tcp_rexmit_slop`, `ofp_tcp_rexmit_min`
(src/ofp_tcp_timer.c:79-87). -/
structure Cfg where
  slop : Int
  rmin : Int

/-- Their values after `ofp_tcp_init` (src/ofp_tcp_subr.c:314-317; include/ofpi_tcp_timer.h:120-121). -/
def defaults : Cfg := { slop := hz / 5, rmin := hz / 33 }

/-- The timing part of a `tcpcb` (include/ofpi_tcp_var.h:155-168).  `t_rttbest`, `t_rttlow`,
`t_rttupdated` are written but never read and are left out. -/
structure Rtt where
  srtt : Int
  rttvar : Int
  rxtcur : Int
  rxtshift : Nat
  rttmin : Int
  rtttime : Int
  softerror : Int
  deriving Repr, DecidableEq

/-- `ofp_tcp_newtcpcb` (src/ofp_tcp_subr.c:782-785); the rest of the block is zeroed. -/
def fresh (c : Cfg) : Rtt :=
  { srtt := 0, rttvar := (3 * hz - 0) * 16 / 4, rxtcur := 3 * hz, rxtshift := 0,
    rttmin := u32 c.rmin, rtttime := 0, softerror := 0 }

/-- `TCP_REXMTVAL` (include/ofpi_tcp_var.h:376-378). -/
def rexmtVal (s : Rtt) : Int := umax s.rttmin (i32 (s.srtt / 8 + s.rttvar) / 4)

/-- `TCPT_RANGESET` on an `int` variable (include/ofpi_tcp_timer.h:144-150). -/
def rangeSet (c : Cfg) (value tvmin tvmax : Int) : Int :=
  let tv := i32 (value + c.slop)
  let tv := if u64 tv < u64 tvmin then i32 tvmin else tv
  if u64 tv > u64 tvmax then i32 tvmax else tv

/-- First half of `tcp_xmit_timer` (src/ofp_tcp_input.c:3244-3293): the smoothed averages. -/
def smooth (s : Rtt) (rtt : Int) : Int × Int :=
  if s.srtt ≠ 0 then
    let delta := i32 (i32 (i32 (rtt - 1) * 4) - s.srtt / 8)
    let srtt := i32 (s.srtt + delta)
    let srtt := if srtt ≤ 0 then 1 else srtt
    let delta := if delta < 0 then i32 (- delta) else delta
    let delta := i32 (delta - s.rttvar / 4)
    let rttvar := i32 (s.rttvar + delta)
    (srtt, if rttvar ≤ 0 then 1 else rttvar)
  else (i32 (rtt * 32), i32 (rtt * 8))

/-- `tcp_xmit_timer` (src/ofp_tcp_input.c:3244-3319). -/
def xmitTimer (c : Cfg) (s : Rtt) (rtt : Int) : Rtt :=
  let p := smooth s rtt
  let s1 : Rtt := { s with srtt := p.1, rttvar := p.2, rtttime := 0, rxtshift := 0, softerror := 0 }
  { s1 with rxtcur := rangeSet c (rexmtVal s1) (umax s.rttmin (i32 (rtt + 2))) rexmtMax }

/-- `tcp_ts_getticks` (include/ofpi_tcp_seq.h:80-84): the clock of the timestamps option, in
milliseconds, from the tick counter. -/
def tsNow (ticks : Int) : Int := u32 (ticks * 10)

/-- The timestamp branch of the ACK processing (src/ofp_tcp_input.c:1443-1447, 1554-1562,
2539-2545): the sample taken from an echoed timestamp, if any; `TCP_TS_TO_TICKS` multiplies in
32 bits (include/ofpi_tcp_seq.h:71). -/
def tsSample (ticks off tsecr : Int) : Option Int :=
  if tsecr = 0 then none
  else
    let e := u32 (tsecr - off)
    let e := if i32 (e - tsNow ticks) > 0 then 0 else e
    if e = 0 then none else some (u32 (u32 (tsNow ticks - e) * 1000) / 10000 + 1)

/-- Result of `ofp_tcp_timer_rexmt`: the connection is dropped with an error, or goes on and
retransmits. -/
inductive Fired where
  | dropped (err : Int)
  | again (s : Rtt)
  deriving Repr, DecidableEq

/-- `OFP_ETIMEDOUT`. -/
def etimedout : Int := 60

/-- The timing part of `ofp_tcp_timer_rexmt` (src/ofp_tcp_timer.c:453-480, 509-545); the
retransmission itself is modelled in `Snd`.  The congestion signal is commented out in the
source. -/
def rexmtFire (c : Cfg) (synSent : Bool) (s : Rtt) : Fired :=
  if s.rxtshift + 1 > maxShift then
    .dropped (if s.softerror ≠ 0 then s.softerror else etimedout)
  else
    let sh := s.rxtshift + 1
    let rexmt := i32 (u32 (rexmtVal s * (if synSent then synBackoff sh else backoff sh)))
    let cur := rangeSet c rexmt s.rttmin rexmtMax
    if sh > maxShift / 4 then
      .again { s with rxtshift := sh, rxtcur := cur, rttvar := i32 (s.rttvar + s.srtt / 32), srtt := 0, rtttime := 0 }
    else
      .again { s with rxtshift := sh, rxtcur := cur, rtttime := 0 }

/-- `ofp_tcp_setpersist` (src/ofp_tcp_output.c:1387-1407): the interval to the next window
probe, and the new state. -/
def setPersist (c : Cfg) (s : Rtt) : Int × Rtt :=
  let t := i32 (s.srtt / 4 + s.rttvar) / 2
  (rangeSet c (i32 (t * backoff s.rxtshift)) persMin persMax,
   if s.rxtshift < maxShift then { s with rxtshift := s.rxtshift + 1 } else s)

/-- The measurement an acknowledgement of new data yields, if any
(src/ofp_tcp_input.c:2539-2550, the same at 1554-1569): from an echoed timestamp, or from the
segment being timed if it is covered (`newer`: `SEQ_GT(th_ack, t_rtseq)`). -/
def measure (s : Rtt) (ticks off : Int) (ts : Option Int) (newer : Bool) : Option Int :=
  match ts.bind (tsSample ticks off) with
  | some r => some r
  | none => if s.rtttime ≠ 0 ∧ newer = true then some (i32 (u32 (ticks - s.rtttime))) else none

/-- What happens to the timing state of a connection. -/
inductive Ev where
  /-- New data is acknowledged; `ts` is the timestamp echoed by the peer, `off` the offset of
  our own timestamps (src/ofp_tcp_input.c:2539-2550). -/
  | ack (ticks off : Int) (ts : Option Int) (newer : Bool)
  /-- New data is sent; it is timed if nothing else is (src/ofp_tcp_output.c:1154-1158). -/
  | send (ticks : Int)
  /-- The retransmission timer runs out. -/
  | timeout (synSent : Bool)
  /-- The persist timer is set (src/ofp_tcp_output.c:660-661, src/ofp_tcp_timer.c:404). -/
  | persist
  /-- The shift is cleared on entering or leaving the persist state
  (src/ofp_tcp_output.c:318, 405, 660, 1175). -/
  | clear
  /-- An ICMP error is remembered (src/ofp_tcp_subr.c:1071-1083). -/
  | soft (err : Int)

/-- One event; a dropped connection (`none`) stays dropped. -/
def step (c : Cfg) (s : Rtt) : Ev → Option Rtt
  | .ack ticks off ts newer => match measure s ticks off ts newer with
    | some rtt => some (xmitTimer c s rtt)
    | none => some s
  | .send ticks => some (if s.rtttime = 0 then { s with rtttime := u32 ticks } else s)
  | .timeout ss => match rexmtFire c ss s with
    | .dropped _ => none
    | .again s' => some s'
  | .persist => some (setPersist c s).2
  | .clear => some { s with rxtshift := 0 }
  | .soft e => some { s with softerror := e }

/-- A history of events on a new connection. -/
def run (c : Cfg) : Rtt → List Ev → Option Rtt
  | s, [] => some s
  | s, e :: es => match step c s e with
    | none => none
    | some s' => run c s' es

end Verif.Rto

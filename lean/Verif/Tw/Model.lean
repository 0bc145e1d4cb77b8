import Verif.Rto.Model

/-!
# TIME_WAIT

Model of src/ofp_tcp_timewait.c.  A connection that was closed in order is kept, without its
socket, until no segment of it can be under way any more.  Connections are identified by their
protocol control block.  Time is counted in ticks since start; the tick counter is an `int`.
-/

namespace Verif.Tw

open Verif.Rto (i32)

abbrev W := BitVec 32

/-- `SEQ_GT` (include/ofpi_tcp_seq.h:45). -/
def seqGt (a b : W) : Bool := (a - b).toInt > 0

/-- `struct tcptw` (include/ofpi_tcp_var.h:325-339); `tw_so_options`, `tw_cred`, `iss`, `irs` and
`t_starttime` are not used by the functions modelled here.  `since` only observes: when the 2MSL
time was last started. -/
structure Tw where
  inp : Nat
  sndNxt : W
  rcvNxt : W
  win : Nat
  recent : W
  tsOff : W
  time : Int
  since : Int
  deriving Repr, DecidableEq

/-- `V_twq_2msl` (oldest first), `ofp_tcp_msl`, the size of the zone, `maxtcptw` (0: not set). -/
structure St where
  now : Int
  msl : Int
  cap : Nat
  maxtw : Nat
  q : List Tw

/-- What a closing connection hands over: `snd_nxt`, `rcv_nxt`, `rcv_adv`, `rcv_scale`, the
timestamp state and `TF_ACKNOW`. -/
structure Closing where
  inp : Nat
  sndNxt : W
  rcvNxt : W
  rcvAdv : W
  rcvScale : Nat
  tsOn : Bool
  tsRecent : W
  tsOff : W
  ackNow : Bool
  deriving Repr, DecidableEq

/-- A received segment, in host order; `other`: any of PUSH, URG, ECE, CWR. -/
structure Seg where
  seq : W
  ack : W
  fSyn : Bool
  fAck : Bool
  fFin : Bool
  fRst : Bool
  other : Bool
  len : Nat
  deriving Repr, DecidableEq

/-- A segment sent from TIME_WAIT; `ts`: timestamp option (value, echo). -/
structure Resp where
  inp : Nat
  seq : W
  ack : W
  win : Nat
  ts : Option (W × W)
  deriving Repr, DecidableEq

/-- Why a connection left TIME_WAIT. -/
inductive Why where
  | timeout | newConnection | tableFull | noEntry
  deriving Repr, DecidableEq

inductive Out where
  | sent (r : Resp)
  | ended (inp : Nat) (w : Why)
  deriving Repr, DecidableEq

/-- `tcptw_auto_size` (src/ofp_tcp_timewait.c:75-94), without `OFP_TCP_MAX_CONNECTION_RATE`. -/
def autoSize (lastauto firstauto pcbMax : Int) : Int :=
  let half := if lastauto > firstauto then (lastauto - firstauto).tdiv 2 else (firstauto - lastauto).tdiv 2
  min (max half 32) (pcbMax.tdiv 5)

/-- The tick counter (src/ofp_timer.c:546-560). -/
def ticks (s : St) : Int := i32 s.now

/-- `ofp_tcp_twrespond` with `OFP_TH_ACK` (src/ofp_tcp_timewait.c:388-490); `clock` is
`tcp_ts_getticks()`. -/
def respond (clock : W) (t : Tw) : Resp :=
  { inp := t.inp, seq := t.sndNxt, ack := t.rcvNxt, win := t.win % 65536,
    ts := if t.recent = 0 then none else some (clock + t.tsOff, t.recent) }

/-- `tcp_tw_2msl_reset` on an entry (src/ofp_tcp_timewait.c:492-502). -/
def stamp (s : St) (t : Tw) : Tw := { t with time := i32 (ticks s + 2 * s.msl), since := s.now }

/-- The entry made by `ofp_tcp_twstart` (src/ofp_tcp_timewait.c:196-230). -/
def entry (c : Closing) : Tw :=
  { inp := c.inp, sndNxt := c.sndNxt, rcvNxt := c.rcvNxt,
    win := if seqGt c.rcvAdv c.rcvNxt then ((c.rcvAdv - c.rcvNxt).toNat >>> c.rcvScale) % 65536 else 0,
    recent := if c.tsOn then c.tsRecent else 0, tsOff := if c.tsOn then c.tsOff else 0, time := 0, since := 0 }

/-- `ofp_tcp_twstart` (src/ofp_tcp_timewait.c:156-268): with no free entry the oldest one is
taken over (`ofp_tcp_tw_2msl_scan(1)`, 513-531); if there is none, the connection is closed. -/
def twstart (clock : W) (s : St) (c : Closing) : St × List Out :=
  let t := stamp s (entry c)
  let ack := if c.ackNow then [Out.sent (respond clock t)] else []
  if s.q.length < s.cap then ({ s with q := s.q ++ [t] }, ack)
  else match s.q with
    | [] => (s, [.ended c.inp .noEntry])
    | o :: r => ({ s with q := r ++ [t] }, .ended o.inp .tableFull :: ack)

/-- `ofp_tcp_tw_2msl_scan(0)` (src/ofp_tcp_timewait.c:513-531), called every 500 ms
(src/ofp_tcp_timer.c:121-135): what stays, what ends. -/
def scan (tk : Int) : List Tw → List Tw × List Out
  | [] => ([], [])
  | t :: r => if i32 (t.time - tk) > 0 then (t :: r, [])
    else ((scan tk r).1, .ended t.inp .timeout :: (scan tk r).2)

/-- `ofp_tcp_twcheck` for the entry of the connection (src/ofp_tcp_timewait.c:275-347). -/
inductive Verdict where
  | drop
  | startOver
  | go (rearm reply : Bool)
  deriving Repr, DecidableEq

def twcheck (t : Tw) (g : Seg) : Verdict :=
  if g.fRst then .drop
  else if g.fSyn && seqGt g.seq t.rcvNxt then .startOver
  else if !g.fAck then .drop
  else
    let seq := g.seq + BitVec.ofNat 32 g.len + (if g.fSyn then 1 else 0)
    let rearm := g.fFin && (seq + 1 == t.rcvNxt)
    let onlyAck := !g.fSyn && !g.fFin && !g.other
    .go rearm (!onlyAck || g.len == 0 || g.seq != t.rcvNxt || g.ack != t.sndNxt)

/-- Events. -/
inductive Op where
  | start (c : Closing)
  | seg (inp : Nat) (g : Seg)
  | slowtimo
  | pass (d : Nat)
  /-- `net.inet.tcp.msl` (src/ofp_tcp_timer.c:75-77). -/
  | setMsl (m : Int)
  /-- `net.inet.tcp.maxtcptw` (src/ofp_tcp_timewait.c:96-114); `uma_zone_set_max` does nothing
  (include/ofpi_uma.h:16, 45). -/
  | setMax (n : Nat)

def step (clock : W) (s : St) : Op → St × List Out
  | .start c => twstart clock s c
  | .seg i g => match s.q.find? (fun t => t.inp == i) with
    | none => (s, [])
    | some t => match twcheck t g with
      | .drop => (s, [])
      | .startOver => ({ s with q := s.q.filter (fun t => t.inp != i) }, [.ended i .newConnection])
      | .go rearm reply =>
        let q := if rearm then s.q.filter (fun t => t.inp != i) ++ [stamp s t] else s.q
        ({ s with q := q }, if reply then [.sent (respond clock t)] else [])
  | .slowtimo => let p := scan (ticks s) s.q; ({ s with q := p.1 }, p.2)
  | .pass d => ({ s with now := s.now + d }, [])
  | .setMsl m => ({ s with msl := m }, [])
  | .setMax n => (if n ≥ 32 then { s with maxtw := n } else s, [])

/-- After `ofp_tcp_tw_init` (src/ofp_tcp_timewait.c:130-154). -/
def init (now msl : Int) (cap : Nat) : St := { now := now, msl := msl, cap := cap, maxtw := 0, q := [] }

/-- A history: each operation with the clock of the timestamps at that moment. -/
def run (s : St) : List (W × Op) → St
  | [] => s
  | (k, o) :: ops => run (step k s o).1 ops

/-! ## Control block and socket -/

/-- The parts of `struct inpcb` and `struct socket` that decide about their release: is the
socket attached (`inp_socket`), has the protocol the reference (`INP_SOCKREF`, `SS_PROTOREF`),
has the application the descriptor (no `SS_NOFDREF`), `INP_DROPPED`; how often each was freed. -/
structure Life where
  sock : Bool
  sockref : Bool
  fd : Bool
  dropped : Bool
  pcbFreed : Nat
  soFreed : Nat
  deriving Repr, DecidableEq

/-- `ofp_sofree` and, through `sofree_dispose`, `tcp_detach` in TIME_WAIT
(src/ofp_uipc_socket.c:672-690, src/ofp_tcp_usrreq.c:160-196). -/
def sofree (l : Life) : Life :=
  if l.fd || l.sockref then l
  else { l with sock := false, soFreed := l.soFreed + 1, pcbFreed := if l.dropped then l.pcbFreed + 1 else l.pcbFreed }

/-- End of `ofp_tcp_twstart` (src/ofp_tcp_timewait.c:251-267). -/
def lifeStart (l : Life) : Life := if l.sockref then sofree { l with sockref := false } else l

/-- The application closes: `ofp_soclose`, `tcp_usr_close` (src/ofp_tcp_usrreq.c:970-1003). -/
def lifeClose (l : Life) : Life :=
  if l.fd && l.sock then
    let l := if l.dropped then l else { l with sockref := true }
    sofree { l with fd := false }
  else l

/-- `ofp_tcp_twclose` (src/ofp_tcp_timewait.c:349-386). -/
def lifeEnd (l : Life) : Life :=
  let l := { l with dropped := true }
  if l.sock then
    if l.sockref then sofree { l with sockref := false } else l
  else { l with pcbFreed := l.pcbFreed + 1 }

end Verif.Tw

import Verif.Tcp.Seq
/-!
# TCP sender: `ofp_tcp_output`, the acknowledgement side of `ofp_tcp_do_segment`, timers and user requests

Modelled: every pass of `ofp_tcp_output` (src/ofp_tcp_output.c:157-1385) as far as the sequence space, the flags,
the payload, the timers and the deferred-ACK flags are concerned; all of `ofp_tcp_do_segment`
(src/ofp_tcp_input.c:1325-3050) that touches the sender state, the connection state or the reset and SYN checks; the
persist, retransmit and path-MTU handlers; `tcp_usr_send`, `tcp_usr_shutdown`, `tcp_disconnect`, `tcp_usrclosed`.

Not modelled: contents of TCP options, congestion control (the congestion window of a pass is an input), round-trip
estimation, urgent pointer value, the receive buffer and the reassembly queue (their outcome is an input, see
`Verif.Tcp.Rcv*`), the SACK scoreboard (its answers are inputs, see `Verif.Sack`), statistics, keep-alive probes and
`ofp_tcp_respond` (they carry no data), PASSIVE_INET, TCP_SIGNATURE, TCPDEBUG, IPv6.
-/
namespace Verif.Snd
open Verif.Tcp

/-- Connection states (include/ofpi_tcp_fsm.h:47-60), in numerical order. -/
inductive St where
  | closed | listen | synSent | synRcvd | established | closeWait | finWait1 | closing | lastAck | finWait2 | timeWait
deriving DecidableEq, Repr

/-- Numerical value of a state (include/ofpi_tcp_fsm.h:47-60). -/
def St.num : St → Nat
  | .closed => 0 | .listen => 1 | .synSent => 2 | .synRcvd => 3 | .established => 4 | .closeWait => 5
  | .finWait1 => 6 | .closing => 7 | .lastAck => 8 | .finWait2 => 9 | .timeWait => 10

/-- `tcp_outflags[s] & TH_SYN` (include/ofpi_tcp_fsm.h:87-99). -/
def outSyn : St → Bool | .synSent => true | .synRcvd => true | _ => false
/-- `tcp_outflags[s] & TH_FIN` (87-99). -/
def outFin : St → Bool | .finWait1 => true | .closing => true | .lastAck => true | _ => false
/-- `tcp_outflags[s] & TH_RST` (87-99). -/
def outRst : St → Bool | .closed => true | _ => false
/-- `tcp_outflags[s] & TH_ACK` (87-99). -/
def outAck : St → Bool | .listen => false | .synSent => false | _ => true

/-- The fields of `struct tcpcb` (include/ofpi_tcp_var.h:120-215) and of the socket's send buffer that the sender
uses.  `buf` is the byte content of `so_snd` (`Verif.Sockbuf` shows that the ring is that queue).  `written` is a
ghost: everything the application has handed over since the connection was created.  `hung` marks a thread that is
still inside the `again` loop of `ofp_tcp_output`; `dead` is `INP_DROPPED` or `INP_TIMEWAIT`.
Two more ghosts record unusual passes: `squeezed`, a pass found a SACK hole but no window to retransmit any of it and
sends data all the same;
`finProbe`, a FIN went out as a window probe (forced, persist timer active). -/
structure Tcb where
  st : St
  iss : BitVec 32
  una : BitVec 32
  nxt : BitVec 32
  max : BitVec 32
  wnd : Nat
  maxwnd : Nat
  buf : List UInt8
  needSyn : Bool
  needFin : Bool
  sentFin : Bool
  acknow : Bool
  delack : Bool
  force : Bool
  noopt : Bool
  sackPermit : Bool
  fastrec : Bool
  rexmt : Bool
  persist : Bool
  recover : BitVec 32
  wl1 : BitVec 32
  wl2 : BitVec 32
  dupacks : Nat
  sackNewdata : BitVec 32
  irs : BitVec 32
  rcvNxt : BitVec 32
  rcvAdv : BitVec 32
  lastAckSent : BitVec 32
  cantSend : Bool
  dead : Bool
  hung : Bool
  written : List UInt8
  squeezed : Bool
  finProbe : Bool
deriving Repr, DecidableEq

/-- A segment handed to IP by `ofp_tcp_output`.  A payload byte is `none` when the code leaves it uninitialised.
`forced`: sent under TF_FORCEDATA; `accepted`: IP took it. -/
structure Pkt where
  seq : BitVec 32
  ack : BitVec 32
  syn : Bool
  fin : Bool
  rst : Bool
  ackf : Bool
  data : List (Option UInt8)
  forced : Bool
  accepted : Bool
deriving Repr, DecidableEq

/-- What the environment decides in one pass of the `again` loop: congestion window, answers of the SACK scoreboard
(`adjust`: how far `ofp_tcp_sack_adjust` moves `snd_nxt`; `hole`: the hole returned by `ofp_tcp_sack_output`, see
`holeOf`; `sackBytes`), segment size limits, option lengths, whether the packet pool has a packet
(`alloc`) and IP accepts it (`sent`), the Nagle condition (`nodelay`: not MORETOCOME, idle or NODELAY, not NOPUSH), the
outcome of the window-update block 531-601 (`wndUpdate`), `snd_up > snd_una` (`urg`) and the receive window. -/
structure Env where
  cwnd : Nat
  adjust : Nat
  hole : Option (Nat × Nat)
  sackBytes : Nat
  tso : Bool
  maxseg : Nat
  maxopd : Nat
  optlen : Nat
  ipoptlen : Nat
  hdrlen : Nat
  nodelay : Bool
  urg : Bool
  wndUpdate : Bool
  recwin : Nat
  alloc : Bool
  sent : Bool
deriving Repr, DecidableEq

/-- The local variables of a pass.  `squeezed` is a ghost: a hole was found but the window left no room to retransmit
any of it. -/
structure W where
  syn : Bool
  fin : Bool
  off : Int
  len : Int
  sendwin : Int
  sackRx : Bool
  sb : Int
  rx : BitVec 32
  alot : Bool
  tso : Bool
  squeezed : Bool
deriving Repr, DecidableEq

/-- `(int64_t)x` of an `uint64_t` (macro `min`, src/ofp_tcp_output.c:217). -/
def toI64 (x : Nat) : Int := if x < 2 ^ 63 then (x : Int) else (x : Int) - 2 ^ 64

/-- `ulmin(cc, win)`: the second argument is a `long` converted to `unsigned long` (src/ofp_tcp_output.c:340, 349). -/
def ulminCC (cc : Nat) (win : Int) : Int := if win < 0 then (cc : Int) else if (cc : Int) ≤ win then cc else win

/-- src/ofp_tcp_output.c:205-212: SACK adjustment of `snd_nxt` (`ofp_tcp_sack_adjust`, src/ofp_tcp_sack.c:648-676, only moves it
forward, at most to `snd_fack`; Simplified: the answer is an input, clipped to `snd_max`). -/
def adjustNxt (s : Tcb) (e : Env) : Tcb :=
  if s.sackPermit && seqLT s.nxt s.max then { s with nxt := s.nxt + BitVec.ofNat 32 (min e.adjust (diff s.max s.nxt).toNat) } else s

/-- The hole returned by `ofp_tcp_sack_output` (src/ofp_tcp_sack.c:623-643), as `(rxmit, end)`.  Its place is an input, clipped to what
holds for every hole of the scoreboard (`Verif.Sack`): `snd_una <= rxmit < end < snd_max`. -/
def holeOf (s : Tcb) (e : Env) : Option (BitVec 32 × BitVec 32) :=
  let d := (diff s.max s.una).toNat - 1
  match e.hole with
  | none => none
  | some (a, b) =>
    if d = 0 then none
    else
      let a' := min a (d - 1)
      some (s.una + BitVec.ofNat 32 a', s.una + BitVec.ofNat 32 (a' + 1 + min b (d - 1 - a')))

/-- How much of the hole may be retransmitted: nothing beyond `snd_recover` (src/ofp_tcp_output.c:245-265). -/
def holeLim (s : Tcb) (rx en : BitVec 32) : Nat :=
  if seqGT en s.recover then (s.recover - rx).toNat else (en - rx).toNat

/-- `ulmin(cwin, lim)` with `cwin = max(0, win - sack_bytes_rxmt)` (src/ofp_tcp_output.c:240-243, 262-266). -/
def holeLen (win : Int) (sb lim : Nat) : Int :=
  if win - sb < 0 then 0 else if win - sb ≤ (lim : Int) then win - sb else (lim : Int)

/-- src/ofp_tcp_output.c:213-278: offset, window, SACK-driven retransmission. -/
def sackPick (s : Tcb) (e : Env) : W :=
  let sendwin := min (toI64 s.wnd) (toI64 e.cwnd)
  let w0 : W := { syn := outSyn s.st, fin := outFin s.st, off := diff s.nxt s.una, len := 0, sendwin := sendwin,
                  sackRx := false, sb := 0, rx := 0, alot := false, tso := false, squeezed := false }
  if s.sackPermit && s.fastrec then
    let w1 := { w0 with sb := (e.sackBytes : Int) }
    match holeOf s e with
    | none => w1
    | some (rx, en) =>
      if seqGT en s.recover && seqGEQ rx s.recover then w1
      else
        let len := holeLen sendwin e.sackBytes (holeLim s rx en)
        { w1 with off := diff rx s.una, len := len, sackRx := decide (len > 0), rx := rx, alot := decide (len > 0),
                  squeezed := decide (len ≤ 0) }
  else w0

/-- 280-287: hidden state flags. -/
def hidden (s : Tcb) (w : W) : W := { w with fin := w.fin || s.needFin, syn := w.syn || s.needSyn }

/-- 289-320: persist timeout. -/
def forceBlk (s : Tcb) (w : W) : Tcb × W :=
  if s.force then
    if w.sendwin = 0 then
      (s, { w with sendwin := 1, fin := if w.off < (s.buf.length : Int) then false else w.fin })
    else ({ s with persist := false }, w)
  else (s, w)

/-- 338-368: length of what may be sent. -/
def lenBlk (s : Tcb) (e : Env) (w : W) : W :=
  if w.sackRx then w
  else if w.sb = 0 then { w with len := ulminCC s.buf.length w.sendwin - w.off }
  else
    let len := ulminCC s.buf.length (toI64 s.wnd) - w.off
    if len > 0 then
      let cwin := toI64 e.cwnd - ((s.nxt - s.sackNewdata).toNat : Int) - w.sb
      let cwin := if cwin < 0 then 0 else cwin
      { w with len := if len ≤ cwin then len else cwin }
    else { w with len := len }

/-- 370-389: SYN already sent; no data or FIN on a SYN without options. -/
def synBlk (s : Tcb) (w : W) : W :=
  let w1 := if w.syn && seqGT s.nxt s.una then
      { w with syn := w.syn && decide (s.st = .synRcvd), off := w.off - 1, len := w.len + 1 }
    else w
  if w1.syn && s.noopt then { w1 with len := 0, fin := false } else w1

/-- 391-410: negative length; a closed window pulls `snd_nxt` back and starts the persist timer. -/
def negBlk (s : Tcb) (w : W) : Tcb × W :=
  if w.len < 0 then
    if w.sendwin = 0 then ({ s with rexmt := false, nxt := s.una, persist := true }, { w with len := 0 })
    else (s, { w with len := 0 })
  else (s, w)

/-- 463-486: TSO decision, FIN only with the last byte. -/
def finBlk (s : Tcb) (e : Env) (w : W) : W :=
  { w with
    tso := e.tso && decide (w.len > e.maxseg) && !w.sackRx
    fin := w.fin &&
      !(if w.sackRx then seqLT (w.rx + BitVec.ofInt 32 w.len) (s.una + BitVec.ofNat 32 s.buf.length)
        else seqLT (s.nxt + BitVec.ofInt 32 w.len) (s.una + BitVec.ofNat 32 s.buf.length)) }

/-- 488-620: does this pass send a segment. -/
def wantSend (s : Tcb) (e : Env) (w : W) : Bool :=
  (decide (w.len ≠ 0) &&
    (decide (w.len ≥ e.maxseg) || (e.nodelay && decide (w.len + w.off ≥ s.buf.length)) || s.force ||
     (decide (w.len ≥ (s.maxwnd / 2 : Nat)) && decide (s.maxwnd > 0)) || seqLT s.nxt s.max || w.sackRx)) ||
  (e.wndUpdate && !s.needSyn && !s.delack && !decide (s.st = .timeWait)) ||
  s.acknow || outRst s.st || (w.syn && !s.needSyn) || e.urg ||
  (w.fin && (!s.sentFin || s.nxt == s.una))

/-- 622-669: nothing to send; keep a timer running. -/
def idleBlk (s : Tcb) : Tcb :=
  if s.sackPermit && seqGT s.max s.una && !s.rexmt && !s.persist then { s with rexmt := true }
  else if s.buf.length ≠ 0 && !s.rexmt && !s.persist then { s with persist := true }
  else s

/-- 755-806: segment size limit (`t_maxopd - optlen - ipoptlen` is unsigned 32-bit arithmetic). -/
def clip (s : Tcb) (e : Env) (w : W) : W :=
  if w.len + e.optlen + e.ipoptlen > e.maxopd then
    if w.tso then
      let len1 := if w.len > 65535 - (e.hdrlen : Int) then 65535 - (e.hdrlen : Int) else w.len
      let alot1 := w.alot || decide (w.len > 65535 - (e.hdrlen : Int))
      let cut := alot1 && decide (w.off + len1 < s.buf.length)
      let len2 := if cut then len1 - len1 % ((e.maxopd : Int) - e.optlen) else len1
      { w with fin := false, len := len2, alot := alot1 || s.needFin }
    else { w with fin := false, len := ((e.maxopd : Int) - e.optlen - e.ipoptlen) % 2 ^ 32, alot := true }
  else { w with tso := false }

/-- `ofp_sockbuf_copy_out` (src/ofp_uipc_sockbuf.c:152-178) into a packet of `len` payload bytes; what the buffer does
not contain stays uninitialised.  Simplified: with a negative offset all bytes are uninitialised (the code fails to
copy from the first packet of the buffer only). -/
def payload (buf : List UInt8) (off len : Int) : List (Option UInt8) :=
  (List.range len.toNat).map fun i => if off < 0 then none else buf[off.toNat + i]?

/-- 1308-1370: bookkeeping after the segment, also reached when no packet could be allocated. -/
def postBlk (s : Tcb) (e : Env) : Tcb :=
  { s with
    rcvAdv := if seqGT (s.rcvNxt + BitVec.ofNat 32 e.recwin) s.rcvAdv then s.rcvNxt + BitVec.ofNat 32 e.recwin
              else s.rcvAdv
    lastAckSent := s.rcvNxt, acknow := false, delack := false }

/-- Advance over the sequence space of the segment (src/ofp_tcp_output.c:1125-1158). -/
def advSeq (s : Tcb) (w : W) : Tcb :=
  let s1 := { s with nxt := s.nxt + (if w.syn then 1 else 0) + (if w.fin then 1 else 0), sentFin := s.sentFin || w.fin }
  if w.sackRx then s1 else
    let n := s1.nxt + BitVec.ofInt 32 w.len
    { s1 with nxt := n, max := if seqGT n s1.max then n else s1.max }

/-- Arrange for retransmission (src/ofp_tcp_output.c:1159-1178). -/
def advTimer (s : Tcb) (w : W) : Tcb :=
  if !s.rexmt && ((w.sackRx && s.nxt != s.max) || s.nxt != s.una) then { s with persist := false, rexmt := true } else s

/-- In the persist state only `snd_max` moves (src/ofp_tcp_output.c:1179-1193). -/
def advProbe (s : Tcb) (w : W) : Tcb :=
  let xlen := w.len + (if w.syn then 1 else 0) + (if w.fin then 1 else 0)
  { s with sentFin := s.sentFin || w.fin, finProbe := s.finProbe || w.fin,
           max := if seqGT (s.nxt + BitVec.ofInt 32 xlen) s.max then s.nxt + BitVec.ofInt 32 w.len else s.max }

/-- src/ofp_tcp_output.c:1125-1193. -/
def advance (s : Tcb) (w : W) : Tcb :=
  if !s.force || !s.persist then advTimer (advSeq s w) w else advProbe s w

/-- A FIN that has been sent before and sits at `snd_max` is repeated: step back over it
(src/ofp_tcp_output.c:935-941). -/
def unFin (s : Tcb) (w : W) : Tcb :=
  if w.fin && s.sentFin && s.nxt == s.max then { s with nxt := s.nxt - 1 } else s

/-- The segment: sequence number (src/ofp_tcp_output.c:982-1012), flags, payload. -/
def mkPkt (s : Tcb) (e : Env) (w : W) : Pkt :=
  { seq := if w.sackRx then w.rx else if decide (w.len ≠ 0) || w.syn || w.fin || s.persist then s.nxt else s.max,
    ack := s.rcvNxt, syn := w.syn, fin := w.fin, rst := outRst s.st, ackf := outAck s.st,
    data := payload s.buf w.off w.len, forced := s.force, accepted := e.sent }

/-- IP refused the packet: back out of the sequence number advance (src/ofp_tcp_output.c:1288-1307). -/
def unSent (s : Tcb) (e : Env) (w : W) : Tcb :=
  if !e.sent && (!s.force || !s.persist) && !w.syn && !w.sackRx then { s with nxt := s.nxt - BitVec.ofInt 32 w.len } else s

/-- A SYN starts over at `iss` (src/ofp_tcp_output.c:696-700). -/
def reIss (s : Tcb) (w : W) : Tcb := if w.syn && !s.noopt then { s with nxt := s.iss } else s

/-- 671-1370 (`send`): build and transmit the segment. -/
def sendSeg (s0 : Tcb) (e : Env) (w0 : W) : Tcb × Option Pkt × Bool :=
  let s1 := reIss s0 w0
  let w := clip s1 e w0
  if !e.alloc then (postBlk s1 e, none, w.alot)
  else
    let s2 := unFin s1 w
    (postBlk (unSent (advance s2 w) e w) e, some (mkPkt s2 e w), w.alot)

/-- The local variables and the state just before the decision to send (205-486).  The ghost `squeezed` is set when the
offset is that of a hole for which there is no room, and there is something to send all the same. -/
def prep (s : Tcb) (e : Env) : Tcb × W :=
  let s1 := adjustNxt s e
  let w1 := hidden s1 (sackPick s1 e)
  let p := forceBlk s1 w1
  let q := negBlk p.1 (synBlk p.1 (lenBlk p.1 e p.2))
  ({ q.1 with squeezed := q.1.squeezed || (q.2.squeezed && decide (q.2.len > 0)) }, finBlk q.1 e q.2)

/-- One pass of the `again` loop. -/
def pass (s : Tcb) (e : Env) : Tcb × Option Pkt × Bool :=
  let q := prep s e
  if wantSend q.1 e q.2 then sendSeg q.1 e q.2 else (idleBlk q.1, none, false)

/-- `ofp_tcp_output` (157-1385).  One environment per pass; when the list runs out while `sendalot` is set the thread
is still in the loop. -/
def outputLoop : Tcb → List Env → Tcb × List Pkt
  | s, [] => ({ s with hung := true }, [])
  | s, e :: es =>
    if (pass s e).2.2 then
      ((outputLoop (pass s e).1 es).1, (pass s e).2.1.toList ++ (outputLoop (pass s e).1 es).2)
    else ((pass s e).1, (pass s e).2.1.toList)

/-- A call of `ofp_tcp_output`; a thread that never left an earlier call makes no further one. -/
def output (s : Tcb) (es : List Env) : Tcb × List Pkt := if s.hung then (s, []) else outputLoop s es

/-! ## Input -/

/-- A received segment, after the header checks and option processing; `win` is the scaled window (src/ofp_tcp_input.c:1402). -/
structure Seg where
  seq : BitVec 32
  ack : BitVec 32
  syn : Bool
  ackf : Bool
  fin : Bool
  rst : Bool
  urgf : Bool
  win : Nat
  tlen : Nat
deriving Repr, DecidableEq

/-- What the environment decides for a received segment: free receive space, PAWS (`paws`), socket without
descriptor (`noFd`), `tcp_insecure_rst`, both sides scale windows, the rest of the header-prediction conditions
(`predOk`: reassembly queue empty, timestamp fresh; `holesEmpty`: no SACK option and no hole), the duplicate-ACK
threshold and limited transmit, `DELAY_ACK`, and the outcome of delivering the text (`rcvTo`: new `rcv_nxt`, `finUp`:
the peer's FIN has been reached).  `es1`: passes of an `ofp_tcp_output` call inside ACK processing; `es2`: of the call
at the end. -/
structure REnv where
  space : Nat
  paws : Bool
  noFd : Bool
  insecureRst : Bool
  scaled : Bool
  predOk : Bool
  holesEmpty : Bool
  thresh : Nat
  limited : Bool
  delay : Bool
  cantRcv : Bool
  rcvTo : BitVec 32
  finUp : Bool
  es1 : List Env
  es2 : List Env
deriving Repr, DecidableEq

/-- `ofp_sbdrop` on the send buffer (src/ofp_uipc_sockbuf.c:330-350). -/
def sbdrop (s : Tcb) (n : Nat) : Tcb := { s with buf := s.buf.drop n }

/-- `ofp_tcp_close` (src/ofp_tcp_subr.c:1006-1035). -/
def tcpClose (s : Tcb) : Tcb := { s with dead := true }

/-- `ofp_tcp_twstart` (src/ofp_tcp_timewait.c:170-290): the control block is replaced by a TIME_WAIT record. -/
def twstart (s : Tcb) : Tcb := { s with st := .timeWait, dead := true }

/-- `ofp_tcp_drop` (src/ofp_tcp_subr.c:870-890). -/
def tcpDrop (s : Tcb) (es : List Env) : Tcb × List Pkt :=
  if s.st.num ≥ 3 then
    let r := output { s with st := .closed } es
    (tcpClose r.1, r.2)
  else (tcpClose s, [])

/-- uint64 subtraction `snd_wnd -= n` (src/ofp_tcp_input.c:2582, 2587). -/
def subWnd (wnd n : Nat) : Nat := if n ≤ wnd then wnd - n else 2 ^ 64 + wnd - n

/-- `dropafterack` (src/ofp_tcp_input.c:2957-2999). -/
def dropAfterAck (s : Tcb) (g : Seg) (r : REnv) : Tcb × List Pkt :=
  if s.st = .synRcvd && g.ackf && (seqGT s.una g.ack || seqGT g.ack s.max) then (s, [])
  else output { s with acknow := true } r.es2

/-- How ACK processing ends. -/
inductive K where
  /-- `goto drop` or `return`. -/
  | stop
  /-- `goto dropafterack`. -/
  | after
  /-- continue at `step6`, with `needoutput`. -/
  | step6 (need : Bool)
deriving DecidableEq, Repr

/-- Timers of `process_ACK` (src/ofp_tcp_input.c:2536-2545): off when everything is acknowledged, restarted otherwise
unless in the persist state. -/
def ackTimer (s : Tcb) (g : Seg) : Tcb :=
  if g.ack == s.max then { s with rexmt := false } else if !s.persist then { s with rexmt := true } else s

/-- Drop the acknowledged bytes, move `snd_una` (src/ofp_tcp_input.c:2573-2612).  `all`: more than the buffer is acknowledged,
i.e. our FIN as well. -/
def ackNew (s : Tcb) (g : Seg) (acked : Int) (all : Bool) : Tcb :=
  let s2 := if all then { sbdrop s s.buf.length with wnd := subWnd s.wnd s.buf.length }
            else { sbdrop s acked.toNat with wnd := subWnd s.wnd acked.toNat }
  let rec1 := if !s2.fastrec && seqGT s2.una s2.recover && seqLEQ g.ack s2.recover then g.ack - 1 else s2.recover
  let fr := s2.fastrec && !seqGEQ g.ack rec1
  let rec2 := if s2.sackPermit && seqGT g.ack rec1 then g.ack else rec1
  { s2 with recover := rec2, fastrec := fr, una := g.ack, nxt := if seqLT s2.nxt g.ack then g.ack else s2.nxt }

/-- Our FIN is acknowledged (src/ofp_tcp_input.c:2613-2672). -/
def ackFin (s : Tcb) (all need : Bool) : Tcb × K :=
  if s.st = .finWait1 && all then ({ s with st := .finWait2 }, .step6 need)
  else if s.st = .closing && all then (twstart s, .stop)
  else if s.st = .lastAck && all then (tcpClose s, .stop)
  else (s, .step6 need)

/-- `process_ACK` (src/ofp_tcp_input.c:2506-2673). -/
def processAck (s : Tcb) (g : Seg) : Tcb × K :=
  let acked := diff g.ack s.una
  let s1 := ackTimer s g
  let need := g.ack == s.max
  if acked = 0 then (s1, .step6 need)
  else
    let all := decide (acked > (s1.buf.length : Int))
    ackFin (ackNew s1 g acked all) all need

/-- Duplicate acknowledgement (src/ofp_tcp_input.c:2319-2465). -/
def dupAck (s : Tcb) (g : Seg) (r : REnv) : Tcb × List Pkt × K :=
  if g.tlen = 0 && g.win == s.wnd then
    if !s.rexmt || g.ack != s.una then ({ s with dupacks := 0 }, [], .step6 false)
    else
      let s1 := { s with dupacks := s.dupacks + 1 }
      if s1.dupacks > r.thresh || s1.fastrec then
        let o := output s1 r.es1
        (o.1, o.2, .stop)
      else if s1.dupacks = r.thresh then
        if !s1.sackPermit && seqLEQ g.ack s1.recover then ({ s1 with dupacks := 0 }, [], .step6 false)
        else
          let o := output { s1 with rexmt := false, nxt := g.ack, recover := s1.max, fastrec := true } r.es1
          ({ o.1 with nxt := if seqGT s1.nxt o.1.nxt then s1.nxt else o.1.nxt }, o.2, .stop)
      else if r.limited then
        let o := output s1 r.es1
        (o.1, o.2, .stop)
      else (s1, [], .step6 false)
  else ({ s with dupacks := 0 }, [], .step6 false)

/-- Partial acknowledgement during fast recovery: `ofp_tcp_sack_partialack` (src/ofp_tcp_sack.c:561-580),
`tcp_newreno_partial_ack` (src/ofp_tcp_input.c:3620-3650). -/
def partialAck (s : Tcb) (g : Seg) (r : REnv) : Tcb × List Pkt :=
  if s.fastrec && seqLT g.ack s.recover then
    if s.sackPermit then output { s with rexmt := false, acknow := true } r.es1
    else
      let o := output { s with rexmt := false, nxt := g.ack, acknow := true } r.es1
      ({ o.1 with nxt := if seqGT s.nxt o.1.nxt then s.nxt else o.1.nxt }, o.2)
  else (s, [])

/-- ACK processing of a segment with the ACK bit in a synchronised state or SYN_RECEIVED (src/ofp_tcp_input.c:2241-2673). -/
def ackBlk (s : Tcb) (g : Seg) (r : REnv) : Tcb × List Pkt × K :=
  let s1 := if s.st = .synRcvd then
      { s with wnd := if r.scaled then g.win else s.wnd, needFin := false,
               st := if s.needFin then .finWait1 else .established, wl1 := g.seq - 1 }
    else s
  if seqGT g.ack s1.max then (s1, [], .after)
  else if seqLEQ g.ack s1.una then dupAck s1 g r
  else
    let p := partialAck s1 g r
    if p.1.hung then (p.1, p.2, .stop)
    else
      let s2 := { p.1 with dupacks := 0 }
      let s3 := if s2.needSyn then { s2 with needSyn := false, una := s2.una + 1 } else s2
      let q := processAck s3 g
      (q.1, p.2, q.2)

/-- src/ofp_tcp_input.c:2676-2697: window update. -/
def wndBlk (s : Tcb) (g : Seg) : Tcb × Bool :=
  if g.ackf && (seqLT s.wl1 g.seq || (s.wl1 == g.seq && (seqLT s.wl2 g.ack ||
      (s.wl2 == g.ack && decide (g.win > s.wnd))))) then
    ({ s with wnd := g.win, wl1 := g.seq, wl2 := g.ack, maxwnd := if g.win > s.maxwnd then g.win else s.maxwnd }, true)
  else (s, false)

/-- Text of the segment and the peer's FIN (src/ofp_tcp_input.c:2776-2872), and whether the FIN was reached.  Simplified:
delivery of the text is the input `rcvTo`, `finUp`; `r.delay` tells delayed from immediate acknowledgement. -/
def textFin (s : Tcb) (g : Seg) (r : REnv) : Tcb × Bool :=
  let take := (g.tlen ≠ 0 || g.fin) && s.st ≠ .timeWait
  let s1 := if take then { s with rcvNxt := r.rcvTo, acknow := s.acknow || !r.delay, delack := s.delack || r.delay }
            else s
  let fin := take && r.finUp
  (if fin then { s1 with rcvNxt := s1.rcvNxt + 1, acknow := s1.acknow || !s1.needSyn,
                         delack := s1.delack || s1.needSyn } else s1, fin)

/-- State change on the peer's FIN, other than in FIN_WAIT_2 (src/ofp_tcp_input.c:2873-2915). -/
def finSt (s : Tcb) (fin : Bool) : Tcb :=
  if fin then (if s.st = .synRcvd || s.st = .established then { s with st := .closeWait }
    else if s.st = .finWait1 then { s with st := .closing } else s) else s

/-- src/ofp_tcp_input.c:2676-2955 (`step6` to the end): window, text, FIN, output. -/
def step6 (s : Tcb) (g : Seg) (r : REnv) (need : Bool) : Tcb × List Pkt :=
  let p := wndBlk s g
  if g.tlen ≠ 0 && (p.1.st = .closeWait || p.1.st = .synSent || p.1.st = .closing || p.1.st = .lastAck ||
      p.1.st = .timeWait) then (p.1, [])
  else
    let t := textFin p.1 g r
    if t.2 && t.1.st = .finWait2 then (twstart t.1, [])
    else
      let s3 := finSt t.1 t.2
      if (need || p.2) || s3.acknow then
        let o := output s3 r.es2
        ({ o.1 with delack := false }, o.2)
      else ({ s3 with delack := false }, [])

/-- Continue after ACK processing. -/
def afterAck (p : Tcb × List Pkt × K) (g : Seg) (r : REnv) : Tcb × List Pkt :=
  match p.2.2 with
  | .stop => (p.1, p.2.1)
  | .after => let o := dropAfterAck p.1 g r; (o.1, p.2.1 ++ o.2)
  | .step6 need => let o := step6 p.1 g r need; (o.1, p.2.1 ++ o.2)

/-- The state after an acceptable SYN (with ACK: `g.ackf`) in SYN_SENT (src/ofp_tcp_input.c:1793-1895). -/
def synSentOn (s : Tcb) (g : Seg) (r : REnv) (rcvWnd : Nat) : Tcb :=
  if g.ackf then
    { s with irs := g.seq, rcvNxt := g.seq + 1, rcvAdv := g.seq + 1 + BitVec.ofNat 32 rcvWnd, una := s.una + 1,
             needFin := false, acknow := s.acknow || !(r.delay && g.tlen ≠ 0),
             st := if s.needFin then .finWait1 else .established, wl1 := g.seq }
  else { s with irs := g.seq, rcvNxt := g.seq + 1, rcvAdv := g.seq + 1, acknow := true, needSyn := true,
                rexmt := false, st := .synRcvd, wl1 := g.seq }

/-- SYN_SENT (src/ofp_tcp_input.c:1793-1915). -/
def synSentBlk (s : Tcb) (g : Seg) (r : REnv) (rcvWnd : Nat) : Tcb × List Pkt :=
  if g.ackf && (seqLEQ g.ack s.iss || seqGT g.ack s.max) then (s, [])
  else if g.rst then (if g.ackf then tcpDrop s r.es1 else (s, []))
  else if !g.syn then (s, [])
  else
    let g1 := { g with seq := g.seq + 1, syn := false, tlen := min g.tlen rcvWnd,
                       fin := g.fin && decide (g.tlen ≤ rcvWnd) }
    let s3 := synSentOn s g r rcvWnd
    if g.ackf then
      let q := processAck s3 g1
      afterAck (q.1, [], q.2) g1 r
    else step6 s3 g1 r false

/-- RST (src/ofp_tcp_input.c:1987-2033). -/
def rstBlk (s : Tcb) (g : Seg) (r : REnv) (rcvWnd : Nat) : Tcb :=
  if seqGEQ g.seq (s.lastAckSent - 1) && seqLEQ g.seq (s.lastAckSent + BitVec.ofNat 32 rcvWnd) then
    if s.st = .synRcvd || s.st = .finWait1 || s.st = .finWait2 || s.st = .closeWait then
      tcpClose { s with st := .closed }
    else if s.st = .established then
      if !r.insecureRst && !(seqGEQ g.seq (s.rcvNxt - 1) && seqLEQ g.seq (s.rcvNxt + 1)) &&
          !(seqGEQ g.seq (s.lastAckSent - 1) && seqLEQ g.seq (s.lastAckSent + 1)) then s
      else tcpClose { s with st := .closed }
    else if s.st = .closing || s.st = .lastAck then tcpClose s
    else s
  else s

/-- src/ofp_tcp_input.c:2080-2124: drop what precedes the window. -/
def trimHead (s : Tcb) (g : Seg) : Tcb × Seg :=
  let todrop := diff s.rcvNxt g.seq
  if todrop > 0 then
    let syn := g.syn
    let seq := if syn then g.seq + 1 else g.seq
    let todrop := if syn then todrop - 1 else todrop
    if todrop > g.tlen || (todrop = g.tlen && !g.fin) then
      ({ s with acknow := true }, { g with syn := false, seq := seq + BitVec.ofNat 32 g.tlen, tlen := 0, fin := false })
    else (s, { g with syn := false, seq := seq + BitVec.ofInt 32 todrop, tlen := g.tlen - todrop.toNat })
  else (s, g)

/-- States other than SYN_SENT, after the RST and PAWS checks (src/ofp_tcp_input.c:2067-2955). -/
def syncBlk (s : Tcb) (g : Seg) (r : REnv) (rcvWnd : Nat) : Tcb × List Pkt :=
  if s.st = .synRcvd && seqLT g.seq s.irs then (s, [])
  else
    let p := trimHead s g
    let s := p.1
    let g := p.2
    if r.noFd && decide (s.st.num > 5) && decide (g.tlen ≠ 0) then (tcpClose s, [])
    else
      let over := diff (g.seq + BitVec.ofNat 32 g.tlen) (s.rcvNxt + BitVec.ofNat 32 rcvWnd)
      if over > 0 && decide (over ≥ g.tlen) && !(rcvWnd = 0 && g.seq == s.rcvNxt) then dropAfterAck s g r
      else
        let s := if over > 0 && decide (over ≥ g.tlen) then { s with acknow := true } else s
        let g := if over > 0 then { g with tlen := g.tlen - over.toNat, fin := false } else g
        if g.syn then tcpDrop s r.es1
        else if !g.ackf then
          if s.st = .synRcvd || s.needSyn then step6 s g r false
          else if s.acknow then dropAfterAck s g r
          else (s, [])
        else afterAck (ackBlk s g r) g r

/-- Header prediction, pure acknowledgement (src/ofp_tcp_input.c:1518-1615): drop the bytes, move `snd_una`, set the timer. -/
def predAck (s : Tcb) (g : Seg) : Tcb :=
  let s1 : Tcb := { s with
    buf := s.buf.drop (diff g.ack s.una).toNat
    recover := if seqGT s.una s.recover && seqLEQ g.ack s.recover then g.ack - 1 else s.recover
    una := g.ack, wl2 := g.ack, dupacks := 0 }
  if s1.una == s1.max then { s1 with rexmt := false } else if !s1.persist then { s1 with rexmt := true } else s1

/-- Conditions common to both header-prediction branches (src/ofp_tcp_input.c:1495-1510). -/
def predOk (s : Tcb) (g : Seg) (r : REnv) : Bool :=
  decide (s.st = .established) && g.seq == s.rcvNxt && !g.syn && !g.fin && !g.rst && !g.urgf && g.ackf &&
    s.nxt == s.max && decide (g.win ≠ 0) && g.win == s.wnd && !s.needSyn && !s.needFin && r.predOk

/-- `ofp_tcp_do_segment` (src/ofp_tcp_input.c:1325-3050). -/
def doSegment (s : Tcb) (g : Seg) (r : REnv) : Tcb × List Pkt :=
  let pred := predOk s g r
  if pred && g.tlen = 0 && seqGT g.ack s.una && seqLEQ g.ack s.max && !s.fastrec && r.holesEmpty then
    -- 1518-1628: pure acknowledgement
    let s2 := predAck s g
    if s2.buf.length ≠ 0 then
      let o := output s2 r.es1
      ({ o.1 with delack := false }, o.2)
    else ({ s2 with delack := false }, [])
  else if pred && g.tlen ≠ 0 && g.ack == s.una && decide (g.tlen ≤ r.space) then
    -- 1629-1743: pure in-sequence data
    let s1 := { s with rcvNxt := s.rcvNxt + BitVec.ofNat 32 g.tlen, wl1 := g.seq }
    if r.delay then ({ s1 with delack := false }, [])
    else
      let o := output { s1 with acknow := true } r.es1
      ({ o.1 with delack := false }, o.2)
  else
    let rcvWnd := Nat.max r.space (diff s.rcvAdv s.rcvNxt).toNat
    if s.st = .synRcvd && g.ackf && (seqLEQ g.ack s.una || seqGT g.ack s.max) then (s, [])
    else if s.st = .synSent then synSentBlk s g r rcvWnd
    else if g.rst then (rstBlk s g r rcvWnd, [])
    else if r.paws then (if g.tlen ≠ 0 then dropAfterAck s g r else (s, []))
    else syncBlk s g r rcvWnd

/-! ## User requests and timers -/

/-- `tcp_usrclosed` (src/ofp_tcp_usrreq.c:1785-1839). -/
def usrClosed (s : Tcb) : Tcb :=
  match s.st with
  | .closed => tcpClose s
  | .listen => tcpClose { s with st := .closed }
  | .synSent => { s with needFin := true }
  | .synRcvd => { s with needFin := true }
  | .established => { s with st := .finWait1 }
  | .closeWait => { s with st := .lastAck }
  | _ => s

/-- An event of the life of a connection. -/
inductive Ev where
  /-- `ofp_send`/`ofp_write` accepted by the socket: `tcp_usr_send`, src/ofp_tcp_usrreq.c:786-868. -/
  | write (d : List UInt8) (es : List Env)
  /-- `ofp_send` with MSG_OOB: `tcp_usr_send`, src/ofp_tcp_usrreq.c:869-912. -/
  | oob (d : List UInt8) (es : List Env)
  /-- `ofp_shutdown(SHUT_WR)` or `ofp_close`: `tcp_usr_shutdown` (719-747), `tcp_disconnect` (1745-1774). -/
  | close (es : List Env)
  /-- A segment arrives. -/
  | seg (g : Seg) (r : REnv)
  /-- `ofp_tcp_timer_rexmt` (src/ofp_tcp_timer.c:420-560), not the last time. -/
  | rexmtTimer (es : List Env)
  /-- `ofp_tcp_timer_persist` (src/ofp_tcp_timer.c:354-417), not the last time. -/
  | persistTimer (es : List Env)
  /-- `ofp_tcp_timer_delack` (src/ofp_tcp_timer.c:154-186). -/
  | delackTimer (es : List Env)
  /-- `tcp_usr_rcvd` (src/ofp_tcp_usrreq.c:752-778): the application has read. -/
  | rcvd (es : List Env)
  /-- `ofp_tcp_mtudisc` (src/ofp_tcp_subr.c:1746-1785). -/
  | mtudisc (es : List Env)
  /-- The connection is dropped: keep-alive, too many retransmissions, linger 0: `ofp_tcp_drop`. -/
  | drop (es : List Env)
deriving Repr, DecidableEq

/-- Clear TF_FORCEDATA after the forced output (src/ofp_tcp_timer.c:405, src/ofp_tcp_usrreq.c:906). -/
def unforce (p : Tcb × List Pkt) : Tcb × List Pkt := ({ p.1 with force := false }, p.2)

/-- One event.  `ofp_sosend_generic` (src/ofp_uipc_socket.c:1121-1125) refuses data after `shutdown`; the handlers return at
once for a dropped connection, and for a timer that is not active. -/
def step (s : Tcb) (ev : Ev) : Tcb × List Pkt :=
  if s.dead || s.hung then (s, [])
  else match ev with
  | .write d es =>
    if s.cantSend then (s, []) else output { s with buf := s.buf ++ d, written := s.written ++ d } es
  | .oob d es =>
    if s.cantSend then (s, [])
    else unforce (output { s with buf := s.buf ++ d, written := s.written ++ d, force := true } es)
  | .close es =>
    let s1 := usrClosed { s with cantSend := true }
    if s1.dead then (s1, []) else output s1 es
  | .seg g r => doSegment s g r
  | .rexmtTimer es =>
    if s.rexmt then output { s with rexmt := false, nxt := s.una, recover := s.max, acknow := true } es else (s, [])
  | .persistTimer es => if s.persist then unforce (output { s with force := true } es) else (s, [])
  | .delackTimer es => output { s with acknow := true } es
  | .rcvd es => output s es
  | .mtudisc es =>
    output { s with nxt := s.una, recover := s.max, fastrec := s.fastrec && !s.sackPermit } es
  | .drop es => tcpDrop s es

/-- A history. -/
def run (s : Tcb) : List Ev → Tcb × List Pkt
  | [] => (s, [])
  | ev :: evs => ((run (step s ev).1 evs).1, (step s ev).2 ++ (run (step s ev).1 evs).2)

end Verif.Snd

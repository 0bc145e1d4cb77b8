import Verif.Tcp.Seq
import Verif.Sockbuf.Model
/-!
# Model of the TCP receive path

`ofp_tcp_reass` and `ofp_tcp_reass_flush` (`src/ofp_tcp_reass.c`) and the parts of `ofp_tcp_do_segment`
(`src/ofp_tcp_input.c`) that decide what happens to the text of a segment: header prediction (in-order data),
trimming to the receive window, the `dodata` section and FIN processing.

A segment event carries what the rest of `ofp_tcp_do_segment` computes: the receive window `wnd` (`tp->rcv_wnd`,
which depends on what was advertised), whether the conditions for header prediction other than those written out
hold (`pred`), whether the segment's ACK completes the handshake (`ack`), and whether the segment-queue zone has an
entry left (`zone`). Segments dropped earlier (bad checksum, PAWS, RST, SYN, ...) are simply not events.

Not modelled: urgent data, SACK bookkeeping (see `Verif/Sack`), timers, output. The socket buffer is a queue of at
most 63 packets (`Verif/Sockbuf`: `sockbuf_is_queue` proves that the ring of the code is that queue).
Connection states are grouped: `synRcvd`; `open` = ESTABLISHED, FIN_WAIT_1, FIN_WAIT_2; `finRcvd` = CLOSE_WAIT,
CLOSING, LAST_ACK (TIME_WAIT segments are processed elsewhere).
-/
namespace Verif.Tcp
open Verif.Sockbuf (Pkt)

/-- `struct tseg_qent` (include/ofpi_tcp_var.h:50-60): sequence number and FIN flag live in the TCP header in front
of the packet data (`tqe_th`), `len` is `tqe_len`; `stack` marks the entry that lives on the stack of the current
call (`&tqs`). -/
structure QEnt where
  seq : BitVec 32
  len : Nat
  fin : Bool
  pkt : Pkt
  stack : Bool
deriving Repr, DecidableEq

/-- Groups of connection states, see above. -/
inductive Phase | synRcvd | open | finRcvd
deriving Repr, DecidableEq

/-- `TCPS_HAVEESTABLISHED` (include/ofpi_tcp_fsm.h:77). -/
def Phase.est : Phase → Bool
  | .synRcvd => false
  | _ => true

/-- The receive state of a connection: `rcv_nxt`, `t_segq`, `t_segqlen`, the receive socket buffer (packets, in
order), `SBS_CANTRCVMORE`, and for the specification the packets freed and the bytes the application has read. -/
structure Rcv where
  phase : Phase
  nxt : BitVec 32
  segq : List QEnt
  segqlen : Int
  buf : List Pkt
  cantrcv : Bool
  freed : List Nat
  readBytes : List UInt8
deriving Repr, DecidableEq

/-- Constants of a connection: packet-pool buffer size (for `sbspace`) and `so_rcv.sb_hiwat / t_maxseg`. -/
structure Cfg where
  bufSize : Nat
  maxq : Nat

/-- A segment: sequence number, TCP payload, bytes behind the IP datagram in the packet (Ethernet padding), FIN flag,
packet handle. -/
structure Seg where
  id : Nat
  seq : BitVec 32
  payload : List UInt8
  pad : List UInt8
  fin : Bool
  wnd : Nat
  pred : Bool
  ack : Bool
  zone : Bool
deriving Repr, DecidableEq

/-- `odp_packet_free`. -/
def Rcv.free (s : Rcv) (p : Pkt) : Rcv := { s with freed := s.freed ++ [p.id] }

/-- `sbspace` (include/ofpi_sockbuf.h:214-220). -/
def Rcv.space (c : Cfg) (s : Rcv) : Nat := c.bufSize * (63 - s.buf.length)

/-- `if (sb_state & SBS_CANTRCVMORE) odp_packet_free(m); else ofp_sbappendstream_locked(...)`
(src/ofp_tcp_reass.c:351-354, src/ofp_tcp_input.c:2813-2817, 1722-1735); a full buffer frees the packet
(src/ofp_uipc_sockbuf.c:115-119). -/
def Rcv.append (s : Rcv) (p : Pkt) : Rcv :=
  if s.cantrcv then s.free p
  else if s.buf.length < 63 then { s with buf := s.buf ++ [p] }
  else s.free p

/-- `odp_packet_pull_head(m, n)`. -/
def pull (p : Pkt) (n : Nat) : Pkt := { p with data := p.data.drop n }

/-- The loop that trims or removes the queue entries a new segment ending at `e` overlaps
(src/ofp_tcp_reass.c:297-315): what stays and what is removed. -/
def trimSucc (e : BitVec 32) : List QEnt → List QEnt × List QEnt
  | [] => ([], [])
  | q :: qs =>
    if diff e q.seq ≤ 0 then (q :: qs, [])
    else if diff e q.seq < q.len then
      let i := (diff e q.seq).toNat
      ({ q with seq := q.seq + BitVec.ofNat 32 i, len := q.len - i, pkt := pull q.pkt i } :: qs, [])
    else
      let r := trimSucc e qs
      (r.1, q :: r.2)

/-- The `do ... while` loop presenting data (src/ofp_tcp_reass.c:345-361): new `rcv_nxt`, FIN flag of the last entry
presented, the entries presented, the entries left. Nothing is presented when the first entry is not at `rcv_nxt`
(src/ofp_tcp_reass.c:338-340). -/
def presentLoop : BitVec 32 → Bool → List QEnt → BitVec 32 × Bool × List QEnt × List QEnt
  | n, f, [] => (n, f, [], [])
  | n, f, q :: qs =>
    if q.seq = n then
      let r := presentLoop (n + BitVec.ofNat 32 q.len) q.fin qs
      (r.1, r.2.1, q :: r.2.2.1, r.2.2.2)
    else (n, f, [], q :: qs)

/-- Label `present` of `ofp_tcp_reass` (src/ofp_tcp_reass.c:331-366): new state and returned FIN flag. -/
def present (s : Rcv) : Rcv × Bool :=
  if s.phase.est = false then (s, false)
  else
    let r := presentLoop s.nxt false s.segq
    let s1 := { s with nxt := r.1, segq := r.2.2.2, segqlen := s.segqlen - r.2.2.1.length }
    (r.2.2.1.foldl (fun s q => s.append q.pkt) s1, r.2.1)

/-- `i = p->tqe_th->th_seq + p->tqe_len - th->th_seq` for the preceding entry `p`, the last of `pre`, if there is one
(src/ofp_tcp_reass.c:262-265). -/
def overlap (pre : List QEnt) (seq : BitVec 32) : Int :=
  match pre.getLast? with
  | none => 0
  | some p => diff (p.seq + BitVec.ofNat 32 p.len) seq

/-- `ofp_tcp_reass` with a segment (src/ofp_tcp_reass.c:166-366): `seq`, `tlen`, FIN flag of its header and the packet
`m` (TCP payload first). Returns the state and the FIN flag. -/
def reass (c : Cfg) (s : Rcv) (seq : BitVec 32) (tlen : Nat) (fin : Bool) (m : Pkt) (zone : Bool) : Rcv × Bool :=
  let missing := seq = s.nxt ∧ s.phase.est = true
  if ¬ missing ∧ s.segqlen ≥ (c.maxq : Int) + 1 then (s.free m, false)
  else if zone = false ∧ ¬ missing then (s.free m, false)
  else
    let stack := !zone
    let s := { s with segqlen := s.segqlen + 1 }
    -- p = last of `pre`, q = first of `post`
    let pre := s.segq.takeWhile (fun q => !seqGT q.seq seq)
    let post := s.segq.dropWhile (fun q => !seqGT q.seq seq)
    let i : Int := overlap pre seq
    if i > 0 ∧ i ≥ (tlen : Int) then
      present { (s.free m) with segqlen := s.segqlen - 1 }
    else
      let k := i.toNat
      let seq := seq + BitVec.ofNat 32 k
      let tlen := tlen - k
      let m := pull m k
      let r := trimSucc (seq + BitVec.ofNat 32 tlen) post
      let te : QEnt := ⟨seq, tlen, fin, m, stack⟩
      present { s with segq := pre ++ te :: r.1, segqlen := s.segqlen - r.2.length,
                       freed := s.freed ++ r.2.map (fun q => q.pkt.id) }

/-- `ofp_tcp_reass_flush` (src/ofp_tcp_reass.c:135-151): the entries are freed, the packets they hold are not. -/
def flushq (s : Rcv) : Rcv := { s with segq := [], segqlen := s.segqlen - s.segq.length }

/-- FIN processing (src/ofp_tcp_input.c:2860-2916). -/
def finStep (s : Rcv) : Rcv :=
  { s with cantrcv := true, nxt := s.nxt + 1, phase := .finRcvd }

/-- Label `dodata` (src/ofp_tcp_input.c:2762-2916); `tlen`, `thfin` (FIN bit of the local variable `thflags`) and `m`
after trimming, `hfin` the FIN bit of the header (`th->th_flags`), which is what is used once data are accepted. -/
def dodata (c : Cfg) (s : Rcv) (seq : BitVec 32) (tlen : Nat) (thfin hfin : Bool) (m : Pkt) (zone : Bool) : Rcv :=
  if tlen ≠ 0 ∧ s.phase = .finRcvd then s.free m
  else if tlen ≠ 0 ∨ thfin = true then
    if tlen ≤ s.space c then
      if seq = s.nxt ∧ s.segq = [] ∧ s.phase.est = true then
        let s := { s with nxt := s.nxt + BitVec.ofNat 32 tlen }
        let s := s.append m
        if hfin then finStep s else s
      else
        let r := reass c s seq tlen hfin m zone
        if r.2 then finStep r.1 else r.1
    else s.free m
  else s.free m

/-- Completion of the handshake and what follows (src/ofp_tcp_input.c:2245-2281, 2762-2916). -/
def afterTrim (c : Cfg) (s : Rcv) (seq : BitVec 32) (tlen : Nat) (thfin hfin : Bool) (m : Pkt) (ack zone : Bool) : Rcv :=
  if s.phase = .synRcvd ∧ ack = true then
    let s := { s with phase := .open }
    if tlen = 0 ∧ thfin = false then (present s).1.free m
    else dodata c s seq tlen thfin hfin m zone
  else dodata c s seq tlen thfin hfin m zone

/-- Trimming at the right edge of the window (src/ofp_tcp_input.c:2150-2182). The FIN bit is cleared in `thflags`
only. -/
def trimRight (c : Cfg) (s : Rcv) (seq : BitVec 32) (tlen : Nat) (thfin hfin : Bool) (m : Pkt) (wnd : Nat)
    (ack zone : Bool) : Rcv :=
  let over := diff (seq + BitVec.ofNat 32 tlen) (s.nxt + BitVec.ofNat 32 wnd)
  if over > 0 then
    if over ≥ tlen ∧ ¬ (wnd = 0 ∧ seq = s.nxt) then s.free m
    else
      let j : Nat := over.toNat
      afterTrim c s seq (tlen - j) false hfin { m with data := m.data.take (m.data.length - j) } ack zone
  else afterTrim c s seq tlen thfin hfin m ack zone

/-- Trimming at the left edge of the window (src/ofp_tcp_input.c:2080-2124). -/
def trimLeft (c : Cfg) (s : Rcv) (g : Seg) : Rcv :=
  let m : Pkt := ⟨g.id, g.payload ++ g.pad⟩
  let tlen := g.payload.length
  let todrop := diff s.nxt g.seq
  if todrop > 0 then
    if todrop > tlen ∨ (todrop = tlen ∧ g.fin = false) then
      trimRight c s (g.seq + BitVec.ofNat 32 tlen) 0 false g.fin (pull m tlen) g.wnd g.ack g.zone
    else
      let k : Nat := todrop.toNat
      trimRight c s (g.seq + BitVec.ofNat 32 k) (tlen - k) g.fin g.fin (pull m k) g.wnd g.ack g.zone
  else trimRight c s g.seq tlen g.fin g.fin m g.wnd g.ack g.zone

/-- A segment arrives: header prediction (src/ofp_tcp_input.c:1496-1505 and 1632-1745), otherwise the slow path. -/
def segment (c : Cfg) (s : Rcv) (g : Seg) : Rcv :=
  let m : Pkt := ⟨g.id, g.payload ++ g.pad⟩
  let tlen := g.payload.length
  if s.phase = .open ∧ g.pred = true ∧ g.seq = s.nxt ∧ g.fin = false ∧ s.segq = [] ∧ tlen ≠ 0 ∧ tlen ≤ s.space c then
    { s with nxt := s.nxt + BitVec.ofNat 32 tlen }.append m
  else trimLeft c s g

/-- Bytes the application takes out of the buffer with a read of `n` bytes, and the packets left
(`Verif.Sockbuf.readLoop_spec` proves the copy loop of `ofp_soreceive_generic` does this). -/
def readBuf : Nat → List Pkt → List UInt8 × List Pkt × List Nat
  | 0, b => ([], b, [])
  | _, [] => ([], [], [])
  | n + 1, p :: ps =>
    if p.data.length > n + 1 then (p.data.take (n + 1), pull p (n + 1) :: ps, [])
    else
      let r := readBuf (n + 1 - p.data.length) ps
      (p.data ++ r.1, r.2.1, p.id :: r.2.2)

/-- The application reads up to `n` bytes. -/
def appRead (s : Rcv) (n : Nat) : Rcv :=
  let r := readBuf n s.buf
  { s with readBytes := s.readBytes ++ r.1, buf := r.2.1, freed := s.freed ++ r.2.2 }

/-- What can happen to a connection. -/
inductive Ev
  | seg (g : Seg)
  | read (n : Nat)

/-- One event. -/
def step (c : Cfg) (s : Rcv) : Ev → Rcv
  | .seg g => segment c s g
  | .read n => appRead s n

/-- A new connection expecting sequence number `n`. -/
def Rcv.init (ph : Phase) (n : BitVec 32) : Rcv := ⟨ph, n, [], 0, [], false, [], []⟩

end Verif.Tcp

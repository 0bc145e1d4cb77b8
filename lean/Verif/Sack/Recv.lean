import Verif.Tcp.RcvMain
import Verif.Sack.Spec
/-!
# Model of the receiver's SACK report (`src/ofp_tcp_sack.c`, `src/ofp_tcp_input.c`)

`rcv_numsacks` and `sackblks[]` are one list.  The functions ending in `S` follow the control flow of the
functions of `Verif/Tcp/RcvModel.lean` and compute the list after the segment.
-/
namespace Verif.Sack
open Verif.Tcp
open Verif.Sockbuf (Pkt)

/-- The loop of `ofp_tcp_update_sack_list` (src/ofp_tcp_sack.c:172-197): the head block and the saved blocks. -/
def mergeLoop (nxt : BitVec 32) : List Blk → Blk → Blk × List Blk
  | [], h => (h, [])
  | b :: bs, h =>
    if seqGEQ b.start b.stop || seqLEQ b.start nxt then mergeLoop nxt bs h
    else if seqLEQ h.start b.stop && seqGEQ h.stop b.start then
      mergeLoop nxt bs ⟨if seqGT h.start b.start then b.start else h.start,
        if seqLT h.stop b.stop then b.stop else h.stop⟩
    else
      let r := mergeLoop nxt bs h
      (r.1, b :: r.2)

/-- `ofp_tcp_update_sack_list` (src/ofp_tcp_sack.c:145-227); `OFP_MAX_SACK_BLKS` is 6
(include/ofpi_tcp_var.h). -/
def updateList (nxt : BitVec 32) (B : List Blk) (start stop : BitVec 32) : List Blk :=
  let r := mergeLoop nxt B ⟨start, stop⟩
  if seqGT r.1.start nxt then
    r.1 :: r.2.take (if r.2.length ≥ 6 then r.2.length - 1 else r.2.length)
  else r.2

/-- The length `*tlenp` that `ofp_tcp_reass` leaves to its caller (src/ofp_tcp_reass.c:206-283): 0 when the
segment is dropped, unchanged for a duplicate, without the bytes the preceding entry has otherwise. -/
def reassT (c : Cfg) (s : Rcv) (seq : BitVec 32) (tlen : Nat) (zone : Bool) : Nat :=
  let missing := seq = s.nxt ∧ s.phase.est = true
  if ¬ missing ∧ s.segqlen ≥ (c.maxq : Int) + 1 then 0
  else if zone = false ∧ ¬ missing then 0
  else
    let pre := s.segq.takeWhile (fun q => !seqGT q.seq seq)
    let i : Int := overlap pre seq
    if i > 0 ∧ i ≥ (tlen : Int) then tlen else tlen - i.toNat

/-- `if (tlen > 0 && (tp->t_flags & TF_SACK_PERMIT)) ofp_tcp_update_sack_list(tp, save_start, save_start + tlen)`
(src/ofp_tcp_input.c:2831-2834). -/
def report (perm : Bool) (nxt : BitVec 32) (B : List Blk) (start : BitVec 32) (tlen : Nat) : List Blk :=
  if tlen > 0 ∧ perm = true then updateList nxt B start (start + BitVec.ofNat 32 tlen) else B

/-- The SACK list after label `dodata` (src/ofp_tcp_input.c:2762-2851), cf. `Verif.Tcp.dodata`. -/
def dodataS (c : Cfg) (perm : Bool) (s : Rcv) (B : List Blk) (seq : BitVec 32) (tlen : Nat) (thfin hfin : Bool)
    (m : Pkt) (zone : Bool) : List Blk :=
  if tlen ≠ 0 ∧ s.phase = .finRcvd then B
  else if tlen ≠ 0 ∨ thfin = true then
    if tlen ≤ s.space c then
      if seq = s.nxt ∧ s.segq = [] ∧ s.phase.est = true then
        report perm (s.nxt + BitVec.ofNat 32 tlen) B seq tlen
      else report perm (reass c s seq tlen hfin m zone).1.nxt B seq (reassT c s seq tlen zone)
    else B
  else B

/-- cf. `Verif.Tcp.afterTrim` (src/ofp_tcp_input.c:2245-2281). -/
def afterTrimS (c : Cfg) (perm : Bool) (s : Rcv) (B : List Blk) (seq : BitVec 32) (tlen : Nat) (thfin hfin : Bool)
    (m : Pkt) (ack zone : Bool) : List Blk :=
  if s.phase = .synRcvd ∧ ack = true then
    if tlen = 0 ∧ thfin = false then B
    else dodataS c perm { s with phase := .open } B seq tlen thfin hfin m zone
  else dodataS c perm s B seq tlen thfin hfin m zone

/-- cf. `Verif.Tcp.trimRight` (src/ofp_tcp_input.c:2150-2182). -/
def trimRightS (c : Cfg) (perm : Bool) (s : Rcv) (B : List Blk) (seq : BitVec 32) (tlen : Nat) (thfin hfin : Bool)
    (m : Pkt) (wnd : Nat) (ack zone : Bool) : List Blk :=
  let over := diff (seq + BitVec.ofNat 32 tlen) (s.nxt + BitVec.ofNat 32 wnd)
  if over > 0 then
    if over ≥ tlen ∧ ¬ (wnd = 0 ∧ seq = s.nxt) then B
    else
      let j : Nat := over.toNat
      afterTrimS c perm s B seq (tlen - j) false hfin { m with data := m.data.take (m.data.length - j) } ack zone
  else afterTrimS c perm s B seq tlen thfin hfin m ack zone

/-- cf. `Verif.Tcp.trimLeft` (src/ofp_tcp_input.c:2080-2124). -/
def trimLeftS (c : Cfg) (perm : Bool) (s : Rcv) (B : List Blk) (g : Seg) : List Blk :=
  let m : Pkt := ⟨g.id, g.payload ++ g.pad⟩
  let tlen := g.payload.length
  let todrop := diff s.nxt g.seq
  if todrop > 0 then
    if todrop > tlen ∨ (todrop = tlen ∧ g.fin = false) then
      trimRightS c perm s B (g.seq + BitVec.ofNat 32 tlen) 0 false g.fin (pull m tlen) g.wnd g.ack g.zone
    else
      let k : Nat := todrop.toNat
      trimRightS c perm s B (g.seq + BitVec.ofNat 32 k) (tlen - k) g.fin g.fin (pull m k) g.wnd g.ack g.zone
  else trimRightS c perm s B g.seq tlen g.fin g.fin m g.wnd g.ack g.zone

/-- The SACK list after a segment, cf. `Verif.Tcp.segment`; header prediction empties it
(src/ofp_tcp_input.c:1642-1644, src/ofp_tcp_sack.c:232-241). -/
def segmentS (c : Cfg) (perm : Bool) (s : Rcv) (B : List Blk) (g : Seg) : List Blk :=
  let tlen := g.payload.length
  if s.phase = .open ∧ g.pred = true ∧ g.seq = s.nxt ∧ g.fin = false ∧ s.segq = [] ∧ tlen ≠ 0 ∧ tlen ≤ s.space c then
    if perm then [] else B
  else trimLeftS c perm s B g

/-- Receive state and SACK report of a connection, for arbitrary segments (as `Verif.Tcp.AnyHist`). -/
inductive RHist (c : Cfg) (perm : Bool) : Rcv → List Blk → Prop
  | init (ph : Phase) (n : BitVec 32) : RHist c perm (Rcv.init ph n) []
  | seg (s : Rcv) (B : List Blk) (g : Seg) : RHist c perm s B → diff g.seq s.nxt + g.payload.length < 2 ^ 31 →
      -2 ^ 31 < diff g.seq s.nxt → g.wnd ≤ 2 ^ 30 →
      RHist c perm (segment c s g) (segmentS c perm s B g)
  | read (s : Rcv) (B : List Blk) (n : Nat) : RHist c perm s B → RHist c perm (appRead s n) B

/-! ## Specification -/

/-- The receiver has byte `x`: it is in the reassembly queue, or below `rcv_nxt` (delivered). -/
def Held (s : Rcv) (x : BitVec 32) : Prop :=
  (∃ q ∈ s.segq, off q.seq x < q.len) ∨ (0 < off x s.nxt ∧ off x s.nxt ≤ 2 ^ 31)

/-- Two blocks neither overlap nor touch: a byte next to one is not next to or in the other. -/
def Apart (p q : Blk) : Prop :=
  off p.start p.stop < off p.start q.start ∧ off p.start q.start < off p.start q.stop

end Verif.Sack

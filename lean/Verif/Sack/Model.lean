import Verif.Tcp.Seq
import Verif.Sack.Spec
/-!
# Model of the sender's SACK scoreboard (`src/ofp_tcp_sack.c`)

Holes are list nodes in the order of the tail queue; `id` stands for the node's address.  Not
modelled: statistics, the global hole counter (folded into the allocation oracle `Env.room`,
together with exhaustion of the memory zone), `sackhint.last_sack_ack`, byte order conversion.
-/
namespace Verif.Sack
open Verif.Tcp

/-- `struct sackhole` (include/ofpi_tcp_var.h). -/
structure Hole where
  id : Nat
  start : BitVec 32
  stop : BitVec 32
  rxmit : BitVec 32
deriving DecidableEq, Repr

/-- Limits: `net.inet.tcp.sack.maxholes`, and for the n-th attempt whether the global limit and the
memory zone allow one more hole (src/ofp_tcp_sack.c:251-259). -/
structure Env where
  limit : Int
  room : Nat → Bool

/-- Counters: `snd_numholes`, `sackhint.nexthole`, `sackhint.sack_bytes_rexmit`
(include/ofpi_tcp_var.h); `fresh` counts attempts to allocate (and names the new hole), `fails`
counts the failed ones. -/
structure Ctl where
  num : Int
  hint : Option Nat
  bytes : Int
  fresh : Nat
  fails : Nat
deriving DecidableEq, Repr

/-- `tcp_sackhole_alloc` (src/ofp_tcp_sack.c:246-269). -/
def alloc (E : Env) (c : Ctl) (start stop : BitVec 32) : Ctl × Option Hole :=
  if c.num ≥ E.limit || !E.room c.fresh then
    ({ c with
       fresh := c.fresh + 1
       fails := c.fails + 1 }, none)
  else
    ({ c with
       num := c.num + 1
       fresh := c.fresh + 1 }, some ⟨c.fresh, start, stop, start⟩)

/-- The hint update of `tcp_sackhole_insert` (src/ofp_tcp_sack.c:308-309). -/
def hintIns (c : Ctl) (id : Nat) : Ctl :=
  { c with
    hint := if c.hint.isNone then some id else c.hint }

/-- `tcp_sackhole_remove` of a hole followed by `right` (src/ofp_tcp_sack.c:317-330), with
`tcp_sackhole_free` (265-278). -/
def hintRem (c : Ctl) (id : Nat) (right : List Hole) : Ctl :=
  { c with
    hint := if c.hint = some id then right.head?.map Hole.id else c.hint
    num := c.num - 1 }

/-- `cur->rxmit - cur->start` as the `int` added to or taken from the counter. -/
def rex (h : Hole) : Int := diff h.rxmit h.start

/-- Outcome of one round of the loop for the current hole. -/
inductive Cut
  /-- done with this block -/
  | block
  /-- the hole was deleted (left to the loop) -/
  | gone
  /-- the block was applied: new current hole, new holes to its right, counters -/
  | upd (cur : Hole) (right : List Hole) (c : Ctl)
  /-- block lies before the hole -/
  | before

/-- Split of the current hole (src/ofp_tcp_sack.c:506-518). -/
def split (E : Env) (b : Blk) (cur : Hole) (right : List Hole) (c : Ctl) : Cut :=
  let p := alloc E c b.stop cur.stop
  match p.2 with
  | none => .upd cur right p.1
  | some t =>
    let c1 := hintIns p.1 t.id
    let t1 := if seqGT cur.rxmit t.rxmit then { t with
      rxmit := cur.rxmit } else t
    let c2 := if seqGT cur.rxmit t.rxmit then { c1 with
      bytes := c1.bytes + rex t1 } else c1
    .upd { cur with
      stop := b.start
      rxmit := seqMin cur.rxmit b.start } (t1 :: right) c2

/-- One block against the current hole (src/ofp_tcp_sack.c:458-521). -/
def cut (E : Env) (b : Blk) (cur : Hole) (right : List Hole) (c : Ctl) : Cut :=
  if seqGEQ b.start cur.stop then .block
  else if seqLEQ b.stop cur.start then .before
  else
    let c1 := { c with
      bytes := c.bytes - rex cur }
    if seqLEQ b.start cur.start then
      if seqGEQ b.stop cur.stop then .gone
      else .upd { cur with
        start := b.stop
        rxmit := seqMax cur.rxmit b.stop } right c1
    else if seqGEQ b.stop cur.stop then
      .upd { cur with
        stop := b.start
        rxmit := seqMin cur.rxmit b.start } right c1
    else split E b cur right c1

/-- The rounds of the while-loop (src/ofp_tcp_sack.c:457-531) with block `b`.  `left` holds the
current hole and the ones before it, last first; `right` the holes behind. -/
def sweepBlk (E : Env) (b : Blk) : List Hole → List Hole → Ctl → List Hole × List Hole × Ctl
  | [], right, c => ([], right, c)
  | cur :: left, right, c =>
    match cut E b cur right c with
    | .block => (cur :: left, right, c)
    | .before => sweepBlk E b left (cur :: right) c
    | .gone => sweepBlk E b left right (hintRem { c with
        bytes := c.bytes - rex cur } cur.id right)
    | .upd cur1 right1 c1 =>
      let c2 := { c1 with
        bytes := c1.bytes + rex cur1 }
      if seqLEQ b.start cur1.start then sweepBlk E b left (cur1 :: right1) c2
      else (cur1 :: left, right1, c2)

/-- The while-loop (src/ofp_tcp_sack.c:457-531) over the blocks, highest first. -/
def sweep (E : Env) : List Blk → List Hole → List Hole → Ctl → List Hole × Ctl
  | [], left, right, c => (left.reverse ++ right, c)
  | b :: bs, left, right, c =>
    let p := sweepBlk E b left right c
    sweep E bs p.1 p.2.1 p.2.2

/-- Inner loop of the exchange sort (src/ofp_tcp_sack.c:387-393): position i against all later. -/
def pass (x : Blk) : List Blk → Blk × List Blk
  | [] => (x, [])
  | y :: r =>
    if seqGT x.stop y.stop then ((pass y r).1, x :: (pass y r).2)
    else ((pass x r).1, y :: (pass x r).2)

/-- Exchange sort of the first `n` positions (src/ofp_tcp_sack.c:386-394). -/
def exsort : Nat → List Blk → List Blk
  | 0, l => l
  | _ + 1, [] => []
  | n + 1, x :: r => (pass x r).1 :: exsort n (pass x r).2

/-- The parts of `struct tcpcb` (include/ofpi_tcp_var.h) the scoreboard uses. -/
structure Tcb where
  una : BitVec 32
  max : BitVec 32
  fack : BitVec 32
  holes : List Hole
  ctl : Ctl

/-- Is a received SACK block taken into account (src/ofp_tcp_sack.c:365-370)? -/
def accept (una max w : BitVec 32) (b : Blk) : Bool :=
  seqGT b.stop b.start && seqGT b.start una && seqGT b.start w && seqLT b.start max &&
    seqGT b.stop una && seqLEQ b.stop max

/-- The blocks collected (src/ofp_tcp_sack.c:346-373). -/
def collect (s : Tcb) (w : BitVec 32) (sacks : List Blk) : List Blk :=
  (if seqLT s.una w && !s.holes.isEmpty then [⟨s.una, w⟩] else []) ++
    sacks.filter (accept s.una s.max w)

/-- The sweep and the final state, given the blocks left (highest first). -/
def finish (E : Env) (s : Tcb) (fack : BitVec 32) (holes : List Hole) (c : Ctl) (bs : List Blk) :
    Tcb :=
  let r := sweep E bs holes.reverse [] c
  { s with
    fack := fack
    holes := r.1
    ctl := r.2 }

/-- `fack` advanced by the first of the remaining blocks (src/ofp_tcp_sack.c:442-444, 446-448). -/
def advance (fack : BitVec 32) : List Blk → BitVec 32
  | [] => fack
  | b :: _ => if seqLT fack b.stop then b.stop else fack

/-- src/ofp_tcp_sack.c:395-531, blocks sorted, highest first. -/
def apply (E : Env) (s : Tcb) (fack : BitVec 32) : List Blk → Tcb
  | [] => s
  | top :: rest =>
    if seqLT fack top.start then
      let p := alloc E s.ctl fack top.start
      match p.2 with
      | some h => finish E s top.stop (s.holes ++ [h]) (hintIns p.1 h.id) rest
      | none =>
        let rem := (top :: rest).dropWhile fun b => seqLT fack b.start
        finish E s (advance fack rem) s.holes p.1 rem
    else finish E s (advance fack (top :: rest)) s.holes s.ctl (top :: rest)

/-- `ofp_tcp_sack_doack` (src/ofp_tcp_sack.c:337-532). -/
def doack (E : Env) (s : Tcb) (w : BitVec 32) (sacks : List Blk) : Tcb :=
  let bs := collect s w sacks
  let fack := if s.holes.isEmpty then seqMax s.una w else s.fack
  apply E s fack (exsort bs.length bs).reverse

/-- `ofp_tcp_free_sackholes` (src/ofp_tcp_sack.c:537-550): holes removed one by one from the head. -/
def freeLoop : List Hole → Ctl → Ctl
  | [], c => c
  | h :: t, c => freeLoop t (hintRem c h.id t)

/-- `ofp_tcp_free_sackholes` (src/ofp_tcp_sack.c:537-550). -/
def freeHoles (s : Tcb) : Tcb :=
  let c := freeLoop s.holes s.ctl
  { s with
    holes := []
    ctl := { c with
      bytes := 0 } }

/-- The walk of `ofp_tcp_sack_output` (src/ofp_tcp_sack.c:630-637): from the hint on, the first hole
with `rxmit` before `stop`. -/
def nextHole (l : List Hole) (hint : Option Nat) : Option Hole :=
  match hint with
  | none => none
  | some i => (l.dropWhile fun h => h.id != i).find? fun h => seqLT h.rxmit h.stop

/-- `ofp_tcp_sack_output` (src/ofp_tcp_sack.c:622-640): hole to retransmit from, and bytes count;
the hint moves to the hole found. -/
def output (s : Tcb) : Tcb × Option Hole × Int :=
  match nextHole s.holes s.ctl.hint with
  | none => (s, none, s.ctl.bytes)
  | some h => ({ s with
      ctl := { s.ctl with
        hint := some h.id } }, some h, s.ctl.bytes)

/-- `p->rxmit += len; sack_bytes_rexmit += len` (src/ofp_tcp_output.c:1008-1009) for hole `id`. -/
def rexmit (s : Tcb) (id len : Nat) : Tcb :=
  { s with
    holes := s.holes.map fun h => if h.id = id then { h with
      rxmit := h.rxmit + BitVec.ofNat 32 len } else h
    ctl := { s.ctl with
      bytes := s.ctl.bytes + len } }

/-- Acknowledgement processing (src/ofp_tcp_input.c:2305-2318 and the end of the case, where
`snd_una` becomes `th_ack` unless `SEQ_LEQ(th_ack, snd_una)`).  An ACK beyond `snd_max` is ignored. -/
def ackIn (E : Env) (s : Tcb) (w : BitVec 32) (sackOpt : Bool) (sacks : List Blk) : Tcb :=
  if seqGT w s.max then s
  else
    let s1 := if sackOpt || !s.holes.isEmpty then
      doack E s w (if sackOpt then sacks else []) else s
    if seqLEQ w s.una then s1 else { s1 with
      una := w }

/-- The walk of `ofp_tcp_sack_adjust` (src/ofp_tcp_sack.c:662-674). -/
def adjustLoop (nxt fack : BitVec 32) : Hole → List Hole → BitVec 32
  | cur, [] => if seqLT nxt cur.stop then nxt else fack
  | cur, p :: t =>
    if seqLT nxt cur.stop then nxt
    else if seqGEQ nxt p.start then adjustLoop nxt fack p t
    else p.start

/-- `ofp_tcp_sack_adjust` (src/ofp_tcp_sack.c:647-675): the new `snd_nxt`. -/
def adjust (s : Tcb) (nxt : BitVec 32) : BitVec 32 :=
  match s.holes with
  | [] => nxt
  | cur :: t => if seqGEQ nxt s.fack then nxt else adjustLoop nxt s.fack cur t

end Verif.Sack

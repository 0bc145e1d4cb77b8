/-!
# Model of the socket buffer ring

`src/ofp_uipc_sockbuf.c` (put_last, get_first, remove_first, copy_out, sbflush_internal, sbdrop_internal,
sbdroprecord_locked), `include/ofpi_sockbuf.h` (struct sockbuf, sbspace, sballoc, sbfree) and the copy loop of
`ofp_soreceive_generic` in `src/ofp_uipc_socket.c`.

Not modelled: locks (every function below runs under the socket-buffer lock), the event callback
(`packet_accepted_as_event`, taken to refuse the packet, which it does unless the application installed a packet
callback), `sb_mbcnt`/`sb_mcnt` (never read by the modelled functions) and `sb_sndptr*` (never set to anything but
their initial value).
-/
namespace Verif.Sockbuf

/-- An ODP packet: handle and the bytes between its head and tail. -/
structure Pkt where
  id : Nat
  data : List UInt8
deriving Repr, DecidableEq

/-- `SOCKBUF_LEN` (include/ofpi_sockbuf.h:109). -/
def LEN : Nat := 64

/-- `struct sockbuf` (include/ofpi_sockbuf.h:100-135): ring of packet handles, put and get index, byte counter;
`freed` lists the packets given back with `odp_packet_free`, in order. -/
structure SB where
  mb : Nat → Pkt
  put : Nat
  get : Nat
  cc : BitVec 32
  freed : List Nat

/-- A zeroed `struct sockbuf`. -/
def SB.empty : SB := ⟨fun _ => ⟨0, []⟩, 0, 0, 0, []⟩

/-- `next = i + 1; if (next >= SOCKBUF_LEN) next = 0;` (src/ofp_uipc_sockbuf.c:111-113, also 141, 160, 175, 220). -/
def nxt (i : Nat) : Nat := if i + 1 ≥ LEN then 0 else i + 1

/-- `sbspace` (include/ofpi_sockbuf.h:214-220); `bufSize` is `global_param->pkt_pool.buffer_size`. -/
def space (bufSize : Nat) (sb : SB) : Nat :=
  bufSize * (if sb.put ≥ sb.get then LEN - (sb.put - sb.get) - 1 else sb.get - sb.put - 1)

/-- `ofp_sockbuf_put_last` (src/ofp_uipc_sockbuf.c:105-125): when the ring is full the packet is freed and -1
(`false`) returned. -/
def putLast (sb : SB) (p : Pkt) : SB × Bool :=
  if nxt sb.put = sb.get then ({ sb with freed := sb.freed ++ [p.id] }, false)
  else ({ sb with mb := fun i => if i = sb.put then p else sb.mb i, put := nxt sb.put,
                  cc := sb.cc + BitVec.ofNat 32 p.data.length }, true)

/-- `ofp_sbappendaddr_locked` (src/ofp_uipc_sockbuf.c:187-210) without ancillary data: as `putLast`, but a refused
packet stays with the caller. -/
def appendAddr (sb : SB) (p : Pkt) : SB × Bool :=
  if nxt sb.put = sb.get then (sb, false)
  else ({ sb with mb := fun i => if i = sb.put then p else sb.mb i, put := nxt sb.put,
                  cc := sb.cc + BitVec.ofNat 32 p.data.length }, true)

/-- `ofp_sockbuf_get_first` (src/ofp_uipc_sockbuf.c:127-133). -/
def getFirst (sb : SB) : Option Pkt := if sb.get = sb.put then none else some (sb.mb sb.get)

/-- `ofp_sockbuf_remove_first` (src/ofp_uipc_sockbuf.c:135-145). -/
def removeFirst (sb : SB) : SB := if sb.get ≠ sb.put then { sb with get := nxt sb.get } else sb

/-- First loop of `ofp_sockbuf_copy_out` (src/ofp_uipc_sockbuf.c:156-164): skip whole packets. Returns the ring
index and the offset in that packet; `none` if `n` rounds do not suffice. -/
def skipLoop (sb : SB) : Nat → Nat → Nat → Option (Nat × Nat)
  | 0, _, _ => none
  | n + 1, i, off =>
    if i = sb.put then some (i, off)
    else if off ≥ (sb.mb i).data.length then skipLoop sb n (nxt i) (off - (sb.mb i).data.length)
    else some (i, off)

/-- Second loop of `ofp_sockbuf_copy_out` (src/ofp_uipc_sockbuf.c:166-177): the bytes written to `dst`, in order. -/
def copyLoop (sb : SB) : Nat → Nat → Nat → Nat → Option (List UInt8)
  | 0, _, _, _ => none
  | n + 1, i, off, len =>
    if len = 0 ∨ i = sb.put then some []
    else
      let plen := min ((sb.mb i).data.length - off) len
      let r := copyLoop sb n (nxt i) 0 (len - plen)
      match r with
      | none => none
      | some w => some (((sb.mb i).data.drop off).take plen ++ w)

/-- `ofp_sockbuf_copy_out` (src/ofp_uipc_sockbuf.c:152-178); `none` means that a loop went more than once round
the ring. -/
def copyOut (sb : SB) (off len : Nat) : Option (List UInt8) :=
  match skipLoop sb LEN sb.get off with
  | none => none
  | some p => copyLoop sb LEN p.1 p.2 len

/-- `odp_packet_pull_head` on the packet in ring slot `i`. -/
def pullHead (sb : SB) (i n : Nat) : SB :=
  { sb with mb := fun j => if j = i then { (sb.mb i) with data := (sb.mb i).data.drop n } else sb.mb j }

/-- `sbdrop_internal` (src/ofp_uipc_sockbuf.c:302-325); `none` if `n` rounds do not suffice. -/
def dropLoop : Nat → SB → Nat → Option SB
  | 0, _, _ => none
  | n + 1, sb, len =>
    if len = 0 then some sb
    else match getFirst sb with
      | none => some sb
      | some p =>
        if p.data.length > len then
          some { (pullHead sb sb.get len) with cc := sb.cc - BitVec.ofNat 32 len }
        else
          dropLoop n { (removeFirst sb) with cc := sb.cc - BitVec.ofNat 32 p.data.length,
                                             freed := sb.freed ++ [p.id] } (len - p.data.length)

/-- `ofp_sbdrop_locked` (src/ofp_uipc_sockbuf.c:330-336). -/
def drop (sb : SB) (len : Nat) : Option SB := dropLoop LEN sb len

/-- `ofp_sbdroprecord_locked` (src/ofp_uipc_sockbuf.c:350-361). -/
def dropRecord (sb : SB) : SB :=
  match getFirst sb with
  | none => sb
  | some p => { (removeFirst sb) with cc := sb.cc - BitVec.ofNat 32 p.data.length, freed := sb.freed ++ [p.id] }

/-- `sbflush_internal` (src/ofp_uipc_sockbuf.c:215-223): frees the packets; `sb_cc` is not touched. -/
def flushLoop : Nat → SB → Option SB
  | 0, _ => none
  | n + 1, sb =>
    if sb.get = sb.put then some sb
    else flushLoop n { sb with get := nxt sb.get, freed := sb.freed ++ [(sb.mb sb.get).id] }

/-- `ofp_sbflush_locked` (src/ofp_uipc_sockbuf.c:225-230). -/
def flush (sb : SB) : Option SB := flushLoop LEN sb

/-- The copy loop of `ofp_soreceive_generic` (src/ofp_uipc_socket.c:1583-1776) for a stream socket, `mp == NULL`,
no out-of-band mark, no `OFP_MSG_PEEK`, no `OFP_MSG_WAITALL`, buffer large enough for the copies to succeed:
bytes stored in the caller's buffer and the new ring. `resid` is `uio_resid`. -/
def readLoop : Nat → SB → Nat → Option (List UInt8 × SB)
  | 0, _, _ => none
  | n + 1, sb, resid =>
    match getFirst sb with
    | none => some ([], sb)
    | some p =>
      if resid = 0 then some ([], sb)
      else
        let len := min resid p.data.length
        if len = p.data.length then
          match readLoop n { (removeFirst sb) with cc := sb.cc - BitVec.ofNat 32 p.data.length,
                                                   freed := sb.freed ++ [p.id] } (resid - len) with
          | none => none
          | some r => some (p.data.take len ++ r.1, r.2)
        else
          match readLoop n { (pullHead sb sb.get len) with cc := sb.cc - BitVec.ofNat 32 len } (resid - len) with
          | none => none
          | some r => some (p.data.take len ++ r.1, r.2)

/-- A read of up to `n` bytes from a non-empty stream socket buffer. -/
def read (sb : SB) (n : Nat) : Option (List UInt8 × SB) := readLoop (LEN + 1) sb n

/-- The same loop with `OFP_MSG_PEEK` (src/ofp_uipc_socket.c:1656-1663, 1684-1686): the statement advancing `m` to
the next packet is commented out, so `m` stays the first packet and only `moff` changes. `none`: still looping
after `n` rounds. -/
def peekLoop : Nat → Pkt → Nat → Nat → Option (List UInt8)
  | 0, _, _, _ => none
  | n + 1, p, moff, resid =>
    if resid = 0 then some []
    else
      let len := min resid (p.data.length - moff)
      let moff' := if len = p.data.length - moff then 0 else moff + len
      match peekLoop n p moff' (resid - len) with
      | none => none
      | some w => some ((p.data.drop moff).take len ++ w)

/-- `recv(..., OFP_MSG_PEEK)` of up to `n` bytes, allowing `fuel` rounds of the loop. -/
def peek (fuel : Nat) (sb : SB) (n : Nat) : Option (List UInt8) :=
  match getFirst sb with
  | none => some []
  | some p => peekLoop fuel p 0 n

/-- `ofp_soreceive_dgram` (src/ofp_uipc_socket.c:1846-1930) once a datagram is held (`none`: it would block or
report an error): the bytes copied, whether `MSG_TRUNC` is set, the ring afterwards. The flags passed in, among them
`OFP_MSG_PEEK`, play no part. `pay p` is the UDP payload of packet `p` (`uh_ulen - 8` bytes behind the UDP header:
UDP input stores the packet with its headers). -/
def recvDgram (pay : Pkt → List UInt8) (sb : SB) (n : Nat) : Option (List UInt8 × Bool × SB) :=
  if sb.put = sb.get then none
  else
    let p := sb.mb sb.get
    some ((pay p).take n, decide ((pay p).length > n),
      { sb with get := nxt sb.get, cc := sb.cc - BitVec.ofNat 32 p.data.length, freed := sb.freed ++ [p.id] })

/-- Operations on one socket buffer. -/
inductive Op
  | put (p : Pkt)
  | appendAddr (p : Pkt)
  | drop (n : Nat)
  | dropRecord
  | read (n : Nat)
  | flush

/-- One operation; `none` would be a loop that runs round the ring more than once. -/
def step (sb : SB) : Op → Option SB
  | .put p => some (putLast sb p).1
  | .appendAddr p => some (appendAddr sb p).1
  | .drop n => Sockbuf.drop sb n
  | .dropRecord => some (Sockbuf.dropRecord sb)
  | .read n => match Sockbuf.read sb n with
    | none => none
    | some r => some r.2
  | .flush => Sockbuf.flush sb

/-- A history of operations. -/
def run (sb : SB) : List Op → Option SB
  | [] => some sb
  | o :: os => match step sb o with
    | none => none
    | some sb => run sb os

end Verif.Sockbuf

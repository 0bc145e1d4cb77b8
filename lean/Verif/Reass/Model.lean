/-!
# Model of IPv4 reassembly (`src/ofp_reass.c`)

Fragments live in the headroom of their packets and are linked by pointers; here a queue ("chain") is the list of
its fragments and a hash bucket is the list of its chains.  A fragment's length field `ip_len` (after the header
length was subtracted) is the length of its `data`: the packet is assumed contiguous and to contain the
`ip_len - hlen` payload bytes its header announces (`hlen ≤ ip_len`).  The packet buffers themselves (freeing) and
the ICMP error sent by the timeout are not modelled.  `vrf` is the VRF of the interface the packet came from: the code
never looks at it.
-/
namespace Verif.Reass

/-- The four fields that identify a datagram (src/ofp_reass.c:241-244). -/
structure Key where
  id : UInt16
  src : UInt32
  dst : UInt32
  proto : UInt8
deriving DecidableEq, Repr

/-- A received fragment. -/
structure Pkt where
  key : Key
  vrf : Nat := 0
  /-- option bytes: the header has `20 + opts.length` bytes -/
  opts : List UInt8 := []
  ttl : UInt8 := 64
  /-- offset in units of 8 bytes (`ip_off & 0x1fff`) -/
  off : Nat
  mf : Bool
  /-- the bytes after the header -/
  data : List UInt8
  /-- `odp_packet_push_head` succeeds (src/ofp_reass.c:220-222) -/
  room : Bool := true
  /-- what the headroom happens to contain where `ipq_ttl` will be -/
  junk : UInt8 := 0
deriving Repr

/-- `struct frag` plus the packet it points to. -/
structure Frag where
  key : Key
  opts : List UInt8
  ttl : UInt8
  /-- `ip_off` in bytes, a 16-bit field -/
  off : Nat
  mf : Bool
  data : List UInt8
deriving Repr, DecidableEq

/-- A fragment queue.  `nfrags` and `qttl` (`ipq_ttl`) are the fields of its first fragment. -/
structure Chain where
  frags : List Frag
  nfrags : UInt8
  qttl : UInt8
deriving Repr, DecidableEq

/-- A reassembled datagram: header of the first fragment, with a new 16-bit length. -/
structure Dgram where
  key : Key
  opts : List UInt8
  ttl : UInt8
  len : Nat
  data : List UInt8
deriving Repr, DecidableEq

inductive Out where
  /-- no packet returned -/
  | nothing
  /-- dropped before taking the lock; the lock is then released although it is not held (src/ofp_reass.c:207-208,
  454-460) -/
  | unlockUnheld
  | pkt (d : Dgram)
deriving Repr, DecidableEq

/-- `struct ofp_reassembly_mem` (src/ofp_reass.c:83-89). -/
structure St where
  nipq : Int
  ipq : Nat → List Chain

/-- src/ofp_reass.c:148-149 -/
def maxnipq : Int := 1024
def maxfrags : Nat := 16
/-- `memset` in `ofp_reassembly_init_global` (src/ofp_reass.c:147). -/
def init : St := ⟨0, fun _ => []⟩

/-- `IPREASS_HASH` (src/ofp_reass.c:58-59). -/
def hash (k : Key) : Nat :=
  ((((k.src.toNat &&& 0xf) ||| (((k.src.toNat >>> 8) &&& 0xf) <<< 4)) ^^^ k.id.toNat) &&& 63)

/-- End of a fragment: `ip_off + ip_len` (an `int`). -/
def Frag.end' (f : Frag) : Nat := f.off + f.data.length

/-- Drop `over` bytes at the front (memmove; `ip_off += over` on 16 bits; `ip_len -= over`), src/ofp_reass.c:323-327,
366-371. -/
def Frag.trim (f : Frag) (over : Nat) : Frag :=
  { f with off := (f.off + over) % 65536, data := f.data.drop over }

/-- "Find a segment which begins after this one does" (src/ofp_reass.c:292-305): the fragments before and from the
first one whose offset is at least `off`. -/
def split (off : Nat) : List Frag → List Frag × List Frag
  | [] => ([], [])
  | f :: l => if off ≤ f.off then ([], f :: l) else (f :: (split off l).1, (split off l).2)

/-- The loop over succeeding segments (src/ofp_reass.c:346-375): the fragments left after `prev` and the number
of those removed.  `over > 0` is `prev.end' > f.off`. -/
def trimAfter (prev : Frag) : List Frag → List Frag × Nat
  | [] => ([], 0)
  | f :: l =>
    if prev.end' > f.off then
      if prev.end' - f.off ≥ f.data.length then
        let r := trimAfter prev l
        (r.1, r.2 + 1)
      else
        let f' := f.trim (prev.end' - f.off)
        let r := trimAfter f' l
        (f' :: r.1, r.2)
    else
      let r := trimAfter f l
      (f :: r.1, r.2)

/-- Insertion of fragment `p` into a queue (src/ofp_reass.c:285-375), `none` if `p` adds nothing and is dropped.
`junk`: see `Pkt.junk`; the new first fragment does not get the old `ipq_ttl` (src/ofp_reass.c:331-341). -/
def insert (c : Chain) (p : Frag) (ttl junk : UInt8) : Option Chain :=
  let nf := c.nfrags + 1
  let qt := if ttl > c.qttl then ttl else c.qttl
  let sp := split p.off c.frags
  match sp.2 with
  | [] => some ⟨sp.1 ++ [p], nf, qt⟩
  | f :: l =>
    match sp.1.getLast? with
    | none =>
      let r := trimAfter p (f :: l)
      some ⟨p :: r.1, nf - UInt8.ofNat r.2, junk⟩
    | some prev =>
      if prev.end' > p.off then
        if prev.end' - p.off ≥ p.data.length then none
        else
          let p' := p.trim (prev.end' - p.off)
          let r := trimAfter p' (f :: l)
          some ⟨sp.1 ++ p' :: r.1, nf - UInt8.ofNat r.2, qt⟩
      else
        let r := trimAfter p (f :: l)
        some ⟨sp.1 ++ p :: r.1, nf - UInt8.ofNat r.2, qt⟩

/-- A queue after a dropped fragment (`dropfrag` with `chain` set, src/ofp_reass.c:286-289, 454-457): the TTL was
raised, `nfrags` incremented and decremented again. -/
def droppedDup (c : Chain) (ttl : UInt8) : Chain :=
  { c with nfrags := c.nfrags + 1 - 1, qttl := if ttl > c.qttl then ttl else c.qttl }

/-- The contiguity loop (src/ofp_reass.c:386-399): `some next` if every fragment starts where the previous one
ended. -/
def contig : Nat → List Frag → Option Nat
  | next, [] => some next
  | next, f :: l => if f.off ≠ next then none else contig (next + f.data.length) l

/-- "The last packet didn't have the IP_MF flag" (src/ofp_reass.c:401-406). -/
def lastMf (l : List Frag) : Bool := match l.getLast? with
  | none => true
  | some f => f.mf

/-- All payload bytes in list order (src/ofp_reass.c:425-444). -/
def payload (l : List Frag) : List UInt8 := l.flatMap (·.data)

inductive Verdict where
  /-- keep the queue -/
  | keep
  /-- `ip_freef` -/
  | free
  | done (d : Dgram)

/-- Completion test (src/ofp_reass.c:376-452); `hlen` is the header length of the arriving fragment. -/
def check (c : Chain) (hlen : Nat) : Verdict :=
  let limit := if c.nfrags.toNat > maxfrags then .free else .keep
  match contig 0 c.frags, c.frags with
  | none, _ => limit
  | some _, [] => limit
  | some next, f :: _ =>
    if lastMf c.frags then limit
    else if next + hlen > 65535 then .free
    else .done ⟨f.key, f.opts, f.ttl, (20 + f.opts.length + next) % 65536, payload c.frags⟩

/-- Key of a chain: that of its first fragment (src/ofp_reass.c:240). -/
def Chain.key? (c : Chain) : Option Key := c.frags.head?.map (·.key)

/-- Replace (or remove) the first chain of key `k` in a bucket. -/
def replace (k : Key) (c' : Option Chain) : List Chain → List Chain
  | [] => []
  | c :: l => if c.key? = some k then (match c' with | none => l | some x => x :: l) else c :: replace k c' l

/-- First chain of key `k` (src/ofp_reass.c:238-248). -/
def findChain (k : Key) (l : List Chain) : Option Chain := l.find? (fun c => c.key? = some k)

def setBucket (s : St) (k : Key) (l : List Chain) (dn : Int) : St :=
  ⟨s.nipq + dn, fun i => if i = hash k then l else s.ipq i⟩

/-- Fragment record of a packet: `ip_off <<= 3` drops the flags (src/ofp_reass.c:274). -/
def Pkt.frag (p : Pkt) : Frag := ⟨p.key, p.opts, p.ttl, p.off * 8, p.mf, p.data⟩

/-- Data length of a fragment with MF must be a non-zero multiple of 8 (src/ofp_reass.c:265-273). -/
def malformed (p : Pkt) : Bool := p.mf && (p.data.length == 0 || p.data.length % 8 != 0)

/-- `ofp_ip_reass` (src/ofp_reass.c:193-461).  `ip_freef` (467-493) unlinks the chain and frees its packets but does
not touch `nipq`. -/
def reass (s : St) (p : Pkt) : St × Out :=
  if s.nipq > maxnipq then (s, .unlockUnheld)
  else if ¬ p.room then (s, .nothing)
  else
    let b := s.ipq (hash p.key)
    match findChain p.key b with
    | none =>
      if malformed p then (s, .nothing)
      else (setBucket s p.key (⟨[p.frag], 1, if p.ttl < 15 then 15 else p.ttl⟩ :: b) 1, .nothing)
    | some c =>
      if malformed p then (setBucket s p.key (replace p.key (some { c with nfrags := c.nfrags - 1 }) b) 0, .nothing)
      else match insert c p.frag p.ttl p.junk with
        | none => (setBucket s p.key (replace p.key (some (droppedDup c p.ttl)) b) 0, .nothing)
        | some c' => match check c' (20 + p.opts.length) with
          | .keep => (setBucket s p.key (replace p.key (some c') b) 0, .nothing)
          | .free => (setBucket s p.key (replace p.key none b) 0, .nothing)
          | .done d => (setBucket s p.key (replace p.key none b) (-1), .pkt d)

/-- One queue in `slow_tmo` (src/ofp_reass.c:506-527): `if (! --chain->ipq_ttl)`. -/
def ageChain (c : Chain) : Option Chain := if c.qttl - 1 = 0 then none else some { c with qttl := c.qttl - 1 }

/-- `slow_tmo` (src/ofp_reass.c:495-532): removed queues are not subtracted from `nipq`. -/
def tick (s : St) : St := ⟨s.nipq, fun i => (s.ipq i).filterMap ageChain⟩

inductive Op where
  | recv (p : Pkt)
  | tick

def step (s : St) : Op → St × Out
  | .recv p => reass s p
  | .tick => (tick s, .nothing)

/-- Run a history; the outputs in order. -/
def run (s : St) : List Op → St × List Out
  | [] => (s, [])
  | o :: l =>
    let r := step s o
    let r' := run r.1 l
    (r'.1, r.2 :: r'.2)

end Verif.Reass

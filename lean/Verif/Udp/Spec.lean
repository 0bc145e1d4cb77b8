import Verif.Udp.Model
/-!
# Specification: datagrams

What RFC 768 and the socket API promise, stated on the bytes of a packet.
-/
namespace Verif.Udp

/-- The UDP length field as the receiver of the packet finds it. -/
def Buf.ulen (b : Buf) : Nat := b.be16 (b.hlen + 4)

/-- A complete datagram: the header length is legal, the UDP header and all the data it announces lie in the packet,
and ODP's parser has found the transport header. -/
structure Whole (b : Buf) : Prop where
  ihl : 20 ≤ b.hlen
  parser : b.l4 = b.hlen
  hdr : 8 ≤ b.ulen
  len : b.hlen + b.ulen ≤ b.l3.length

/-- The data of the datagram: what follows the UDP header, up to the announced length. -/
def Buf.payload (b : Buf) : List UInt8 := (b.l3.drop (b.hlen + 8)).take (b.ulen - 8)

/-- The bytes are a `struct ofp_sockaddr_in` naming this address and port: length, family `AF_INET`, then port and
address in network order. -/
def Names (sa : List UInt8) (addr port : Nat) : Prop :=
  ∃ p0 p1 a0 a1 a2 a3 : UInt8, ∃ rest : List UInt8, sa = 16 :: 2 :: p0 :: p1 :: a0 :: a1 :: a2 :: a3 :: rest ∧ rest.length = 8 ∧
    port = p0.toNat * 256 + p1.toNat ∧ addr = ((a0.toNat * 256 + a1.toNat) * 256 + a2.toNat) * 256 + a3.toNat

/-- What a read of at most `n` bytes is to return for the datagram: its first `n` data bytes, and the address and port
of its sender. -/
def Buf.answer (b : Buf) (n : Nat) : Got := ⟨b.payload.take n, sockaddr b.src b.sport⟩

/-- A socket that is to get a broadcast or multicast datagram: it is bound to the destination port, to no other address
than the destination, not connected to somebody else, and for a multicast has joined the group for that source. -/
def Wanted (s : St) (b : Buf) (i : Nat) : Prop :=
  ∃ p, s.tab.pcb i = some p ∧ p.lport = b.dport ∧ (p.laddr = 0 ∨ p.laddr = b.dst) ∧ (p.faddr = 0 ∨ p.faddr = b.src) ∧
    (p.fport = 0 ∨ p.fport = b.sport) ∧
    (multicast b.dst = true → ∃ f, (s.sk i).mopt = some f ∧ f b.vrf b.dst b.src = true)

/-- The packet passes the tests every datagram must pass. -/
structure Accepted (e : Env) (b : Buf) : Prop where
  long : ¬ b.l2.length + b.l3.length < b.hlen + 8
  port : b.dport ≠ 0
  sum : rejects e.al b = false

/-- The checksum of the datagram was verified, by hardware or here, or the sender did not compute one (RFC 768). -/
def SumOk (al : Nat → Bool × Bool) (b : Buf) : Prop :=
  b.usum = 0 ∨ b.hw = .ok ∨ (b.hw ≠ .bad ∧ Cksum.in4Cksum al [b.l2 ++ b.l3] b.l2.length = .ok 0)

/-- Socket `j` is one the datagram is for: for a broadcast or multicast see `Wanted`, otherwise the best match: the
connection, else the local address, else any address. -/
def Addressed (s : St) (b : Buf) (j : Nat) : Prop :=
  if (multicast b.dst || broadcast b.dst) = true then Wanted s b j
  else ∃ p k, Pcb.Bound s.tab j p ∧ Pcb.Matches b.src b.sport b.dst b.dport p k ∧
    ∀ j' q k', Pcb.Bound s.tab j' q → Pcb.Matches b.src b.sport b.dst b.dport q k' → k.rank ≤ k'.rank

/-- How often buffer `x` is held: in a receive buffer, by an event callback, or back in its pool. -/
def held (s : St) (x : Nat) : Nat :=
  ((List.range s.tab.next).map fun i => ((s.sk i).rcv.map Buf.id).count x).sum + s.freed.count x +
    (s.taken.map Prod.snd).count x

end Verif.Udp

import Verif.Fwd.Model
import Verif.Cksum.Spec
/-! # What it means that no packet buffer is lost or used twice -/
namespace Verif.Fwd

/-- The buffer that an event disposes of: after it the buffer belongs to somebody else or no longer exists. -/
def Ev.ends : Ev → Option Nat
  | .free i | .held i | .slow i => some i
  | .tx i _ _ _ | .wait i _ _ _ | .loop i _ _ | .tunnel i _ _ | .ipsec i _ | .taken i _ => some i
  | .alloc _ | .arp _ _ | .notify _ _ | .outside _ | .crash | .stuck => none

/-- How often buffer `j` was disposed of. -/
def cnt (j : Nat) (l : List Ev) : Nat := l.countP (fun e => decide (e.ends = some j))

/-- How often buffer `j` was allocated. -/
def made (j : Nat) (l : List Ev) : Nat := l.countP (fun e => decide (e = .alloc j))

/-- The packet put on a link by an event: transmitted, looped back, waiting for ARP, or handed to a tunnel; with the
interface. -/
def Ev.sent : Ev → Option (Nat × Nat × Pkt)
  | .tx i d _ p | .wait i d _ p | .loop i d p | .tunnel i d p => some (i, d, p)
  | _ => none

/-- `q` is what a router may send on when it received `p`: TTL one less and not zero, same destination, protocol, type
of service and identification, same source (unless it was 0.0.0.0), and either the whole datagram (possibly without bytes
that follow it in the frame) or a fragment of it: bytes of the payload from a multiple of 8 on, with the corresponding
offset. -/
structure Forwarded (p q : Pkt) : Prop where
  ttl : q.hdr.ttl + 1 = p.hdr.ttl
  alive : 1 ≤ q.hdr.ttl
  dst : q.hdr.dst = p.hdr.dst
  proto : q.hdr.proto = p.hdr.proto
  tos : q.hdr.tos = p.hdr.tos
  id : q.hdr.id = p.hdr.id
  src : q.hdr.src = p.hdr.src ∨ p.hdr.src = 0
  data : (q.opts = p.opts ∧ q.hdr.len = p.hdr.len ∧ q.hdr.off = p.hdr.off ∧
            (q.body = p.body ∨ q.body = p.body.take (p.hdr.len - p.hlen))) ∨
         (df p = false ∧ ∃ k, k % 8 = 0 ∧ q.body ≠ [] ∧ k + q.body.length ≤ p.hdr.len - p.hlen ∧
            q.body = (p.body.drop k).take q.body.length ∧ k + q.body.length ≤ p.body.length ∧
            q.hdr.len = q.hlen + q.body.length ∧
            (q.hdr.off = (p.hdr.off + k / 8) % 65536 ∨ q.hdr.off = Frag.setMf ((p.hdr.off + k / 8) % 65536)))

/-- `q` is an ICMP message (or a fragment of one) of this host for the sender of `p` (unless that is 0.0.0.0). -/
def Report (p q : Pkt) : Prop := q.hdr.proto = 1 ∧ q.hdr.ttl = 64 ∧ (q.hdr.dst = p.hdr.src ∨ p.hdr.src = 0)

/-- A packet in transit: valid header, not for this host, nothing (hook, IPsec policy) holds it up, and the route to its
destination is `n`, through interface `d`. -/
structure Transit (env : Env) (p : Pkt) (n : Nh) (d : Nat) : Prop where
  sum : hdrOk env p = true
  uni : (env.dev p.dev).bcast ≠ p.hdr.dst
  other : isOurs env p = false
  inPol : env.ipsecIn p false = true
  hook : env.hookFwd p = .cont
  outPol : env.ipsecOut p = .bypass
  route : env.route (env.dev p.dev).vrf p.hdr.dst = some n
  dev : n.dev = some d

/-- Header fields within their ranges, options as `ip_hl` counts them. -/
structure Wire (p : Pkt) : Prop where
  ttl : p.hdr.ttl ≤ 255
  sum : p.hdr.sum ≤ 65535
  opts4 : p.opts.length % 4 = 0
  opts40 : p.opts.length ≤ 40

/-- A packet for this host that is handed to the transport protocol: valid header, not a fragment, and nothing (hook, IPsec
policy) holds it up. -/
structure Local (env : Env) (p : Pkt) : Prop where
  sum : hdrOk env p = true
  uni : (env.dev p.dev).bcast ≠ p.hdr.dst
  ours : isOurs env p = true
  whole : p.hdr.off % 16384 = 0
  inPol : env.ipsecIn p true = true
  hook : env.hookLocal p = .cont
  hook4 : env.hookLocal4 p = .cont

/-- A complete ICMP message of type `t` with a valid checksum. -/
structure IcmpMsg (p : Pkt) (t : Nat) : Prop where
  proto : p.hdr.proto = 1
  room : p.hlen + 8 ≤ p.hdr.len
  data : p.hdr.len - p.hlen ≤ p.body.length
  size : p.bytes.length ≤ 262143
  type : (p.body.headD 0).toNat = t
  sum : Cksum.Spec.checksum (p.body.take (p.hdr.len - p.hlen)) = 0

/-- Nothing holds up a message `q` of this host on its way to next hop `gw` on interface `d`. -/
structure Leaves (env : Env) (id : Nat) (q : Pkt) (n : Nh) (d gw : Nat) : Prop where
  pol : env.ipsecOut q = .bypass
  hook : env.hookOut q = .cont
  dev : n.dev = some d
  hop : gw = if n.gw = 0 then q.hdr.dst else n.gw
  ether : (env.dev d).kind = .ether
  room : env.roomOk id = true
  way : multicast q.hdr.dst = true ∨ (q.hdr.dst ∉ (env.dev d).addrs ∧ env.mac d gw = true)
  mtu : q.hdr.len ≤ (env.dev d).mtu

end Verif.Fwd

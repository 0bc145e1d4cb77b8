import Verif.Ip6.Model
import Verif.Radix.Props6
import Verif.Cksum.Spec
/-! # Notions used to state the properties of the IPv6 path -/
namespace Verif.Ip6
open Verif

/-- A 32-bit number in network order. -/
def be32 (n : Nat) : List UInt8 :=
  [UInt8.ofNat (n / 16777216 % 256), UInt8.ofNat (n / 65536 % 256), UInt8.ofNat (n / 256 % 256), UInt8.ofNat (n % 256)]

/-- The pseudo header of RFC 8200, section 8.1: source, destination, length, three zero bytes, next header. -/
def pseudo6 (src dst : Addr) (len : Nat) (nxt : UInt8) : List UInt8 := src ++ dst ++ be32 len ++ [0, 0, 0, nxt]

/-- The transport checksum of RFC 8200 over the bytes after the header. -/
def transport6 (src dst : Addr) (nxt : UInt8) (body : List UInt8) : Nat :=
  Cksum.Spec.checksum (pseudo6 src dst body.length nxt ++ body)

/-- Nothing is embedded in an address of fe80::/10, ff?1::/16 or ff?2::/16 (as the third and fourth byte, KAME's notation for
the scope); any other address. -/
def NoScope (a : Addr) : Prop :=
  ((a.getD 0 0).toNat = 254 ∧ 128 ≤ (a.getD 1 0).toNat ∧ (a.getD 1 0).toNat < 192) ∨
    ((a.getD 0 0).toNat = 255 ∧ ((a.getD 1 0).toNat % 16 = 1 ∨ (a.getD 1 0).toNat % 16 = 2)) →
  a.getD 2 0 = 0 ∧ a.getD 3 0 = 0

/-- Both addresses fit the 16 bytes of their fields. -/
def Pkt.wf (p : Pkt) : Prop := p.vtf.length = 4 ∧ p.src.length = 16 ∧ p.dst.length = 16

/-- The buffer that an event disposes of: after it the buffer belongs to somebody else or no longer exists. -/
def Ev.ends : Ev → Option Nat
  | .free i | .slow i => some i
  | .tx i _ _ _ | .loop i _ _ | .tunnel i _ _ | .taken i _ => some i
  | .alloc _ | .wait _ _ _ | .notify _ _ | .outside _ | .wild | .crash => none

/-- How often buffer `j` was disposed of. -/
def cnt (j : Nat) (l : List Ev) : Nat := l.countP (fun e => decide (e.ends = some j))

/-- The records of next hop `i` that hold buffer `j`. -/
def heldAt (j : Nat) (n : Nh) : Nat := n.hold.countP (fun x => decide (x.1 = j))

/-- How many records of waiting packets hold buffer `j`. -/
def waiting (j : Nat) (s : St) : Nat := ((List.range s.nnh).map (fun i => heldAt j (s.nh i))).sum

/-- How many packets wait. -/
def waitingAll (s : St) : Nat := ((List.range s.nnh).map (fun i => (s.nh i).hold.length)).sum

/-- Operations of a user of the API: addresses are 16 bytes long, prefix lengths at most 128. -/
def Op.wf : Op → Prop
  | .rx _ => True
  | .send p => p.dst.length = 16
  | .addRoute dst len _ _ _ _ => dst.length = 16 ∧ len ≤ 128
  | .delRoute dst len => dst.length = 16 ∧ len ≤ 128

/-- A packet with an extension header behind the IPv6 header: hop-by-hop options, routing, fragment, destination
options. -/
def isExt (p : Pkt) : Prop := p.nxt = 0 ∨ p.nxt = 43 ∨ p.nxt = 44 ∨ p.nxt = 60

/-- A packet without extension header that is no echo request or reply, and that does not lead to an ICMPv6 error. -/
def plain (env : Env) (p : Pkt) : Prop :=
  ¬ isExt p ∧ p.nxt ≠ 59 ∧ (p.nxt = 58 → (p.body.getD 0 0).toNat ≠ 128 ∧ (p.body.getD 0 0).toNat ≠ 129) ∧
  (p.nxt = 17 → env.sp = true ∨ env.blackhole = true ∨ env.udp p ≠ .noPort)

/-- The packet of an operation satisfies `P`. -/
def Op.pkt (P : Pkt → Prop) : Op → Prop
  | .rx f => P (parse f.raw)
  | _ => True

/-- The route table `T` (record numbers by prefix) stands for the state `s`: the tree stores `T`, every record belongs to
one route, and packets wait only at routes in the table that match their destination. -/
structure Inv (nodes : Nat) (s : St) (T : Radix.Spec.Table Nat) : Prop where
  hist : Radix.Hist6 nodes s.tab T
  ids : ∀ p i, T p = some i → i < s.nnh
  inj : ∀ p q i, T p = some i → T q = some i → p = q
  fits : ∀ i x, x ∈ (s.nh i).hold →
    x.2.dst.length = 16 ∧ ∃ p, T p = some i ∧ p <+: Radix.Spec.bits6 x.2.dst

/-- The next-hop record used for address `a`: that of the longest matching prefix. -/
def Uses (T : Radix.Spec.Table Nat) (a : Addr) (r : Option Nat) : Prop := Radix.Spec.IsLpm T (Radix.Spec.bits6 a) r

end Verif.Ip6

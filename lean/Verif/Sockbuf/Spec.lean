import Verif.Sockbuf.Model
/-!
# Specification of a socket buffer: a bounded queue of packets seen as a queue of bytes
-/
namespace Verif.Sockbuf

/-- The bytes of a queue of packets, in order. -/
def bytes (q : List Pkt) : List UInt8 := (q.map Pkt.data).flatten

/-- Removing `n` bytes from the front: packets that end within the `n` bytes go, the next one is shortened. -/
def dropBytes : Nat → List Pkt → List Pkt
  | 0, q => q
  | _, [] => []
  | n + 1, p :: q => if p.data.length > n + 1 then { p with data := p.data.drop (n + 1) } :: q
                     else dropBytes (n + 1 - p.data.length) q

/-- A queue that holds at most 63 packets and refuses further ones. -/
def specStep (q : List Pkt) : Op → List Pkt
  | .put p => if q.length < 63 then q ++ [p] else q
  | .appendAddr p => if q.length < 63 then q ++ [p] else q
  | .drop n => dropBytes n q
  | .dropRecord => q.tail
  | .read n => dropBytes n q
  | .flush => []

/-- The queue after a history that starts with an empty one. -/
def specRun (ops : List Op) : List Pkt := ops.foldl specStep []

/-- What the ring holds: the packets from the get index to the put index. -/
def held (sb : SB) : List Pkt :=
  (List.range ((sb.put + 64 - sb.get) % 64)).map fun k => sb.mb ((sb.get + k) % 64)

/-- The history contains no `flush`. -/
def NoFlush (ops : List Op) : Prop := ∀ o ∈ ops, o ≠ .flush

end Verif.Sockbuf

import Verif.Reass.Model
/-!
# What a user expects of reassembly

Independent of the queue processing: only the input packets (`Pkt`) and the delivered datagrams (`Dgram`) occur.
-/
namespace Verif.Reass

/-- `data` is the part of `D` that starts at byte `off`, and MF is clear only on a part that reaches the end. -/
def Slice (D : List UInt8) (off : Nat) (data : List UInt8) (mf : Bool) : Prop :=
  off + data.length ≤ D.length ∧ data = (D.drop off).take data.length ∧ (mf = false → off + data.length = D.length)

/-- Packet `p` is a fragment of the payload `D`. -/
def IsFragOf (D : List UInt8) (p : Pkt) : Prop := Slice D (p.off * 8) p.data p.mf

/-- Packets of a history. -/
def pkts : List Op → List Pkt
  | [] => []
  | .recv p :: l => p :: pkts l
  | .tick :: l => pkts l

/-- Datagrams delivered in a list of outputs. -/
def delivered : List Out → List Dgram
  | [] => []
  | .pkt d :: l => d :: delivered l
  | _ :: l => delivered l

/-- `ps` cuts `D` into consecutive non-empty pieces starting at byte `off` (a multiple of 8): all but the last have
MF and a length that is a multiple of 8. -/
def CutFrom (k : Key) : Nat → List UInt8 → List Pkt → Prop
  | _, _, [] => False
  | off, D, [p] => p.key = k ∧ p.off * 8 = off ∧ p.mf = false ∧ p.data = D ∧ D ≠ []
  | off, D, p :: q :: ps => p.key = k ∧ p.off * 8 = off ∧ p.mf = true ∧ p.data.length % 8 = 0 ∧ p.data ≠ [] ∧
      ∃ D', D = p.data ++ D' ∧ CutFrom k (off + p.data.length) D' (q :: ps)

end Verif.Reass

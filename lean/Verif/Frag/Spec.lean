import Verif.Frag.Model
/-! # What faithful fragmentation means -/
namespace Verif.Frag

/-- The three parts of an `ip_off` field. -/
def offOf (field : Nat) : Nat := field % 8192
def mfOf (field : Nat) : Bool := field / 8192 % 2 = 1
def highOf (field : Nat) : Nat := field / 16384

/-- `fs` is `pl` cut into consecutive non-empty pieces, the first at offset `off` (8-byte units); all but the last have
MF and a length that is a multiple of 8; the last has MF exactly if `mf` (the packet's own flag). -/
def Cut (mf : Bool) (high : Nat) : Nat → List UInt8 → List Fragment → Prop
  | _, _, [] => False
  | off, pl, [f] => offOf f.field = off ∧ mfOf f.field = mf ∧ highOf f.field = high ∧ f.data = pl ∧ pl ≠ []
  | off, pl, f :: g :: fs => offOf f.field = off ∧ mfOf f.field = true ∧ highOf f.field = high ∧
      f.data.length % 8 = 0 ∧ f.data ≠ [] ∧
      ∃ pl', pl = f.data ++ pl' ∧ Cut mf high (off + f.data.length / 8) pl' (g :: fs)

/-- An IP option: a one-byte NOP, or type, length and data. -/
inductive IpOpt where
  | nop
  | opt (type : UInt8) (data : List UInt8)

/-- Encoding: type, length (of everything), data. -/
def IpOpt.enc : IpOpt → List UInt8
  | .nop => [1]
  | .opt t d => t :: UInt8.ofNat (d.length + 2) :: d

/-- Option number neither 0 (end of list) nor 1 (NOP); the length fits into the option area. -/
def IpOpt.ok : IpOpt → Prop
  | .nop => True
  | .opt t d => t &&& 0x1f ≠ 0 ∧ t &&& 0x1f ≠ 1 ∧ d.length ≤ 38

/-- Must the option be copied into every fragment (RFC 791: the copied flag)? -/
def IpOpt.copied : IpOpt → Bool
  | .nop => false
  | .opt t _ => t &&& 0x80 ≠ 0

def encAll (os : List IpOpt) : List UInt8 := os.flatMap IpOpt.enc

end Verif.Frag

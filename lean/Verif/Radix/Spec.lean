/-!
# Specification: routing tables and longest prefix match

An address is its list of bits, most significant first.  A route `a/len` is keyed by the first `len`
bits of `a`.  A table maps such prefixes to next hops.
-/
namespace Verif.Radix.Spec

/-- Route table: prefix (list of leading bits) ↦ next hop. -/
def Table (α : Type) := List Bool → Option α

def Table.empty {α} : Table α := fun _ => none

/-- Table after adding (or replacing) the route for `p`. -/
def Table.add {α} (T : Table α) (p : List Bool) (d : α) : Table α :=
  fun q => if q = p then some d else T q

/-- Table after deleting the route for `p`. -/
def Table.del {α} (T : Table α) (p : List Bool) : Table α :=
  fun q => if q = p then none else T q

/-- `r` is the longest-prefix-match answer for the address `bits`: the next hop of the longest stored
prefix of `bits`, or `none` if no prefix of `bits` is stored. -/
def IsLpm {α} (T : Table α) (bits : List Bool) (r : Option α) : Prop :=
  (∃ d n, n ≤ bits.length ∧ T (bits.take n) = some d ∧
      (∀ m, n < m → m ≤ bits.length → T (bits.take m) = none) ∧ r = some d) ∨
  ((∀ m, m ≤ bits.length → T (bits.take m) = none) ∧ r = none)

/-- The bits of a 32-bit address (host order value), most significant first. -/
def bits4 (a : BitVec 32) : List Bool := (List.range 32).map a.getMsbD

/-- The bits of a byte, most significant first. -/
def byteBits (b : UInt8) : List Bool := (List.range 8).map (fun i => b.toNat.testBit (7 - i))

/-- The bits of an IPv6 address given as 16 bytes in network order. -/
def bits6 (a : List UInt8) : List Bool := a.flatMap byteBits

end Verif.Radix.Spec

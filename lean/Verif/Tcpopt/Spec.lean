import Verif.Tcpopt.Model
/-!
# The option area of RFC 793, 1323, 2018, without reference to the code

An option area is a sequence of items, each a single no-operation byte or kind, length and body, then what
stops the reader.  `meaning` says which options a well-behaved reader finds in a sequence of items.
-/
namespace Verif.Tcpopt

inductive Item where
  | nop
  | opt (kind : Nat) (body : List Nat)
deriving DecidableEq, Repr

/-- The bytes of an item. -/
def Item.bytes : Item → List Nat
  | .nop => [1]
  | .opt k body => k :: (body.length + 2) :: body

/-- Kinds 0 and 1 are the two options without a length. -/
def Item.Valid : Item → Prop
  | .nop => True
  | .opt k _ => 2 ≤ k

def areaBytes (items : List Item) : List Nat := items.flatMap Item.bytes

/-- What ends the sequence: nothing is left, an end-of-options byte, a kind without its length, or a length
that is less than two or reaches past the area. -/
def Stops (rest : List Nat) : Prop :=
  match rest with
  | [] => True
  | [k] => k ≠ 1
  | k :: l :: more => k = 0 ∨ (k ≠ 1 ∧ (l < 2 ∨ l > more.length + 2))

/-- A 16 bit number in network order. -/
def num16 : List Nat → Option Nat
  | [a, b] => some (a * 256 + b)
  | _ => none

/-- A shift count; more than 14 counts as 14 (RFC 1323, 2.3). -/
def shiftCount : List Nat → Option Nat
  | [a] => some (min a 14)
  | _ => none

/-- Two 32 bit numbers in network order. -/
def two32 : List Nat → Option (Nat × Nat)
  | [a, b, c, d, e, f, g, h] =>
    some (a * 16777216 + b * 65536 + c * 256 + d, e * 16777216 + f * 65536 + g * 256 + h)
  | _ => none

/-- SACK blocks, eight bytes each. -/
def blocks : List Nat → Option (List Blk)
  | [] => some []
  | a :: b :: c :: d :: e :: f :: g :: h :: more =>
    (blocks more).map fun bl =>
      ⟨a * 16777216 + b * 65536 + c * 256 + d, e * 16777216 + f * 65536 + g * 256 + h⟩ :: bl
  | _ => none

/-- At least one block. -/
def someBlocks (body : List Nat) : Option (List Blk) :=
  if body = [] then none else blocks body

/-- The value of the last option of kind `k` whose body `f` understands. -/
def lastOf {α : Type} (k : Nat) (f : List Nat → Option α) (items : List Item) : Option α :=
  (items.filterMap fun
    | .nop => none
    | .opt k' body => if k' = k then f body else none).getLast?

/-- What a reader finds. -/
structure Got where
  mss : Option Nat
  scale : Option Nat
  sackperm : Bool
  ts : Option (Nat × Nat)
  sacks : Option (List Blk)
deriving DecidableEq, Repr

/-- The options of a segment: maximum segment size, window scale and SACK-permitted count in segments with SYN
only, SACK blocks in segments without; SACK-permitted counts when SACK is switched on. -/
def meaning (syn dosack : Bool) (items : List Item) : Got where
  mss := if syn then lastOf 2 num16 items else none
  scale := if syn then lastOf 3 shiftCount items else none
  sackperm := syn && dosack && (items.any fun i => i = .opt 4 [])
  ts := lastOf 8 two32 items
  sacks := if syn then none else lastOf 5 someBlocks items

/-- The blocks `n` reads of eight bytes give, `none` when one of them leaves the buffer. -/
def readBlocks (buf : List Nat) (off : Nat) : Nat → Option (List Blk)
  | 0 => some []
  | n + 1 =>
    match sackAt buf off 0, readBlocks buf (off + 8) n with
    | some b, some bl => some (b :: bl)
    | _, _ => none

/-- The result of `tcp_dooptions` as the rest of the stack sees it: the SACK pointer is followed. -/
def see (buf : List Nat) (r : In) : Option Got :=
  match r.sacks with
  | none => some ⟨r.mss, r.scale, r.sackperm, r.ts, none⟩
  | some (off, n) => (readBlocks buf off n).map fun bl => ⟨r.mss, r.scale, r.sackperm, r.ts, some bl⟩

end Verif.Tcpopt

/-!
# Selective acknowledgement: what a user of the stack relies on (C32, C33, C58-C60)

Sequence numbers are 32-bit and wrap; a range `[a, b)` of sequence numbers is the circular
interval that starts at `a` and ends before `b`.
-/
namespace Verif.Sack

/-- A range of sequence numbers, as reported in a SACK option. -/
structure Blk where
  start : BitVec 32
  stop : BitVec 32
deriving DecidableEq, Repr

/-- Distance of `x` from `u`, going upwards. -/
def off (u x : BitVec 32) : Nat := (x - u).toNat

/-- `x` lies in the circular range `[a, b)`. -/
def InR (a b x : BitVec 32) : Prop := off a x < off a b

/-- `x` lies in one of the ranges. -/
def InBlks (l : List Blk) (x : BitVec 32) : Prop := ∃ b ∈ l, InR b.start b.stop x

/-- A SACK block the sender can believe: not empty, all of it is outstanding data (sent, between
`una` and `max`), and above both `una` and the cumulative acknowledgement `w` it came with.
(An acknowledgement below `una` is an old one and says nothing.) -/
def Believable (una max w : BitVec 32) (b : Blk) : Prop :=
  off una b.start < off una b.stop ∧ off una b.stop ≤ off una max ∧ 0 < off una b.start ∧
    (off una w ≤ off una max → off una w < off una b.start)

end Verif.Sack

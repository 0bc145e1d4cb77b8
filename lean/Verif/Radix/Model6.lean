import Verif.Radix.Model

/-!
# Model of the IPv6 routing table

`src/ofp_rt_lookup.c:390-600` (the same code is in `src/ofp_rt_mtrie_lookup.c:611-808`) and
`include/ofpi_rt_lookup.h:140-180`.  Addresses are lists of 16 bytes.  `ofp_rt_bit_set(p, bit)` reads byte
`bit >> 3` whatever `bit` is: a read beyond the 16 bytes yields an unknown value (`g`, arbitrary).  The
functions `…Reads` / `…Writes` list the bit positions each function accesses.
-/
namespace Verif.Radix
open Tree
variable {α : Type}

/-- `ofp_rt_bit_set` (include/ofpi_rt_lookup.h:140-145); `g` gives the values read out of bounds. -/
def bit6 (g : Nat → Bool) (a : List UInt8) (bit : Nat) : Bool :=
  match a[bit / 8]? with
  | some b => (b.toNat &&& (1 <<< (7 - bit % 8))) != 0
  | none => g bit

/-- The IPv6 table: one tree (`default_routes_6`) and its node pool. -/
structure St6 (α : Type) where
  root : Tree α
  free : Nat
deriving Repr, DecidableEq

/-- Pool of `total` nodes and the root node (`ofp_rtl6_init`, src/ofp_rt_lookup.c:110-123). -/
def init6 (total : Nat) : St6 α := { root := Tree.node false none nil nil, free := total - 1 }

/-- `ofp_rtl_insert6` (src/ofp_rt_lookup.c:390-483). -/
def insert6 (g : Nat → Bool) (s : St6 α) (a : List UInt8) (len : Nat) (d : α) : St6 α × Ins α :=
  let p := insertAt true (bit6 g a) len d s.free 0 s.root
  ({ root := p.1, free := p.2.1 }, p.2.2)

/-- `ofp_rtl_remove6` (src/ofp_rt_lookup.c:485-546). -/
def remove6 (g : Nat → Bool) (s : St6 α) (a : List UInt8) (len : Nat) : St6 α × Option (Option α) :=
  let p := removeAt (bit6 g a) len 0 s.root
  ({ root := p.1, free := s.free + p.2.1 }, p.2.2)

/-- `ofp_rtl_search6` (include/ofpi_rt_lookup.h:168-180). -/
def search6 (g : Nat → Bool) (s : St6 α) (a : List UInt8) : Option (Option α) :=
  searchAt (bit6 g a) 0 s.root none

/-- Bit positions read by `ofp_rtl_search6`: one per visited node
(`node = ofp_rt_traverse_tree(node, addr, bit++)`, include/ofpi_rt_lookup.h:174). -/
def searchReads (bit : Nat → Bool) : Nat → Tree α → List Nat
  | _, nil => []
  | depth, node _ _ l r =>
    depth :: (if bit depth then searchReads bit (depth + 1) r else searchReads bit (depth + 1) l)

/-- Bit positions read by the clean-up loop at `nomem:` (src/ofp_rt_lookup.c:467-480): `bit++` and one read
per freed node, starting at position `i`. -/
def freeReads (bit : Nat → Bool) : Nat → Tree α → List Nat
  | _, nil => []
  | i, node _ _ l r => i :: (if bit i then freeReads bit (i + 1) r else freeReads bit (i + 1) l)

/-- Bit positions read by the construction loop (src/ofp_rt_lookup.c:433-452) and, on failure, by the
clean-up loop. -/
def growReads (bit : Nat → Bool) (depth : Nat) : Nat → Nat → Tree α → List Nat
  | 0, _, _ => []
  | k + 1, free, nd =>
    if free = 0 then freeReads bit (depth + (k + 1)) nd
    else (depth + k) :: growReads bit depth k (free - 1)
      (if bit (depth + k) then Tree.node false none nil nd else Tree.node false none nd nil)

/-- Bit positions read by `ofp_rtl_insert6` (src/ofp_rt_lookup.c:402-480). -/
def insertReads (bit : Nat → Bool) (len free : Nat) : Nat → Tree α → List Nat
  | _, nil => []
  | depth, node _ _ l r =>
    if depth < len then
      let c := if bit depth then r else l
      depth :: (if c.isNil then
          (if free = 0 then [] else
            growReads bit (depth + 1) (len - (depth + 1)) (free - 1)
              (Tree.node false (none : Option α) nil nil) ++ [depth])   -- link into `last` reads `bit` again
        else if bit depth then insertReads bit len free (depth + 1) r
        else insertReads bit len free (depth + 1) l)
    else []

/-- `key` with bit `i` set to `b` (`ofp_rt_set_bit` / `ofp_rt_reset_bit`). -/
def setKey (key : Nat → Bool) (i : Nat) (b : Bool) : Nat → Bool := fun j => if j = i then b else key j

/-- `ofp_rtl_traverse6` (src/ofp_rt_lookup.c:562-600): callbacks `(key, depth, data)` in order, the key
buffer afterwards, and the bit positions written.  The explicit stack and `visited` flags of the C loop are
represented by recursion: a node is reported when first reached, then its left and right subtrees are
visited; when leaving it, bit `depth` is reset. -/
def traverse6 : Tree α → (Nat → Bool) → Nat →
    List (List Bool × Nat × Option α) × (Nat → Bool) × List Nat
  | nil, key, _ => ([], key, [])
  | node v x l r, key, depth =>
    let here := if v then [((List.range 128).map key, depth, x)] else []
    let pl := if l.isNil then ([], key, []) else
      let p := traverse6 l (setKey key depth false) (depth + 1)
      (p.1, p.2.1, depth :: p.2.2)
    let pr := if r.isNil then ([], pl.2.1, []) else
      let p := traverse6 r (setKey pl.2.1 depth true) (depth + 1)
      (p.1, p.2.1, depth :: p.2.2)
    (here ++ pl.1 ++ pr.1, setKey pr.2.1 depth false, pl.2.2 ++ pr.2.2 ++ [depth])

end Verif.Radix

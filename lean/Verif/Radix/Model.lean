/-!
# Model of the radix (non-MTRIE) routing tables

`src/ofp_rt_lookup.c`, `include/ofpi_rt_lookup.h` (non-`MTRIE` part; the IPv6 part is the same code in
`src/ofp_rt_mtrie_lookup.c:611-808`).

Simplifications: the node pool is represented by the number of free nodes (`NODEALLOC` fails iff it is
0; which physical node is handed out is not represented), and the pointer tree by an inductive tree.
A node keeps its `data` after `flags` is cleared, as in the code; `data = none` stands for the zeroes of
`memset`.
-/
namespace Verif.Radix

/-- `struct ofp_rtl_node` / `struct ofp_rtl6_node` (include/ofpi_rt_lookup.h:42-68); `nil` is `NULL`. -/
inductive Tree (α : Type) where
  | nil
  | node (valid : Bool) (data : Option α) (l r : Tree α)
deriving Repr, DecidableEq

namespace Tree
variable {α : Type}

def isNil : Tree α → Bool
  | nil => true
  | node .. => false

/-- Number of nodes of the tree (each one allocated from the pool). -/
def size : Tree α → Nat
  | nil => 0
  | node _ _ l r => l.size + r.size + 1

/-- One step of the descent: `right` if the bit is set, `left` otherwise. -/
def child (b : Bool) (l r : Tree α) : Tree α := if b then r else l
end Tree

open Tree
variable {α : Type}

/-- The clean-up loop at `nomem:` (src/ofp_rt_lookup.c:219-232, 467-480): number of nodes given back to
the pool while walking down from `node`, taking `right` when the bit is set and `left` otherwise;
`f i` is the bit read at the `i`-th node. -/
def freeChain : Tree α → (Nat → Bool) → Nat
  | nil, _ => 0
  | node _ _ l r, f =>
    (if f 0 then freeChain r (fun i => f (i + 1)) else freeChain l (fun i => f (i + 1))) + 1

/-- The construction loop `while (depth < masklen)` (src/ofp_rt_lookup.c:185-204, 433-452): `nd` is the
chain built so far, `k` the number of levels still to be put above it; the bits are taken from
`depth + k - 1` down to `depth`.  Result: chain (or `none` = out of nodes, after the clean-up loop) and the
number of free nodes. -/
def grow (bit : Nat → Bool) (depth : Nat) : Nat → Nat → Tree α → Option (Tree α) × Nat
  | 0, free, nd => (some nd, free)
  | k + 1, free, nd =>
    if free = 0 then (none, free + freeChain nd (fun i => bit (depth + (k + 1) + i)))
    else
      let tmp := if bit (depth + k) then Tree.node false none nil nd
                 else Tree.node false none nd nil
      grow bit depth k (free - 1) tmp

/-- Allocation of the leaf and of the chain above it (src/ofp_rt_lookup.c:172-204, 420-452). -/
def build (bit : Nat → Bool) (len depth : Nat) (d : α) (free : Nat) : Option (Tree α) × Nat :=
  if free = 0 then (none, free)
  else grow bit depth (len - depth) (free - 1) (Tree.node true (some d) nil nil)

/-- Outcome of an insertion. -/
inductive Ins (α : Type) where
  | ok                       -- `return NULL`
  | nomem                    -- `return data`: no node left
  | exists_ (d : Option α)   -- IPv6 only: `return &node->data` of the route already there
deriving Repr, DecidableEq

/-- `ofp_rtl_insert` below a non-NULL node (src/ofp_rt_lookup.c:153-217), and `ofp_rtl_insert6`
(399-465) when `v6`: the IPv4 version overwrites an existing route, the IPv6 version refuses.
`depth` is the depth of the tree argument. -/
def insertAt (v6 : Bool) (bit : Nat → Bool) (len : Nat) (d : α) (free : Nat) :
    Nat → Tree α → Tree α × Nat × Ins α
  | _, nil => (nil, free, .nomem)           -- not used: the caller handles NULL children
  | depth, node v x l r =>
    if depth < len then
      if bit depth then
        if r.isNil then
          match build bit len (depth + 1) d free with
          | (some c, free') => (node v x l c, free', .ok)
          | (none, free') => (node v x l r, free', .nomem)
        else
          let p := insertAt v6 bit len d free (depth + 1) r
          (node v x l p.1, p.2.1, p.2.2)
      else
        if l.isNil then
          match build bit len (depth + 1) d free with
          | (some c, free') => (node v x c r, free', .ok)
          | (none, free') => (node v x l r, free', .nomem)
        else
          let p := insertAt v6 bit len d free (depth + 1) l
          (node v x p.1 r, p.2.1, p.2.2)
    else if v6 && v then (node v x l r, free, .exists_ x)
    else (node true (some d) l r, free, .ok)

/-- Removal below and including a node at depth `depth` (src/ofp_rt_lookup.c:275-326, 494-545).  Result: the
new subtree, the number of nodes freed, and the data of the removed route (`none` = `return NULL`).
The C code walks down with an explicit stack and then up in a `do ... while (1)` loop: when the node below
has been freed (`nil`), the link to it is cleared and the node itself is freed too unless it has another
child, valid data, or is the root (`depth == 0`). -/
def removeAt (bit : Nat → Bool) (len : Nat) : Nat → Tree α → Tree α × Nat × Option (Option α)
  | _, nil => (nil, 0, none)
  | depth, node v x l r =>
    if depth < len then
      if bit depth then
        let (r', f, res) := removeAt bit len (depth + 1) r
        if res.isSome && r'.isNil then
          if !l.isNil || v then (node v x l nil, f, res)
          else if depth = 0 then (node v x l nil, f, res)
          else (nil, f + 1, res)
        else (node v x l r', f, res)
      else
        let (l', f, res) := removeAt bit len (depth + 1) l
        if res.isSome && l'.isNil then
          if !r.isNil || v then (node v x nil r, f, res)
          else if depth = 0 then (node v x nil r, f, res)
          else (nil, f + 1, res)
        else (node v x l' r, f, res)
    else if !v then (node v x l r, 0, none)
    else if !l.isNil || !r.isNil then (node false x l r, 0, some x)
    else if depth = 0 then (node false x l r, 0, some x)
    else (nil, 1, some x)

/-- `ofp_rtl_search` (include/ofpi_rt_lookup.h:108-134) and `ofp_rtl_search6` (168-180): the last node with
valid data on the way down.  `match_table` (65 slots) is represented by its last element. -/
def searchAt (bit : Nat → Bool) : Nat → Tree α → Option (Option α) → Option (Option α)
  | _, nil, m => m
  | depth, node v x l r, m =>
    let m := if v then some x else m
    if bit depth then searchAt bit (depth + 1) r m else searchAt bit (depth + 1) l m

/-- `ofp_rtl_search_exact` (src/ofp_rt_lookup.c:238-263): data of the node at depth `len`, whether or not
its `VALID_DATA` flag is set. -/
def searchExactAt (bit : Nat → Bool) (len : Nat) : Nat → Tree α → Option (Option α)
  | _, nil => none
  | depth, node _ x l r =>
    if depth < len then
      if bit depth then searchExactAt bit len (depth + 1) r else searchExactAt bit len (depth + 1) l
    else some x

/-! ## IPv4 -/

/-- `addr & mask` with `mask = 0x80000000 >> depth` (src/ofp_rt_lookup.c:150-164). -/
def bit4 (addr : BitVec 32) (depth : Nat) : Bool := (addr &&& (0x80000000#32 >>> depth)) != 0#32

/-- `addr & ((~0U) << (32 - masklen))` (src/ofp_rt_lookup.c:151).  For `masklen = 0` the shift by 32 is
undefined in C; the value is then not used by the function (no bit is read). -/
def mask4 (addr : BitVec 32) (len : Nat) : BitVec 32 := addr &&& (0xffffffff#32 <<< (32 - len))

/-- All the IPv4 tables (one root per VRF, `vrf_shm->fib[]`) sharing one node pool. -/
structure St (α : Type) where
  fib : List (Tree α)
  free : Nat
deriving Repr, DecidableEq

/-- State after `ofp_rt_lookup_init_global` (src/ofp_rt_lookup.c:648-674) with `total` nodes and
`ofp_rtl_root_init` for `nvrf` VRFs (125-139; the caller gives up if a root cannot be allocated, so
`nvrf ≤ total`). -/
def init (total nvrf : Nat) : St α :=
  { fib := List.replicate nvrf (Tree.node false none nil nil), free := total - nvrf }

/-- `ofp_rtl_insert(&fib[vrf].routes, addr, masklen, data)` (src/ofp_rt_lookup.c:143-235) in `add_route`
(src/ofp_route.c:176-233).  `addr` is the address in host order. `vrf >= num_vrf` is refused by the
caller (`ofp_set_route_msg`), here: state unchanged, `nomem`. -/
def insert (s : St α) (vrf : Nat) (addr : BitVec 32) (len : Nat) (d : α) : St α × Ins α :=
  match s.fib[vrf]? with
  | none => (s, .nomem)
  | some t =>
    let (t', free', res) := insertAt false (bit4 (mask4 addr len)) len d s.free 0 t
    ({ fib := s.fib.set vrf t', free := free' }, res)

/-- `ofp_rtl_remove(&fib[vrf].routes, addr, masklen)` (src/ofp_rt_lookup.c:265-327). -/
def remove (s : St α) (vrf : Nat) (addr : BitVec 32) (len : Nat) : St α × Option (Option α) :=
  match s.fib[vrf]? with
  | none => (s, none)
  | some t =>
    let (t', f, res) := removeAt (bit4 addr) len 0 t
    ({ fib := s.fib.set vrf t', free := s.free + f }, res)

/-- `ofp_rtl_search` on the table of a VRF (include/ofpi_rt_lookup.h:108-134). -/
def search (s : St α) (vrf : Nat) (addr : BitVec 32) : Option (Option α) :=
  match s.fib[vrf]? with
  | none => none
  | some t => searchAt (bit4 addr) 0 t none

/-- `ofp_rtl_search_exact` (src/ofp_rt_lookup.c:238-263). -/
def searchExact (s : St α) (vrf : Nat) (addr : BitVec 32) (len : Nat) : Option (Option α) :=
  match s.fib[vrf]? with
  | none => none
  | some t => searchExactAt (bit4 addr) len 0 t

/-- `traverse` (src/ofp_rt_lookup.c:369-382): the calls `func(fd, key, level, data)` in order.
`0x80000000 >> level` with `level ≥ 32` would be undefined in C; levels never exceed 32 and a node at
level 32 has no right child (theorem `fib_height`). -/
def traverse : Tree α → BitVec 32 → Nat → List (BitVec 32 × Nat × Option α)
  | nil, _, _ => []
  | node v x l r, key, level =>
    (if v then [(key, level, x)] else []) ++ traverse l key (level + 1) ++
      traverse r (if r.isNil then key else key ||| (0x80000000#32 >>> level)) (level + 1)

/-- `ofp_rtl_destroy` (src/ofp_rt_lookup.c:329-367): the loop removes leaves one after the other, left
before right, then the emptied parent: a post-order walk.  Result: the data passed to `func`, in order,
and the number of nodes freed.  (Recursion instead of the explicit stack; the stack of 33 entries is
enough because of `fib_height`.) -/
def destroy : Tree α → List (Option α) × Nat
  | nil => ([], 0)
  | node v x l r =>
    let (dl, nl) := destroy l
    let (dr, nr) := destroy r
    (dl ++ dr ++ (if v then [x] else []), nl + nr + 1)

end Verif.Radix

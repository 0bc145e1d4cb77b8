/-!
# The balanced tree of src/ofp_avl.c

A balanced search tree with parent pointers, a two-bit balance factor and a 30-bit rank (one plus the number of
nodes of the left subtree) packed in one word (include/ofpi_avl.h:30-57). It stores the routing rules and the
interfaces of a port. The pointer structure is an inductive tree; the way from a node up through its parent pointers
is a list of frames, innermost first (a frame is the parent, its other subtree, and the side the node hangs on). The
sentinel `tree->root`, whose right child is the tree, is the end of that list.

Keys are opaque; the comparison function supplied by the caller is `cmp`, its result an `int` of which the code looks
only at the sign. Operations that follow a null pointer are `none`.

Not modelled: the read/write lock (each call is atomic here; `avl_get_by_index`, `avl_get_first/next/prev`, the span
and the nearest-key functions take no lock in the code), the `height` counter of the tree (written, never read), the
free list itself (a count of free nodes), printing and `avl_verify`.
-/
namespace Verif.Avl

/-- `avl_node` (include/ofpi_avl.h:30-46): children, key, rank (30 bits) and balance factor. `nil` is the null
pointer. -/
inductive T (κ : Type) where
  | nil : T κ
  | node (l : T κ) (key : κ) (rank : BitVec 30) (bal : Int) (r : T κ) : T κ
  deriving DecidableEq, Repr

/-- A step up through `parent` (include/ofpi_avl.h:34): the parent's fields, its other subtree, and whether the child
is the left one. -/
structure Frame (κ : Type) where
  left : Bool
  key : κ
  rank : BitVec 30
  bal : Int
  other : T κ
  deriving DecidableEq, Repr

/-- The parent node of a frame with child `c` in place and balance `b` (include/ofpi_avl.h:30-46). -/
def Frame.close {κ : Type} (f : Frame κ) (b : Int) (c : T κ) : T κ :=
  if f.left then .node c f.key f.rank b f.other else .node f.other f.key f.rank b c

/-- The whole tree around a subtree (the parent chain up to the sentinel, include/ofpi_avl.h:34). -/
def plug {κ : Type} (c : T κ) : List (Frame κ) → T κ
  | [] => c
  | f :: fs => plug (f.close f.bal c) fs

/-- `avl_node_new` (src/ofp_avl.c:103-123): no children, balance 0, rank 1. -/
def leaf {κ : Type} (k : κ) : T κ := .node .nil k 1 0 .nil

/-- The balance factor of a node (`AVL_GET_BALANCE`, include/ofpi_avl.h:48). -/
def T.balance {κ : Type} : T κ → Int
  | .nil => 0
  | .node _ _ _ b _ => b

/-! ### Insertion -/

/-- The descent of `avl_insert` (src/ofp_avl.c:205-252): not greater goes left and increments the rank on the way, greater
goes right. The result is the path from the place where the search ended up to the sentinel. -/
def insDown {κ : Type} (cmp : κ → κ → Int) (k : κ) : T κ → List (Frame κ) → List (Frame κ)
  | .nil, up => up
  | .node l x rk b r, up =>
    if cmp k x < 1 then insDown cmp k l ({ left := true, key := x, rank := rk + 1, bal := b, other := r } :: up)
    else insDown cmp k r ({ left := false, key := x, rank := rk, bal := b, other := l } :: up)

/-- The rotations of `avl_insert` (src/ofp_avl.c:288-364) when the inserted side `a` of `s` was already the taller one:
`r` is the child of `s` on that side. The result is the new root of the subtree. A null `p` in the double rotation
is `none`. -/
def insRot {κ : Type} (f : Frame κ) (r : T κ) : Option (T κ) :=
  match r with
  | .nil => none
  | .node rl rx rrk rb rr =>
    if f.left then
      -- a = -1
      if rb = -1 then
        -- single rotation, lines 291-301, 310-311
        some (.node rl rx rrk 0 (.node rr f.key (f.rank - rrk) 0 f.other))
      else if rb = 1 then
        -- double rotation, lines 314-327, 344-355
        match rr with
        | .nil => none
        | .node pl px prk pb pr =>
          let prk' := prk + rrk
          some (.node (.node rl rx rrk (if pb = -1 then 0 else if pb = 1 then -1 else 0) pl) px prk' 0
            (.node pr f.key (f.rank - prk') (if pb = -1 then 1 else 0) f.other))
      else some r
    else
      -- a = +1
      if rb = 1 then
        -- single rotation, lines 302-311
        some (.node (.node f.other f.key f.rank 0 rl) rx (rrk + f.rank) 0 rr)
      else if rb = -1 then
        -- double rotation, lines 329-355
        match rl with
        | .nil => none
        | .node pl px prk pb pr =>
          some (.node (.node f.other f.key f.rank (if pb = 1 then -1 else 0) pl) px (prk + f.rank) 0
            (.node pr rx (rrk - prk) (if pb = 1 then 0 else if pb = -1 then 1 else 0) rr))
      else some r

/-- The balancing part of `avl_insert` (src/ofp_avl.c:256-364), from the new node `q` upwards: the nodes below `s` (the
deepest node of the path with a nonzero balance, or the top one: lines 226-229, 244-247) get the balance of the side
taken; `s` is then rebalanced. The code walks down from `s`; the comparisons it repeats give the side recorded in
the frame. -/
def climb {κ : Type} (q : T κ) : List (Frame κ) → Option (T κ)
  | [] => some q
  | f :: fs =>
    let a : Int := if f.left then -1 else 1
    if f.bal = 0 then
      if fs = [] then some (f.close a q)
      else climb (f.close a q) fs
    else if f.bal = -a then some (plug (f.close 0 q) fs)
    else if f.bal = a then (insRot f q).map (fun c => plug c fs)
    else some (plug (f.close f.bal q) fs)

/-- `avl_tree` (include/ofpi_avl.h:69-77): the tree under the sentinel, the element count; `free` is the number of
nodes left in the pool shared by all trees (src/ofp_avl.c:52-60). -/
structure Tree (κ : Type) where
  root : T κ
  length : Nat
  free : Nat
  deriving DecidableEq, Repr

/-- `avl_insert` (src/ofp_avl.c:187-369). When no node is left the ranks changed on the way down stay changed. -/
def insert {κ : Type} (cmp : κ → κ → Int) (s : Tree κ) (k : κ) : Option (Tree κ × Int) :=
  let up := insDown cmp k s.root []
  if s.free = 0 then some ({ s with root := plug .nil up }, -1)
  else match climb (leaf k) up with
    | none => none
    | some t => some ({ root := t, length := s.length + 1, free := s.free - 1 }, 0)

/-! ### Look-ups -/

/-- `avl_get_by_key` (src/ofp_avl.c:395-430): the key stored, if found. -/
def getByKey {κ : Type} (cmp : κ → κ → Int) (k : κ) : T κ → Option κ
  | .nil => none
  | .node l x _ _ r => if cmp k x < 0 then getByKey cmp k l else if cmp k x > 0 then getByKey cmp k r else some x

/-- The number of comparisons `avl_get_by_key` makes (src/ofp_avl.c:406-429). -/
def getSteps {κ : Type} (cmp : κ → κ → Int) (k : κ) : T κ → Nat
  | .nil => 0
  | .node l x _ _ r =>
    1 + (if cmp k x < 0 then getSteps cmp k l else if cmp k x > 0 then getSteps cmp k r else 0)

/-- `avl_get_by_index` (src/ofp_avl.c:372-393) with the one-based index `m`. -/
def getByRank {κ : Type} (m : Nat) : T κ → Option κ
  | .nil => none
  | .node l x rk _ r =>
    if m < rk.toNat then getByRank m l else if m > rk.toNat then getByRank (m - rk.toNat) r else some x

/-- `avl_get_item_by_key_most` (src/ofp_avl.c:997-1039): `best` is the value saved so far. -/
def getMost {κ : Type} (cmp : κ → κ → Int) (k : κ) : T κ → Option κ → Option κ
  | .nil, best => best
  | .node l x _ _ r, best =>
    if cmp k x = 0 then some x else if cmp k x < 0 then getMost cmp k l best else getMost cmp k r (some x)

/-- `avl_get_item_by_key_least` (src/ofp_avl.c:1041-1083). -/
def getLeast {κ : Type} (cmp : κ → κ → Int) (k : κ) : T κ → Option κ → Option κ
  | .nil, best => best
  | .node l x _ _ r, best =>
    if cmp k x = 0 then some x else if cmp k x < 0 then getLeast cmp k l (some x) else getLeast cmp k r best

/-! ### Deletion -/

/-- Where the descent of `avl_delete` (src/ofp_avl.c:446-490) ended: at a node with an equal key, or at a missing left or
right child. The paths carry the ranks already decremented for left moves (line 453). -/
inductive Found (κ : Type) where
  | hit (l : T κ) (key : κ) (rank : BitVec 30) (bal : Int) (r : T κ) (up : List (Frame κ))
  | missLeft (f : Frame κ) (up : List (Frame κ))
  | missRight (f : Frame κ) (up : List (Frame κ))
  | empty

/-- The descent of `avl_delete` (src/ofp_avl.c:446-490). A missing child is reported with the node it is missing from. -/
def delDown {κ : Type} (cmp : κ → κ → Int) (k : κ) : T κ → List (Frame κ) → Found κ
  | .nil, [] => .empty
  | .nil, f :: up => if f.left then .missLeft f up else .missRight f up
  | .node l x rk b r, up =>
    if cmp k x < 0 then delDown cmp k l ({ left := true, key := x, rank := rk - 1, bal := b, other := r } :: up)
    else if cmp k x > 0 then delDown cmp k r ({ left := false, key := x, rank := rk, bal := b, other := l } :: up)
    else .hit l x rk b r up

/-- The undo loop of `avl_delete` (src/ofp_avl.c:461-466, 477-482): every ancestor of which the path is the left child
gets its rank back. -/
def undo {κ : Type} (up : List (Frame κ)) : List (Frame κ) :=
  up.map fun f => if f.left then { f with rank := f.rank + 1 } else f

/-- The walk to the immediate predecessor (src/ofp_avl.c:500-503): `y` is the rightmost node of the subtree; the result is
its left subtree, its key, and the frames on the way. -/
def predDown {κ : Type} (l : T κ) (x : κ) (rk : BitVec 30) (b : Int) : T κ → List (Frame κ) → (T κ × κ × List (Frame κ))
  | .nil, up => (l, x, up)
  | .node rl rx rrk rb rr, up =>
    predDown rl rx rrk rb rr ({ left := false, key := x, rank := rk, bal := b, other := l } :: up)

/-- The loop of `avl_delete` that climbs back (src/ofp_avl.c:560-694) with `shorter = 1`: the subtree `c` below the first
frame has lost one level. A null sibling or null `r` is `none`. -/
def shrink {κ : Type} (c : T κ) : List (Frame κ) → Option (T κ)
  | [] => some c
  | f :: fs =>
    let side : Int := if f.left then -1 else 1
    if f.bal = 0 then some (plug (f.close (-side) c) fs)
    else if f.bal = side then shrink (f.close 0 c) fs
    else
      match f.other with
      | .nil => none
      | .node ql qx qrk qb qr =>
        if qb = 0 then
          -- case 3a, lines 593-621
          if f.left then
            some (plug (.node (.node c f.key f.rank 1 ql) qx (qrk + f.rank) (-1) qr) fs)
          else
            some (plug (.node ql qx qrk 1 (.node qr f.key (f.rank - qrk) (-1) c)) fs)
        else if qb = f.bal then
          -- case 3b, lines 622-649
          if f.left then
            shrink (.node (.node c f.key f.rank 0 ql) qx (qrk + f.rank) 0 qr) fs
          else
            shrink (.node ql qx qrk 0 (.node qr f.key (f.rank - qrk) 0 c)) fs
        else if f.left then
          -- case 3c, double rotate left, lines 671-701
          match ql with
          | .nil => none
          | .node rl rx rrk rb rr =>
            shrink (.node (.node c f.key f.rank (if rb = -1 then 0 else if rb = 1 then -1 else 0) rl) rx (rrk + f.rank) 0
              (.node rr qx (qrk - rrk) (if rb = -1 then 1 else 0) qr)) fs
        else
          -- case 3c, double rotate right, lines 652-670, 691-701
          match qr with
          | .nil => none
          | .node rl rx rrk rb rr =>
            let rrk' := rrk + qrk
            shrink (.node (.node ql qx qrk (if rb = 1 then -1 else 0) rl) rx rrk' 0
              (.node rr f.key (f.rank - rrk') (if rb = 1 then 0 else if rb = -1 then 1 else 0) c)) fs

/-- Taking the node out (src/ofp_avl.c:492-694): with two children the predecessor's key moves here and its node is
removed instead (lines 492-514); the only child takes the place of the node (lines 518-526), and the tree is rebalanced
upwards. -/
def takeOut {κ : Type} (l : T κ) (rk : BitVec 30) (b : Int) (r : T κ) (up : List (Frame κ)) : Option (T κ) :=
  match l, r with
  | .node ll lx lrk lb lr, .node rl rx rrk rb rr =>
    let y := predDown ll lx lrk lb lr []
    shrink y.1 (y.2.2 ++ { left := true, key := y.2.1, rank := rk - 1, bal := b, other := .node rl rx rrk rb rr } :: up)
  | .node ll lx lrk lb lr, .nil => shrink (.node ll lx lrk lb lr) up
  | .nil, r => shrink r up

/-- `avl_delete` (src/ofp_avl.c:432-710) without `free_key_fun`: the tree, 0 or -1, and the key removed. -/
def delete {κ : Type} (cmp : κ → κ → Int) (s : Tree κ) (k : κ) : Option (Tree κ × Int × Option κ) :=
  match delDown cmp k s.root [] with
  | .empty => some (s, -1, none)
  | .missLeft f up => some ({ s with root := plug .nil ({ f with rank := f.rank + 1 } :: undo up) }, -1, none)
  | .missRight f up => some ({ s with root := plug .nil ({ f with rank := f.rank + 1 } :: undo up) }, -1, none)
  | .hit l x rk b r up =>
    match takeOut l rk b r up with
    | none => none
    | some t => some ({ root := t, length := s.length - 1, free := s.free + 1 }, 0, some x)

/-! ### Walking -/

/-- `avl_iterate_inorder` (src/ofp_avl.c:712-753) with a callback that accumulates and may stop: the state, and the
callback's nonzero result. -/
def iterate {κ σ : Type} (f : σ → κ → σ × Int) : T κ → σ → σ × Int
  | .nil, st => (st, 0)
  | .node l x _ _ r, st =>
    let a := iterate f l st
    if a.2 ≠ 0 then a
    else
      let b := f a.1 x
      if b.2 ≠ 0 then b else iterate f r b.1

/-- A position in the tree: a subtree and the way up (the pointer `avl_node *node` with its `parent` chain,
include/ofpi_avl.h:30-46). -/
structure Loc (κ : Type) where
  l : T κ
  key : κ
  rank : BitVec 30
  bal : Int
  r : T κ
  up : List (Frame κ)

/-- Down to the leftmost node (src/ofp_avl.c:763-764, 799-801). -/
def leftmost {κ : Type} : T κ → List (Frame κ) → Option (Loc κ)
  | .nil, _ => none
  | .node l x rk b r, up =>
    match leftmost l ({ left := true, key := x, rank := rk, bal := b, other := r } :: up) with
    | none => some { l := l, key := x, rank := rk, bal := b, r := r, up := up }
    | some p => some p

/-- Down to the rightmost node (src/ofp_avl.c:773-775). -/
def rightmost {κ : Type} : T κ → List (Frame κ) → Option (Loc κ)
  | .nil, _ => none
  | .node l x rk b r, up =>
    match rightmost r ({ left := false, key := x, rank := rk, bal := b, other := l } :: up) with
    | none => some { l := l, key := x, rank := rk, bal := b, r := r, up := up }
    | some p => some p

/-- Up while the node is a right child (src/ofp_avl.c:804-811); `c` is the subtree hanging below. -/
def upNext {κ : Type} (c : T κ) : List (Frame κ) → Option (Loc κ)
  | [] => none
  | f :: fs =>
    if f.left then some { l := c, key := f.key, rank := f.rank, bal := f.bal, r := f.other, up := fs }
    else upNext (f.close f.bal c) fs

/-- Up while the node is a left child (src/ofp_avl.c:778-785). -/
def upPrev {κ : Type} (c : T κ) : List (Frame κ) → Option (Loc κ)
  | [] => none
  | f :: fs =>
    if f.left then upPrev (f.close f.bal c) fs
    else some { l := f.other, key := f.key, rank := f.rank, bal := f.bal, r := c, up := fs }

/-- The subtree at a position (include/ofpi_avl.h:30-46). -/
def Loc.tree {κ : Type} (p : Loc κ) : T κ := .node p.l p.key p.rank p.bal p.r

/-- `avl_get_next` (src/ofp_avl.c:793-814). Keys are assumed non-null, so the walk ends at the sentinel. -/
def next {κ : Type} (p : Loc κ) : Option (Loc κ) :=
  match p.r with
  | .nil => upNext p.tree p.up
  | r => leftmost r ({ left := false, key := p.key, rank := p.rank, bal := p.bal, other := p.l } :: p.up)

/-- `avl_get_prev` (src/ofp_avl.c:769-791). -/
def prev {κ : Type} (p : Loc κ) : Option (Loc κ) :=
  match p.l with
  | .nil => upPrev p.tree p.up
  | l => rightmost l ({ left := true, key := p.key, rank := p.rank, bal := p.bal, other := p.r } :: p.up)

/-- `avl_get_first` (src/ofp_avl.c:755-767). -/
def first {κ : Type} (s : Tree κ) : Option (Loc κ) := leftmost s.root []

/-- The search for the `m`-th node in `avl_iterate_index_range` (src/ofp_avl.c:837-846); following a null pointer is
`none`. -/
def seek {κ : Type} : Nat → T κ → List (Frame κ) → Option (Loc κ)
  | _, .nil, _ => none
  | m, .node l x rk b r, up =>
    if m < rk.toNat then seek m l ({ left := true, key := x, rank := rk, bal := b, other := r } :: up)
    else if m > rk.toNat then seek (m - rk.toNat) r ({ left := false, key := x, rank := rk, bal := b, other := l } :: up)
    else some { l := l, key := x, rank := rk, bal := b, r := r, up := up }

/-- The second loop of `avl_iterate_index_range` (src/ofp_avl.c:848-854): call the function on `num` nodes in turn. `none` is a
null pointer followed. -/
def walk {κ σ : Type} (f : σ → κ → σ × Int) : Nat → Option (Loc κ) → σ → Option (σ × Int)
  | 0, _, st => some (st, 0)
  | _ + 1, none, _ => none
  | n + 1, some p, st =>
    let b := f st p.key
    if b.2 ≠ 0 then some (b.1, -1) else walk f n (next p) b.1

/-- `avl_iterate_index_range` (src/ofp_avl.c:818-856) for `low ≤ high`. The index passed to the callback is left out. -/
def iterRange {κ σ : Type} (f : σ → κ → σ × Int) (s : Tree κ) (low high : Nat) (st : σ) : Option (σ × Int) :=
  if high > s.length then some (st, -1)
  else match seek (low + 1) s.root [] with
    | none => none
    | some p => walk f (high - low) (some p) st

/-- `avl_get_index_by_key` (src/ofp_avl.c:862-900) for a key that is present: its node and index. `m` is the running
rank, `base` the part of it contributed by the ancestors. -/
def indexOf {κ : Type} (cmp : κ → κ → Int) (k : κ) : T κ → Nat → List (Frame κ) → Option (Loc κ × Nat)
  | .nil, _, _ => none
  | .node l x rk b r, base, up =>
    if cmp k x < 0 then indexOf cmp k l base ({ left := true, key := x, rank := rk, bal := b, other := r } :: up)
    else if cmp k x > 0 then
      indexOf cmp k r (base + rk.toNat) ({ left := false, key := x, rank := rk, bal := b, other := l } :: up)
    else some ({ l := l, key := x, rank := rk, bal := b, r := r, up := up }, base + rk.toNat - 1)

/-- The left search of `avl_get_span_by_key` (src/ofp_avl.c:921-926): `i` counts down over equal keys. -/
def spanLeft {κ : Type} (cmp : κ → κ → Int) (k : κ) : Nat → Option (Loc κ) → Nat
  | 0, _ => 0
  | i + 1, none => i + 1
  | i + 1, some p => if cmp k p.key = 0 then spanLeft cmp k i (prev p) else i + 1

/-- `avl_get_span_by_key` (src/ofp_avl.c:903-943): the low index, for a key that is present. -/
def spanLow {κ : Type} (cmp : κ → κ → Int) (s : Tree κ) (k : κ) : Option Nat :=
  match indexOf cmp k s.root 0 [] with
  | none => none
  | some (p, m) => some (spanLeft cmp k m (prev p))

end Verif.Avl

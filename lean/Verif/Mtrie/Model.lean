/-!
# Model of the mtrie IPv4 forwarding table (the default build)

`src/ofp_rt_mtrie_lookup.c`: a 16-8-8 multibit trie per VRF over two pools of tables (65536 entries for the roots, 256
entries for the others), and a separate table of rules. Addresses are host-order values below 2^32; `uint32_t`
arithmetic is written out with `% 2 ^ 32`.

Not modelled: the AVL tree that stores the rules (a map here), locking, the ARP reference counts of `ofp_route.c`,
statistics, log messages.
-/
namespace Verif.Mtrie

/-- One `struct ofp_rtl_node` (include/ofpi_rt_lookup.h:43-56). Next hops are compared and copied only, so a number
stands for a `struct ofp_nh_entry`. -/
structure Ent where
  masklen : Nat
  data : Nat
  next : Option Nat
deriving Repr, DecidableEq

/-- The shared memory (src/ofp_rt_mtrie_lookup.c:44-66). Table number `n < roots` is the 65536-entry root table of VRF
`n`, the others are the 256-entry tables; `ents n i` is element `i` of table `n`, `ref n` the `ref` field of its element
0. The free list is linked through `next` of element 0 from `first` to `last`. -/
structure St where
  ents : Nat → Nat → Ent
  ref : Nat → Nat
  first : Option Nat
  last : Option Nat
  roots : Nat
  rules : Nat → Nat → Nat → Option Nat
  nrules : Nat
  maxrules : Nat

/-- Assign element `i` of table `n`. -/
def St.setEnt (s : St) (n i : Nat) (e : Ent) : St :=
  { s with ents := fun n' i' => if n' = n ∧ i' = i then e else s.ents n' i' }

/-- Assign the reference counter. -/
def St.setRef (s : St) (n r : Nat) : St :=
  { s with ref := fun n' => if n' = n then r else s.ref n' }

/-- `node->next = x` for element `i`. -/
def St.setNext (s : St) (n i : Nat) (x : Option Nat) : St :=
  s.setEnt n i { s.ents n i with next := x }

/-- `free_small.last->next = node` or `free_small.first = node` (lines 76-79). -/
def linkLast (s : St) (n : Nat) : St :=
  match s.last with
  | some l => s.setNext l 0 (some n)
  | none => { s with first := some n }

/-- `NODEFREE` (src/ofp_rt_mtrie_lookup.c:72-84); the field `root` is 1 exactly for the large tables. -/
def nodeFree (s : St) (n : Nat) : St :=
  if n < s.roots then s
  else
    let s1 := linkLast (s.setNext n 0 none) n
    { s1 with last := some n }

/-- Second half of `NODEALLOC`: table `n` leaves the free list (lines 94-105). -/
def takeNode (s : St) (n : Nat) : St :=
  let nx := (s.ents n 0).next
  let s1 : St := { s with
    first := nx
    last := if nx = none then none else s.last }
  (s1.setRef n 0).setNext n 0 none

/-- `NODEALLOC` (src/ofp_rt_mtrie_lookup.c:87-109). The 256 elements are not cleared. -/
def nodeAlloc (s : St) : Option (St × Nat) :=
  match s.first with
  | none => none
  | some n => some (takeNode s n, n)

/-- `inc_use_reference` (lines 435-438); `ref` is a `uint16_t`. -/
def incRef (s : St) (n : Nat) : St := s.setRef n ((s.ref n + 1) % 2 ^ 16)

/-- `dec_use_reference` (lines 440-444). -/
def decRef (s : St) (n : Nat) : St :=
  let s1 := s.setRef n ((s.ref n + 2 ^ 16 - 1) % 2 ^ 16)
  if s1.ref n = 0 then nodeFree s1 n else s1

/-- `to_network_prefix` (lines 446-449): the mask is computed in 64 bits and cut to 32. -/
def netPrefix (addr m : Nat) : Nat := (addr &&& (0xffffffff <<< (32 - m))) % 2 ^ 32

/-- `shift_least_significant_bits` (lines 400-404). A shift by 32 (prefix length 0) is undefined in C; the value
taken here, 0, is what the address 0 gives on every machine. -/
def shiftLsb (addr m : Nat) : Nat := addr >>> (32 - m)

/-- `ip_range_helper` (lines 451-456). -/
def rangeHelper (a m low high : Nat) : Nat := ((a <<< (32 - m + low)) % 2 ^ 32) >>> (low + 32 - high)

/-- `ip_range_begin` (lines 458-463). -/
def rangeBegin (addr m low high : Nat) : Nat := rangeHelper (shiftLsb addr m) m low high

/-- `ip_range_end` (lines 465-472). -/
def rangeEnd (addr m low high : Nat) : Nat :=
  let e := rangeHelper ((shiftLsb addr m + 1) % 2 ^ 32) m low high
  if e ≠ 0 then e else 1 <<< (high - low)

/-- Index computed by `find_node` (lines 474-478). -/
def nodeIdx (addr low high : Nat) : Nat := ((addr <<< low) % 2 ^ 32) >>> (low + 32 - high)

/-- `for (; index < index_end; index++)` over the elements of table `n`, `k = index_end - index`. -/
def rangeLoop (f : St → Nat → St) : Nat → Nat → St → St
  | 0, _, s => s
  | k + 1, i, s => rangeLoop f k (i + 1) (f s i)

/-- Body of the loop in `ofp_rtl_insert` (lines 496-499). -/
def writeEnt (n high m d : Nat) (s : St) (i : Nat) : St :=
  let e := s.ents n i
  if e.masklen ≤ m ∨ e.masklen > high then s.setEnt n i { e with data := d, masklen := m } else s

/-- Body of the loop in `ofp_rtl_remove` (lines 546-554). -/
def clearEnt (n high m d : Nat) (s : St) (i : Nat) : St :=
  let e := s.ents n i
  if e.masklen = m ∧ e.data = d then
    if e.next = none ∧ ¬ (i = 0 ∧ s.last = some n) then s.setEnt n i { e with masklen := 0 }
    else s.setEnt n i { e with masklen := high + 1 }
  else s

/-- `if (node->masklen == 0) node->masklen = masklen;` (lines 511-512). -/
def mark (s : St) (n i m : Nat) : St :=
  let e := s.ents n i
  if e.masklen = 0 then s.setEnt n i { e with masklen := m } else s

/-- The child of element `i`, allocated if missing (lines 506-509): `none` when the pool is empty. -/
def child (s : St) (n i : Nat) : Option (St × Nat) :=
  match (s.ents n i).next with
  | some c => some (s, c)
  | none =>
    match nodeAlloc s with
    | none => none
    | some (s1, c) => some (s1.setNext n i (some c), c)

/-- The three levels (lines 486, 488; include/ofpi_rt_lookup.h:24-26): `low` and `high`. -/
def levels : List (Nat × Nat) := [(0, 16), (16, 24), (24, 32)]

/-- The loop of `ofp_rtl_insert` (lines 488-515): new state, and whether NULL (success) is returned. -/
def insertLv (addr m d : Nat) : List (Nat × Nat) → St → Nat → St × Bool
  | [], s, _ => (s, true)
  | (low, high) :: ls, s, n =>
    let s := incRef s n
    if m ≤ high then
      let b := rangeBegin addr m low high
      (rangeLoop (writeEnt n high m d) (rangeEnd addr m low high - b) b s, true)
    else
      let i := nodeIdx addr low high
      match child s n i with
      | none => (s, false)
      | some (s1, c) => insertLv addr m d ls (mark s1 n i m) c

/-- `ofp_rtl_insert` (lines 480-518) on the tree of VRF `v`. -/
def insert (s : St) (v addr m d : Nat) : St × Bool := insertLv (netPrefix addr m) m d levels s v

/-- `ofp_rt_rule_search` (lines 200-212). -/
def ruleSearch (s : St) (v addr m : Nat) : Option Nat := s.rules v (netPrefix addr m) m

/-- `ofp_rt_rule_find_prefix_match` (lines 413-428; for length 0 the `uint8_t` counter would start at 255, that case is not modelled), `m` counting down from `masklen - 1`: next hop and length of the
rule found. -/
def findPrefix (s : St) (v addr low : Nat) : Nat → Option (Nat × Nat)
  | 0 => none
  | m + 1 =>
    if m + 1 > low then
      match ruleSearch s v addr (m + 1) with
      | some d => some (m + 1, d)
      | none => findPrefix s v addr low m
    else none

/-- What a removal can do: dereference a null pointer, or return with a state and whether a non-NULL result is
returned. -/
inductive Res
  | crash
  | done (s : St) (found : Bool)

/-- Last part of the loop of `ofp_rtl_remove` on the level of the route, and the re-insertion
(lines 541-560, 578-582). -/
def removeAt (v addr m d low high : Nat) (s : St) (n : Nat) : St :=
  let b := rangeBegin addr m low high
  let s := rangeLoop (clearEnt n high m d) (rangeEnd addr m low high - b) b s
  match findPrefix s v addr low (m - 1) with
  | some (m', d') => (insert s v (netPrefix addr m') m' d').1
  | none => s

/-- `if (get_use_reference(node) == 1 && elem->masklen > high)` (lines 569-574). -/
def unlink (s : St) (n i c high : Nat) : St :=
  if s.ref c = 1 ∧ (s.ents n i).masklen > high then s.setEnt n i { s.ents n i with masklen := 0, next := none }
  else s

/-- The loop of `ofp_rtl_remove` (lines 538-575). -/
def removeLv (v addr m d : Nat) : List (Nat × Nat) → St → Nat → Res
  | [], s, _ => .done s true
  | (low, high) :: ls, s, n =>
    let s := decRef s n
    if m ≤ high then .done (removeAt v addr m d low high s n) true
    else
      let i := nodeIdx addr low high
      if (s.ents n i).masklen = 0 then .done s false
      else
        match (s.ents n i).next with
        | none => .crash
        | some c => removeLv v addr m d ls (unlink s n i c high) c

/-- `ofp_rtl_remove` (lines 520-585) on the tree of VRF `v`. -/
def remove (s : St) (v addr m : Nat) : Res :=
  match ruleSearch s v addr m with
  | none => .done s false
  | some d => removeLv v (netPrefix addr m) m d levels s v

/-- The loop of `ofp_rtl_search` (lines 588-609), `nh` so far. -/
def searchLv (s : St) (addr : Nat) : List (Nat × Nat) → Nat → Option Nat → Option Nat
  | [], _, nh => nh
  | (low, high) :: ls, n, nh =>
    let e := s.ents n (nodeIdx addr low high)
    if e.masklen = 0 then nh
    else
      let nh := if e.masklen ≤ high then some e.data else nh
      match e.next with
      | none => nh
      | some c => searchLv s addr ls c nh

/-- `ofp_rtl_search` on the tree of VRF `v`. -/
def search (s : St) (v addr : Nat) : Option Nat := searchLv s addr levels v none

/-- `ofp_rt_rule_add` (lines 243-283): an existing rule gets the new next hop; a new one needs a free slot. -/
def ruleAdd (s : St) (v addr m d : Nat) : St :=
  let a := netPrefix addr m
  let set : Nat → Nat → Nat → Option Nat := fun v' a' m' => if v' = v ∧ a' = a ∧ m' = m then some d else s.rules v' a' m'
  if s.rules v a m ≠ none then { s with rules := set }
  else if s.nrules < s.maxrules then { s with rules := set, nrules := s.nrules + 1 }
  else s

/-- `ofp_rt_rule_remove` (lines 285-304). -/
def ruleRemove (s : St) (v addr m : Nat) : St :=
  let a := netPrefix addr m
  if s.rules v a m = none then s
  else { s with
    rules := fun v' a' m' => if v' = v ∧ a' = a ∧ m' = m then none else s.rules v' a' m'
    nrules := s.nrules - 1 }

/-- `add_route` (src/ofp_route.c:180-241) without ARP: the rule is added whether or not the insertion succeeded. -/
def addRoute (s : St) (v addr m d : Nat) : St × Bool :=
  let r := insert s v addr m d
  (ruleAdd r.1 v addr m d, r.2)

/-- `del_route` (src/ofp_route.c:244-283) without ARP. -/
def delRoute (s : St) (v addr m : Nat) : Res :=
  match remove s v addr m with
  | .crash => .crash
  | .done s found => .done (ruleRemove s v addr m) found

/-- `ofp_rt_lookup_init_global` and `ofp_rtl_root_init` (lines 859-896, 116-134): `roots` VRFs, `nodes` small tables,
`maxrules` rules; the memory is zeroed. -/
def St.init (roots nodes maxrules : Nat) : St where
  ents := fun n i => ⟨0, 0, if i = 0 ∧ roots ≤ n ∧ n + 1 < roots + nodes then some (n + 1) else none⟩
  ref := fun _ => 0
  first := if nodes = 0 then none else some roots
  last := if nodes = 0 then none else some (roots + nodes - 1)
  roots := roots
  rules := fun _ _ _ => none
  nrules := 0
  maxrules := maxrules

end Verif.Mtrie

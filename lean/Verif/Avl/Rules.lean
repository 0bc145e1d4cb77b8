import Verif.Avl.Walk
import Verif.Mtrie.Model

/-!
# The table of routing rules (src/ofp_rt_mtrie_lookup.c:41-60, 173-373)

The rules live in an array of slots, the free ones on a list, the used ones in the balanced tree under their VRF, network address
and prefix length. A stored key is a slot number together with the key fields of the rule, which the code does not
change while the rule is in the tree; the next hop of each slot is kept beside, as it is overwritten in place.
-/
namespace Verif.Avl.Rules
open Verif.Avl

/-- `struct ofp_rt_rule` (include/ofpi_rt_lookup.h:27-38) without the next hop: the slot and the key fields. -/
structure Rule where
  slot : Nat
  vrf : Nat
  addr : Nat
  len : Nat
  deriving DecidableEq, Repr

/-- `rt_rules_avl_compare` (src/ofp_rt_mtrie_lookup.c:173-198). -/
def cmpR (a b : Rule) : Int :=
  if a.vrf > b.vrf then 1
  else if a.vrf < b.vrf then -1
  else if a.addr > b.addr then 1
  else if a.addr < b.addr then -1
  else if a.len > b.len then 1
  else if a.len < b.len then -1
  else 0

/-- `struct rt_rule_table` (src/ofp_rt_mtrie_lookup.c:43-51): the tree, the next hops by slot, the free slots. -/
structure RT where
  tree : Tree Rule
  data : Nat → Nat
  freeRules : List Nat

/-- `ofp_rt_rule_search` (src/ofp_rt_mtrie_lookup.c:200-212); the slot of the key on the stack is irrelevant. `a` is the
network prefix in host order. -/
def search (rt : RT) (v a m : Nat) : Option Rule := getByKey cmpR ⟨0, v, a, m⟩ rt.tree.root

/-- `ofp_rt_rule_add` (src/ofp_rt_mtrie_lookup.c:243-283) with `rt_rule_alloc` (222-241) and `rt_rule_free` (213-220). -/
def add (rt : RT) (v a m d : Nat) : Option (RT × Int) :=
  match search rt v a m with
  | some r => some ({ rt with data := fun i => if i = r.slot then d else rt.data i }, -1)
  | none =>
    match rt.freeRules with
    | [] => some (rt, -1)
    | i :: rest =>
      match insert cmpR rt.tree ⟨i, v, a, m⟩ with
      | none => none
      | some (t, c) =>
        let data := fun j => if j = i then d else rt.data j
        if c ≠ 0 then some ({ tree := t, data := data, freeRules := i :: rest }, -1)
        else some ({ tree := t, data := data, freeRules := rest }, 0)

/-- `ofp_rt_rule_remove` (src/ofp_rt_mtrie_lookup.c:285-304). -/
def remove (rt : RT) (v a m : Nat) : Option (RT × Int) :=
  match search rt v a m with
  | none => some (rt, -1)
  | some r =>
    match delete cmpR rt.tree r with
    | none => none
    | some (t, _, _) => some ({ rt with tree := t, freeRules := r.slot :: rt.freeRules }, 0)

/-- `ofp_rt_rule_vrf_iter` (src/ofp_rt_mtrie_lookup.c:321-373): the callback over the section of the tree with the rules
of one VRF. `none` is a null pointer followed. -/
def vrfIter {σ : Type} (rt : RT) (v : Nat) (f : σ → Rule → σ × Int) (st : σ) : Option σ :=
  match getLeast cmpR ⟨0, v, 0, 0⟩ rt.tree.root none with
  | none => some st
  | some r =>
    if r.vrf ≠ v then some st
    else
      match spanLow cmpR rt.tree r with
      | none => none
      | some low =>
        match getMost cmpR ⟨0, v, 0xFFFFFFFF, 32⟩ rt.tree.root none with
        | none => some st
        | some r' =>
          if r'.vrf ≠ v then some st
          else
            match spanLow cmpR rt.tree r' with
            | none => none
            | some high => (iterRange f rt.tree low (high + 1) st).map (·.1)

/-- `ofp_rt_lookup_init_global` (src/ofp_rt_mtrie_lookup.c:890-894): all slots free, an empty tree; `nodes` tree nodes in
the pool. -/
def RT.init (slots nodes : Nat) : RT where
  tree := { root := .nil, length := 0, free := nodes }
  data := fun _ => 0
  freeRules := List.range slots

/-! ### Specification -/

/-- The next hop stored for a prefix. -/
def RT.nextHop (rt : RT) (v a m : Nat) : Option Nat :=
  (rt.tree.root.toList.find? fun r => r.vrf = v ∧ r.addr = a ∧ r.len = m).map fun r => rt.data r.slot

/-- Two rules are for the same prefix. -/
def Rule.same (r q : Rule) : Prop := r.vrf = q.vrf ∧ r.addr = q.addr ∧ r.len = q.len

end Verif.Avl.Rules

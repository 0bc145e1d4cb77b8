import Verif.Avl.Model

/-!
# What the tree should be

Independent of the algorithms: the contents of a tree is the list of its keys from left to right; `Order` is what the
comparison function has to satisfy.
-/
namespace Verif.Avl

/-- The keys from left to right. -/
def T.toList {κ : Type} : T κ → List κ
  | .nil => []
  | .node l x _ _ r => l.toList ++ x :: r.toList

/-- The length of the longest path. -/
def T.height {κ : Type} : T κ → Nat
  | .nil => 0
  | .node l _ _ _ r => max l.height r.height + 1

/-- At every node the heights of the two subtrees differ by at most one, and the stored balance factor is the
difference. -/
def Balanced {κ : Type} : T κ → Prop
  | .nil => True
  | .node l _ _ b r => b = (r.height : Int) - l.height ∧ -1 ≤ b ∧ b ≤ 1 ∧ Balanced l ∧ Balanced r

/-- At every node the stored rank is one plus the number of keys of the left subtree (modulo 2^30). -/
def Ranked {κ : Type} : T κ → Prop
  | .nil => True
  | .node l _ rk _ r => rk = BitVec.ofNat 30 (l.toList.length + 1) ∧ Ranked l ∧ Ranked r

/-- The comparison function is a total preorder (equal keys allowed), reporting the sign consistently both ways. -/
structure Order {κ : Type} (cmp : κ → κ → Int) : Prop where
  refl : ∀ a, cmp a a = 0
  flip : ∀ a b, cmp a b < 0 ↔ 0 < cmp b a
  trans : ∀ a b c, cmp a b ≤ 0 → cmp b c ≤ 0 → cmp a c ≤ 0

/-- In non-decreasing order. -/
def Sorted {κ : Type} (cmp : κ → κ → Int) (xs : List κ) : Prop := xs.Pairwise fun a b => cmp a b ≤ 0

/-- A tree in good order apart from the ranks: balanced, sorted, and the count is right. -/
structure Good {κ : Type} (cmp : κ → κ → Int) (s : Tree κ) : Prop where
  bal : Balanced s.root
  sorted : Sorted cmp s.root.toList
  count : s.length = s.root.toList.length

/-- The number of elements smaller than `k`. -/
def below {κ : Type} (cmp : κ → κ → Int) (k : κ) (xs : List κ) : Nat := (xs.filter fun x => decide (cmp x k < 0)).length

end Verif.Avl

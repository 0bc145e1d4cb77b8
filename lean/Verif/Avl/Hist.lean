import Verif.Avl.RulesProps

/-!
# Histories of calls

Any sequence of insertions and deletions on an initially empty tree, the rule table against the map used by the model
of the route lookup, and what goes wrong with the ranks.
-/
namespace Verif.Avl
variable {κ : Type}

/-- A call. -/
inductive Op (κ : Type) where
  | ins (k : κ)
  | del (k : κ)

/-- One call on the model; `none` is a null pointer followed. -/
def step (cmp : κ → κ → Int) (s : Tree κ) : Op κ → Option (Tree κ × Int)
  | .ins k => insert cmp s k
  | .del k => (delete cmp s k).map fun r => (r.1, r.2.1)

/-- A sequence of calls and their results. -/
def run (cmp : κ → κ → Int) : Tree κ → List (Op κ) → Option (Tree κ × List Int)
  | s, [] => some (s, [])
  | s, o :: os =>
    match step cmp s o with
    | none => none
    | some (s', c) => (run cmp s' os).map fun r => (r.1, c :: r.2)

/-- Specification of one call on a bag of at most `n` keys, with its result. -/
inductive SpecStep (cmp : κ → κ → Int) (n : Nat) : List κ → Op κ → Int → List κ → Prop
  | ins {xs k} : xs.length < n → SpecStep cmp n xs (.ins k) 0 (k :: xs)
  | full {xs k} : xs.length = n → SpecStep cmp n xs (.ins k) (-1) xs
  | del {xs ys k y} : cmp k y = 0 → xs.Perm (y :: ys) → SpecStep cmp n xs (.del k) 0 ys
  | miss {xs k} : (∀ x ∈ xs, cmp k x ≠ 0) → SpecStep cmp n xs (.del k) (-1) xs

/-- Specification of a sequence of calls. -/
inductive SpecRun (cmp : κ → κ → Int) (n : Nat) : List κ → List (Op κ) → List Int → List κ → Prop
  | nil {xs} : SpecRun cmp n xs [] [] xs
  | cons {xs ys zs o os c cs} : SpecStep cmp n xs o c ys → SpecRun cmp n ys os cs zs → SpecRun cmp n xs (o :: os) (c :: cs) zs

theorem step_spec {cmp : κ → κ → Int} (ho : Order cmp) {s : Tree κ} (hg : Good cmp s) (xs : List κ) (hx : xs.Perm s.root.toList)
    (o : Op κ) :
    ∃ s' c ys, step cmp s o = some (s', c) ∧ Good cmp s' ∧ s'.length + s'.free = s.length + s.free ∧
      SpecStep cmp (s.length + s.free) xs o c ys ∧ ys.Perm s'.root.toList ∧
      (c = 0 → Ranked s.root → Ranked s'.root) := by
  have hlen : xs.length = s.length := by rw [hg.count]; exact hx.length_eq
  cases o with
  | ins k =>
    by_cases hf : s.free = 0
    · obtain ⟨s', e1, e2, e3, e4, e5⟩ := insert_full hg k hf
      exact ⟨s', -1, xs, e1, e2, by omega, .full (by omega), by rw [e3]; exact hx, fun h => by simp at h⟩
    · obtain ⟨s', e1, e2, e3, e4, a, b, f1, f2, _, _⟩ := insert_contents ho hg k (by omega)
      refine ⟨s', 0, k :: xs, e1, e2, ?_, .ins (by omega), ?_, fun _ => e4⟩
      · have h1 := hg.count
        have h2 := e2.count
        rw [f1] at h1
        rw [f2] at h2
        simp only [List.length_append, List.length_cons] at h1 h2
        omega
      · rw [f2]
        rw [f1] at hx
        exact (hx.cons k).trans List.perm_middle.symm
  | del k =>
    cases hk : getByKey cmp k s.root with
    | none =>
      obtain ⟨s', e1, e2, e3, e4⟩ := delete_miss hg hk
      refine ⟨s', -1, xs, by simp [step, e1], e2, ?_, .miss ?_, by rw [e4]; exact hx, fun h => by simp at h⟩
      · rw [hg.count, e2.count, e4, e3]
      · intro x hxm
        exact (getByKey_none ho hg.sorted).1 hk x (hx.mem_iff.1 hxm)
    | some y =>
      obtain ⟨s', e1, e2, e3, e4, a, b, f1, f2⟩ := delete_hit hg hk
      refine ⟨s', 0, s'.root.toList, by simp [step, e1], e2, ?_, .del (getByKey_some hk).2 ?_, List.Perm.refl _, fun _ => e4⟩
      · have h1 := hg.count
        have h2 := e2.count
        rw [f1] at h1
        rw [f2] at h2
        simp only [List.length_append, List.length_cons] at h1 h2
        omega
      · rw [f1] at hx
        rw [f2]
        exact hx.trans List.perm_middle

theorem run_spec {cmp : κ → κ → Int} (ho : Order cmp) (os : List (Op κ)) : ∀ {s : Tree κ}, Good cmp s → ∀ xs : List κ,
    xs.Perm s.root.toList → ∃ s' cs ys, run cmp s os = some (s', cs) ∧ Good cmp s' ∧
      s'.length + s'.free = s.length + s.free ∧
      SpecRun cmp (s.length + s.free) xs os cs ys ∧ ys.Perm s'.root.toList ∧
      ((∀ c ∈ cs, c = 0) → Ranked s.root → Ranked s'.root) := by
  induction os with
  | nil => intro s hg xs hx; exact ⟨s, [], xs, rfl, hg, rfl, .nil, hx, fun _ h => h⟩
  | cons o os ih =>
    intro s hg xs hx
    obtain ⟨s1, c, ys, e1, e2, e3, e4, e5, e6⟩ := step_spec ho hg xs hx o
    obtain ⟨s2, cs, zs, f1, f2, f3, f4, f5, f6⟩ := ih e2 ys e5
    rw [e3] at f4
    refine ⟨s2, c :: cs, zs, by simp [run, e1, f1], f2, by omega, .cons e4 f4, f5, ?_⟩
    intro h hr
    exact f6 (fun d hd => h d (by simp [hd])) (e6 (h c (by simp)) hr)

/-- The empty tree with `n` nodes in the pool. -/
def Tree.empty (n : Nat) : Tree κ := { root := .nil, length := 0, free := n }

theorem empty_good (cmp : κ → κ → Int) (n : Nat) : Good cmp (Tree.empty n : Tree κ) :=
  ⟨trivial, List.Pairwise.nil, rfl⟩

/-- **Any sequence of insertions and deletions** runs without following a null pointer, gives the results and the contents of
a bag of keys, and leaves a sorted tree whose subtrees differ in height by at most one. -/
theorem tree_refines_bag {cmp : κ → κ → Int} (ho : Order cmp) (n : Nat) (os : List (Op κ)) :
    ∃ s cs xs, run cmp (Tree.empty n) os = some (s, cs) ∧ SpecRun cmp n [] os cs xs ∧ xs.Perm s.root.toList ∧
      Sorted cmp s.root.toList ∧ Balanced s.root ∧ s.length = xs.length ∧ s.length + s.free = n := by
  obtain ⟨s, cs, ys, e1, e2, e3, e4, e5, _⟩ := run_spec ho os (empty_good cmp n) [] (List.Perm.refl _)
  have hn : (Tree.empty n : Tree κ).length + (Tree.empty n : Tree κ).free = n := by simp [Tree.empty]
  rw [hn] at e4 e3
  exact ⟨s, cs, ys, e1, e4, e5, e2.sorted, e2.bal, by rw [e2.count]; exact e5.length_eq.symm, e3⟩

/-- **Look-ups after any history**: a key is found exactly when an equal key is in the bag, the key returned is one of them,
and the number of comparisons is logarithmic. -/
theorem lookup_after_history {cmp : κ → κ → Int} (ho : Order cmp) (n : Nat) (os : List (Op κ)) (k : κ) :
    ∃ s cs xs, run cmp (Tree.empty n) os = some (s, cs) ∧ SpecRun cmp n [] os cs xs ∧
      (getByKey cmp k s.root = none ↔ ∀ x ∈ xs, cmp k x ≠ 0) ∧
      (∀ y, getByKey cmp k s.root = some y → y ∈ xs ∧ cmp k y = 0) ∧
      2 ^ (getSteps cmp k s.root / 2) ≤ xs.length + 1 := by
  obtain ⟨s, cs, ys, e1, e2, e3, e4, e5, _⟩ := run_spec ho os (empty_good cmp n) [] (List.Perm.refl _)
  have hn : (Tree.empty n : Tree κ).length + (Tree.empty n : Tree κ).free = n := by simp [Tree.empty]
  rw [hn] at e4
  refine ⟨s, cs, ys, e1, e4, ?_, ?_, ?_⟩
  · rw [getByKey_none ho e2.sorted]
    exact ⟨fun h x hx => h x (e5.mem_iff.1 hx), fun h x hx => h x (e5.mem_iff.2 hx)⟩
  · intro y hy
    obtain ⟨h1, h2⟩ := getByKey_some hy
    exact ⟨e5.mem_iff.2 h1, h2⟩
  · have := getSteps_log e2 k
    rw [e2.count, ← e5.length_eq] at this
    exact this

/-- **Walking the tree after any history** visits every key of the bag once, in order. -/
theorem iterate_after_history {σ : Type} {cmp : κ → κ → Int} (ho : Order cmp) (n : Nat) (os : List (Op κ))
    (f : σ → κ → σ × Int) (st : σ) :
    ∃ s cs xs L, run cmp (Tree.empty n) os = some (s, cs) ∧ SpecRun cmp n [] os cs xs ∧ xs.Perm L ∧ Sorted cmp L ∧
      iterate f s.root st = foldStop f L st := by
  obtain ⟨s, cs, xs, e1, e2, e3, e4, _⟩ := tree_refines_bag ho n os
  exact ⟨s, cs, xs, s.root.toList, e1, e2, e3, e4, iterate_spec f s.root st⟩

/-- **Access by position** is exact after any history in which every call succeeded. Missing: histories with a failed insertion or with
a deletion of an absent key (`index_after_miss_violated`, `index_after_full_violated`). -/
theorem index_after_history_partial {cmp : κ → κ → Int} (ho : Order cmp) (n : Nat) (hn : n < 2 ^ 30) (os : List (Op κ)) :
    ∃ s cs xs L, run cmp (Tree.empty n) os = some (s, cs) ∧ SpecRun cmp n [] os cs xs ∧ xs.Perm L ∧ Sorted cmp L ∧
      ((∀ c ∈ cs, c = 0) → (∀ i, getByRank (i + 1) s.root = L[i]?) ∧
        ∀ (σ : Type) (f : σ → κ → σ × Int) (st : σ) (low high : Nat), low < high → high ≤ L.length →
          iterRange f s low high st = some ((foldStop f ((L.drop low).take (high - low)) st).1,
            if (foldStop f ((L.drop low).take (high - low)) st).2 = 0 then 0 else -1)) := by
  obtain ⟨s, cs, ys, e1, e2, e3, e4, e5, e6⟩ := run_spec ho os (empty_good cmp n) [] (List.Perm.refl _)
  have h0 : (Tree.empty n : Tree κ).length + (Tree.empty n : Tree κ).free = n := by simp [Tree.empty]
  rw [h0] at e4 e3
  refine ⟨s, cs, ys, s.root.toList, e1, e4, e5, e2.sorted, fun h => ?_⟩
  have hr : Ranked s.root := e6 h trivial
  have hc := e2.count
  exact ⟨fun i => getByRank_spec s.root hr (by omega) i, fun σ f st low high h1 h2 =>
    iterRange_spec f s low high st hr hc (by omega) h1 (by omega)⟩

/-- **Successor and predecessor** walk the keys in order: at the `i`-th key, the next is the `i+1`-st, none only at the end;
the previous the `i-1`-st, none only at the start. -/
theorem next_prev_spec (t : T κ) (i : Nat) (p : Loc κ) (h : At t i p) :
    t.toList[i]? = some p.key ∧
    (next p).map Loc.key = t.toList[i + 1]? ∧ (∀ q, next p = some q → At t (i + 1) q) ∧
    (prev p).map Loc.key = (if i = 0 then none else t.toList[i - 1]?) ∧ (∀ q, prev p = some q → At t (i - 1) q) := by
  refine ⟨h.get, ?_, h.next.2, ?_, ?_⟩
  · cases hn : next p with
    | none =>
      have := h.next.1 hn
      rw [List.getElem?_eq_none (by omega)]; rfl
    | some q => rw [(h.next.2 q hn).get]; rfl
  · cases hn : prev p with
    | none =>
      have := h.prev.1 hn
      rw [if_pos this]; rfl
    | some q =>
      obtain ⟨j, hj, hq⟩ := h.prev.2 q hn
      rw [if_neg (by omega)]
      have : i - 1 = j := by omega
      rw [this, hq.get]; rfl
  · intro q hq
    obtain ⟨j, hj, hq⟩ := h.prev.2 q hq
    have : i - 1 = j := by omega
    rw [this]; exact hq

/-- The first node is the position of the first key. -/
theorem first_spec (s : Tree κ) : (first s = none ↔ s.root.toList = []) ∧ ∀ p, first s = some p → At s.root 0 p := by
  obtain ⟨h1, h2⟩ := leftmost_spec s.root []
  constructor
  · constructor
    · intro h; rw [h1 h]; rfl
    · intro h
      cases hr : s.root with
      | nil => unfold first; rw [hr]; rfl
      | node a b c d e => rw [hr] at h; simp [T.toList] at h
  · intro p hp
    obtain ⟨j1, j2⟩ := h2 p hp
    exact ⟨j1, by rw [j2]; rfl⟩

/-! ### Examples -/

/-- Integers in their order. -/
def cmpI (a b : Int) : Int := a - b

theorem order_cmpI : Order cmpI where
  refl a := by simp [cmpI]
  flip a b := by simp only [cmpI]; omega
  trans a b c := by simp only [cmpI]; omega

/-- A history with rotations, a duplicate, a failed insertion and a failed deletion. -/
def demo : List (Op Int) :=
  [.ins 5, .ins 3, .ins 8, .ins 1, .ins 4, .ins 7, .ins 9, .ins 2, .ins 2, .del 5, .del 8, .del 6, .del 3, .ins 10]

/-- Contents and results of the history. -/
example : ((run cmpI (Tree.empty 20) demo).map fun r => (r.1.root.toList, r.2)) =
    some ([1, 2, 2, 4, 7, 9, 10], [0, 0, 0, 0, 0, 0, 0, 0, 0, 0, 0, -1, 0, 0]) := by decide +kernel

/-- A history in which every call succeeds. -/
example : ((run cmpI (Tree.empty 4) [.ins 1, .ins 2, .ins 3, .del 1]).map fun r => (r.1.root.toList, r.2)) =
    some ([2, 3], [0, 0, 0, 0]) := by decide +kernel

/-- Position 1 of three keys, and its neighbours. -/
example : ∃ p, seek 2 (T.node (leaf 1) 2 2 0 (leaf (3 : Int))) [] = some p ∧ (next p).map Loc.key = some 3 ∧
    (prev p).map Loc.key = some 1 := ⟨_, rfl, by decide +kernel, by decide +kernel⟩

/-! ### What goes wrong with the ranks -/

/-- Deleting an absent key greater than every key raises the rank of the last node: afterwards the element at position 1 is
not found although the tree holds two keys. -/
theorem index_after_miss_violated :
    ∃ s cs, run cmpI (Tree.empty 4) [.ins 1, .ins 2, .del 5] = some (s, cs) ∧ cs = [0, 0, -1] ∧
      s.root.toList = [1, 2] ∧ getByRank 2 s.root = none := by
  refine ⟨_, _, rfl, by decide +kernel, by decide +kernel, by decide +kernel⟩

/-- An insertion that fails because no node is left leaves the ranks on its way raised: afterwards position 0 is not
found; and iterating over the range of all keys follows a null pointer. -/
theorem index_after_full_violated :
    ∃ s cs, run cmpI (Tree.empty 2) [.ins 2, .ins 3, .ins 1] = some (s, cs) ∧ cs = [0, 0, -1] ∧
      s.root.toList = [2, 3] ∧ getByRank 1 s.root = none ∧
      iterRange (fun (st : List Int) k => (k :: st, 0)) s 0 2 [] = none := by
  refine ⟨_, _, rfl, by decide +kernel, by decide +kernel, by decide +kernel, ?_⟩
  have h : ∀ r : Option (List Int × Int), r.isNone = true → r = none := by
    intro r; cases r <;> simp
  exact h _ (by decide +kernel)

/-! ### The packed word -/

/-- `AVL_GET_BALANCE` (include/ofpi_avl.h:48), plus one. -/
def getBalW (w : BitVec 32) : BitVec 32 := w &&& 3#32
/-- `AVL_GET_RANK` (include/ofpi_avl.h:50). -/
def getRankW (w : BitVec 32) : BitVec 32 := w >>> 2
/-- `AVL_SET_BALANCE` (include/ofpi_avl.h:52-54) of balance `b - 1`. -/
def setBalW (w b : BitVec 32) : BitVec 32 := (w &&& ~~~3#32) ||| b
/-- `AVL_SET_RANK` (include/ofpi_avl.h:56-58). -/
def setRankW (w r : BitVec 32) : BitVec 32 := (w &&& 3#32) ||| (r <<< 2)

theorem three_bit (i : Nat) : (3#32).getLsbD i = decide (i < 2) := by
  by_cases h : i < 32
  · have : ∀ j : Fin 32, (3#32).getLsbD j.1 = decide (j.1 < 2) := by decide
    exact this ⟨i, h⟩
  · rw [BitVec.getLsbD_of_ge _ _ (by omega)]
    symm; simp; omega

/-- The word keeps the two fields apart: setting one leaves the other, and reading a field gives what was set (ranks below
2^30, balances -1 to 1 stored as 0 to 2). -/
theorem word_fields (w b r : BitVec 32) (hb : b.toNat < 4) :
    getBalW (setBalW w b) = b ∧ getRankW (setBalW w b) = getRankW w ∧
    getBalW (setRankW w r) = getBalW w ∧ getRankW (setRankW w r) = r &&& 0x3fffffff#32 := by
  have hbit : ∀ i, 2 ≤ i → b.getLsbD i = false := by
    intro i hi
    have : b.toNat < 2 ^ i := Nat.lt_of_lt_of_le hb (by
      have : 2 ^ 2 ≤ 2 ^ i := Nat.pow_le_pow_right (by decide) hi
      omega)
    exact Nat.testBit_lt_two_pow this
  have hmask : ∀ i, (0x3fffffff#32).getLsbD i = decide (i < 30) := by
    intro i
    by_cases h : i < 32
    · have : ∀ j : Fin 32, (0x3fffffff#32).getLsbD j.1 = decide (j.1 < 30) := by decide
      exact this ⟨i, h⟩
    · rw [BitVec.getLsbD_of_ge _ _ (by omega)]
      symm; simp; omega
  refine ⟨?_, ?_, ?_, ?_⟩ <;> apply BitVec.eq_of_getLsbD_eq <;> intro i hi
  · simp only [getBalW, setBalW, BitVec.getLsbD_and, BitVec.getLsbD_or, BitVec.getLsbD_not, three_bit]
    by_cases h : i < 2
    · simp [h]
    · simp [h, hbit i (by omega)]
  · simp only [getRankW, setBalW, BitVec.getLsbD_and, BitVec.getLsbD_or, BitVec.getLsbD_not, three_bit, BitVec.getLsbD_ushiftRight]
    have h2 : ¬ 2 + i < 2 := by omega
    simp only [hbit (2 + i) (by omega), h2, decide_false, Bool.not_false, Bool.and_true, Bool.or_false]
    by_cases h3 : 2 + i < 32
    · simp [h3]
    · rw [BitVec.getLsbD_of_ge w _ (by omega)]; simp
  · simp only [getBalW, setRankW, BitVec.getLsbD_and, BitVec.getLsbD_or, three_bit, BitVec.getLsbD_shiftLeft]
    by_cases h : i < 2
    · simp [h]
    · simp [h]
  · simp only [getRankW, setRankW, BitVec.getLsbD_and, BitVec.getLsbD_or, three_bit, BitVec.getLsbD_shiftLeft,
      BitVec.getLsbD_ushiftRight, hmask]
    have h2 : ¬ 2 + i < 2 := by omega
    have h3 : 2 + i - 2 = i := by omega
    simp only [h2, h3, decide_false, Bool.and_false, Bool.false_or, Bool.not_false, Bool.and_true]
    by_cases h4 : i < 30
    · have : 2 + i < 32 := by omega
      simp [h4, this]
    · have : ¬ 2 + i < 32 := by omega
      simp [h4, this]

end Verif.Avl

namespace Verif.Avl.Rules
open Verif.Avl

/-- The tree-backed rule table represents the rule map of the model of the route lookup (`Verif.Mtrie`). -/
structure Sim (rt : RT) (s : Mtrie.St) : Prop where
  inv : Inv rt
  rules : ∀ v a m, rt.nextHop v a m = s.rules v a m
  slots : s.nrules + rt.freeRules.length = s.maxrules
  nodes : rt.freeRules.length ≤ rt.tree.free
  count : rt.tree.length = s.nrules

theorem netPrefix_lt (addr m : Nat) : Mtrie.netPrefix addr m < 2 ^ 32 := Nat.mod_lt _ (by decide)

/-- Initially. -/
theorem sim_init (roots nodes maxrules pool : Nat) (h : maxrules ≤ pool) :
    Sim (RT.init maxrules pool) (Mtrie.St.init roots nodes maxrules) := by
  obtain ⟨h1, h2⟩ := init_inv maxrules pool
  exact ⟨h1, fun v a m => h2 v a m, by simp [RT.init, Mtrie.St.init], by simpa [RT.init] using h, rfl⟩

/-- Adding. -/
theorem sim_add {rt : RT} {s : Mtrie.St} (h : Sim rt s) (v addr m d : Nat) (hm : m ≤ 32) :
    ∃ rt' c, add rt v (Mtrie.netPrefix addr m) m d = some (rt', c) ∧ Sim rt' (Mtrie.ruleAdd s v addr m d) := by
  obtain ⟨rt', c, e1, e2, e3, e4, e5, e6, e7, e8⟩ := add_map h.inv h.nodes v (Mtrie.netPrefix addr m) m d (netPrefix_lt _ _) hm
  refine ⟨rt', c, e1, ?_⟩
  have hr := h.rules v (Mtrie.netPrefix addr m) m
  have hsl := h.slots
  have hct := h.count
  unfold Mtrie.ruleAdd
  show Sim rt' (if s.rules v (Mtrie.netPrefix addr m) m ≠ none then _ else if s.nrules < s.maxrules then _ else s)
  by_cases h1 : s.rules v (Mtrie.netPrefix addr m) m ≠ none
  · rw [if_pos h1]
    rw [hr] at e5 e7
    rw [if_neg h1] at e7
    refine ⟨e2, fun v' a' m' => ?_, by show s.nrules + _ = s.maxrules; omega, e3, by show _ = s.nrules; omega⟩
    rw [e5 (Or.inl h1), h.rules]
  · rw [if_neg h1]
    have h1' : s.rules v (Mtrie.netPrefix addr m) m = none := by simpa using h1
    rw [hr] at e5 e6 e7
    rw [if_pos h1'] at e7
    by_cases h2 : s.nrules < s.maxrules
    · rw [if_pos h2]
      have hne : rt.freeRules ≠ [] := by
        intro hc; rw [hc] at hsl; simp at hsl; omega
      have hpos : 0 < rt.freeRules.length := List.length_pos_iff.2 hne
      refine ⟨e2, fun v' a' m' => ?_, by show s.nrules + 1 + _ = s.maxrules; omega, e3, by show _ = s.nrules + 1; omega⟩
      rw [e5 (Or.inr hne), h.rules]
    · rw [if_neg h2]
      have hnil : rt.freeRules = [] := by
        apply List.eq_nil_of_length_eq_zero; omega
      rw [e6 ⟨h1', hnil⟩]
      exact h

/-- Removing. -/
theorem sim_remove {rt : RT} {s : Mtrie.St} (h : Sim rt s) (v addr m : Nat) :
    ∃ rt' c, remove rt v (Mtrie.netPrefix addr m) m = some (rt', c) ∧ Sim rt' (Mtrie.ruleRemove s v addr m) := by
  obtain ⟨rt', c, e1, e2, e3, e4, e5, e6, e7⟩ := remove_map h.inv v (Mtrie.netPrefix addr m) m
  refine ⟨rt', c, e1, ?_⟩
  have hr := h.rules v (Mtrie.netPrefix addr m) m
  have hsl := h.slots
  have hct := h.count
  unfold Mtrie.ruleRemove
  show Sim rt' (if s.rules v (Mtrie.netPrefix addr m) m = none then s else _)
  rw [hr] at e5
  by_cases h1 : s.rules v (Mtrie.netPrefix addr m) m = none
  · rw [if_pos h1]
    rw [if_pos h1] at e5
    refine ⟨e2, fun v' a' m' => ?_, by omega, e6 h.nodes, by omega⟩
    rw [e4]
    by_cases hk : v' = v ∧ a' = Mtrie.netPrefix addr m ∧ m' = m
    · rw [if_pos hk]
      obtain ⟨rfl, rfl, rfl⟩ := hk
      exact h1.symm
    · rw [if_neg hk, h.rules]
  · rw [if_neg h1]
    rw [if_neg h1] at e5
    have hpos : 0 < s.nrules := by
      -- a stored rule occupies a slot
      refine Nat.pos_of_ne_zero fun hz => ?_
      have hnil : rt.tree.root.toList = [] := List.eq_nil_of_length_eq_zero (by rw [← h.inv.good.count]; omega)
      rw [← hr, nextHop_eq, hnil] at h1
      exact h1 rfl
    refine ⟨e2, fun v' a' m' => ?_, by show s.nrules - 1 + _ = s.maxrules; omega, e6 h.nodes, by show _ = s.nrules - 1; omega⟩
    rw [e4, h.rules]

/-- Searching. -/
theorem sim_search {rt : RT} {s : Mtrie.St} (h : Sim rt s) (v addr m : Nat) :
    (search rt v (Mtrie.netPrefix addr m) m).map (fun r => rt.data r.slot) = Mtrie.ruleSearch s v addr m := by
  rw [search_nextHop h.inv, h.rules]; rfl

/-- A call on the rule table. -/
inductive ROp where
  | add (v addr m d : Nat)
  | remove (v addr m : Nat)

/-- One call on the tree-backed table. -/
def rstep (rt : RT) : ROp → Option RT
  | .add v addr m d => (add rt v (Mtrie.netPrefix addr m) m d).map (·.1)
  | .remove v addr m => (remove rt v (Mtrie.netPrefix addr m) m).map (·.1)

/-- A sequence of calls on the tree-backed table. -/
def rrun : RT → List ROp → Option RT
  | rt, [] => some rt
  | rt, o :: os => (rstep rt o).bind fun rt' => rrun rt' os

/-- One call on the map: a new next hop replaces the old one; a new prefix needs one of the `slots` slots. -/
def mstep (slots : Nat) (M : List ((Nat × Nat × Nat) × Nat)) : ROp → List ((Nat × Nat × Nat) × Nat)
  | .add v addr m d =>
    let k := (v, Mtrie.netPrefix addr m, m)
    if (M.lookup k).isSome ∨ M.length < slots then (k, d) :: M.filter (fun e => e.1 ≠ k) else M
  | .remove v addr m => M.filter (fun e => e.1 ≠ (v, Mtrie.netPrefix addr m, m))

/-- A sequence of calls on the map. -/
def mrun (slots : Nat) : List ((Nat × Nat × Nat) × Nat) → List ROp → List ((Nat × Nat × Nat) × Nat)
  | M, [] => M
  | M, o :: os => mrun slots (mstep slots M o) os

theorem lookup_filter (M : List ((Nat × Nat × Nat) × Nat)) (k k' : Nat × Nat × Nat) :
    (M.filter (fun e => e.1 ≠ k)).lookup k' = if k' = k then none else M.lookup k' := by
  induction M with
  | nil => simp
  | cons e es ih =>
    obtain ⟨x, d⟩ := e
    by_cases hx : x = k
    · subst hx
      simp only [List.filter_cons, ne_eq, not_true_eq_false, decide_false, Bool.false_eq_true, if_false]
      simp only [ne_eq] at ih
      rw [ih]
      by_cases hk : k' = x
      · simp [hk]
      · rw [if_neg hk, if_neg hk, List.lookup_cons]
        have : (k' == x) = false := by simpa using hk
        rw [this]
    · simp only [List.filter_cons, ne_eq, hx, not_false_eq_true, decide_true, if_true, List.lookup_cons]
      simp only [ne_eq] at ih
      rw [ih]
      by_cases hk : k' = x
      · subst hk
        simp [hx]
      · have : (k' == x) = false := by simpa using hk
        rw [this]

theorem lookup_none {M : List ((Nat × Nat × Nat) × Nat)} {k : Nat × Nat × Nat} (h : M.lookup k = none) :
    ∀ e ∈ M, e.1 ≠ k := by
  induction M with
  | nil => simp
  | cons e es ih =>
    obtain ⟨x, d⟩ := e
    rw [List.lookup_cons] at h
    by_cases hk : k = x
    · subst hk; simp at h
    · have : (k == x) = false := by simpa using hk
      rw [this] at h
      intro e he
      rw [List.mem_cons] at he
      rcases he with rfl | he
      · exact fun hh => hk hh.symm
      · exact ih h e he

theorem filter_length {M : List ((Nat × Nat × Nat) × Nat)} (hnd : (M.map (·.1)).Nodup) (k : Nat × Nat × Nat) :
    (M.filter (fun e => e.1 ≠ k)).length + (if (M.lookup k).isSome then 1 else 0) = M.length := by
  induction M with
  | nil => simp
  | cons e es ih =>
    obtain ⟨x, d⟩ := e
    rw [List.map_cons, List.nodup_cons] at hnd
    by_cases hx : x = k
    · subst hx
      have hall : ∀ e ∈ es, e.1 ≠ x := by
        intro e he hh
        exact hnd.1 (by
          have := List.mem_map_of_mem (f := fun e : (Nat × Nat × Nat) × Nat => e.1) he
          rw [hh] at this; exact this)
      have : es.filter (fun e => e.1 ≠ x) = es := by
        rw [List.filter_eq_self]; intro e he; simpa using hall e he
      simp only [List.filter_cons, ne_eq, not_true_eq_false, decide_false, Bool.false_eq_true, if_false, List.lookup_cons,
        beq_self_eq_true, Option.isSome_some, if_true, List.length_cons]
      simp only [ne_eq] at this
      rw [this]
    · have hk : (k == x) = false := by simpa using fun h => hx h.symm
      have := ih hnd.2
      simp only [List.filter_cons, ne_eq, hx, not_false_eq_true, decide_true, if_true, List.lookup_cons, hk, List.length_cons]
      simp only [ne_eq] at this
      omega

/-- The relation kept along a history. -/
structure Rep (slots : Nat) (rt : RT) (M : List ((Nat × Nat × Nat) × Nat)) : Prop where
  inv : Inv rt
  map : ∀ v a m, rt.nextHop v a m = M.lookup (v, a, m)
  keys : (M.map (·.1)).Nodup
  size : M.length + rt.freeRules.length = slots
  nodes : rt.freeRules.length ≤ rt.tree.free
  count : rt.tree.length = M.length

theorem nodup_filter {M : List ((Nat × Nat × Nat) × Nat)} (hnd : (M.map (·.1)).Nodup) (k : Nat × Nat × Nat) :
    ((M.filter (fun e => e.1 ≠ k)).map (·.1)).Nodup ∧ k ∉ (M.filter (fun e => e.1 ≠ k)).map (·.1) := by
  constructor
  · exact List.Nodup.sublist (List.Sublist.map _ List.filter_sublist) hnd
  · rw [List.mem_map]
    rintro ⟨e, he, rfl⟩
    simp at he

theorem rep_step {slots : Nat} {rt : RT} {M : List ((Nat × Nat × Nat) × Nat)} (h : Rep slots rt M) (o : ROp)
    (ho : match o with | .add _ _ m _ => m ≤ 32 | .remove _ _ _ => True) :
    ∃ rt', rstep rt o = some rt' ∧ Rep slots rt' (mstep slots M o) := by
  have hsz := h.size
  have hct := h.count
  cases o with
  | add v addr m d =>
    obtain ⟨rt', c, e1, e2, e3, e4, e5, e6, e7, e8⟩ := add_map h.inv h.nodes v (Mtrie.netPrefix addr m) m d (netPrefix_lt _ _) ho
    refine ⟨rt', by simp [rstep, e1], ?_⟩
    have hr := h.map v (Mtrie.netPrefix addr m) m
    unfold mstep
    simp only
    generalize Mtrie.netPrefix addr m = a at *
    rw [hr] at e5 e6 e7
    have hfl := filter_length h.keys (v, a, m)
    obtain ⟨n1, n2⟩ := nodup_filter h.keys (v, a, m)
    have hmap : ((M.lookup (v, a, m)) ≠ none ∨ rt.freeRules ≠ []) → ∀ v' a' m', rt'.nextHop v' a' m' =
        (((v, a, m), d) :: M.filter (fun e => e.1 ≠ (v, a, m))).lookup (v', a', m') := by
      intro hc v' a' m'
      rw [e5 hc, List.lookup_cons, lookup_filter, h.map]
      by_cases hk : v' = v ∧ a' = a ∧ m' = m
      · obtain ⟨rfl, rfl, rfl⟩ := hk; simp
      · have hne : (v', a', m') ≠ (v, a, m) := by
          intro hh; simp only [Prod.mk.injEq] at hh; exact hk hh
        have : ((v', a', m') == (v, a, m)) = false := by simpa using hne
        rw [if_neg hk, this]
        simp only
        rw [if_neg hne]
    by_cases h1 : (M.lookup (v, a, m)).isSome = true
    · have hns : M.lookup (v, a, m) ≠ none := by
        intro hn; rw [hn] at h1; simp at h1
      rw [if_pos h1] at hfl
      rw [if_neg hns] at e7
      rw [if_pos (Or.inl h1)]
      refine ⟨e2, hmap (Or.inl hns), ?_, ?_, e3, ?_⟩
      · rw [List.map_cons, List.nodup_cons]; exact ⟨n2, n1⟩
      · rw [List.length_cons]; omega
      · rw [List.length_cons]; omega
    · have hn : M.lookup (v, a, m) = none := Option.not_isSome_iff_eq_none.1 h1
      rw [if_neg h1] at hfl
      rw [if_pos hn] at e7
      by_cases h2 : M.length < slots
      · have hne : rt.freeRules ≠ [] := by
          intro hc; rw [hc] at hsz; simp at hsz; omega
        have hpos : 0 < rt.freeRules.length := List.length_pos_iff.2 hne
        rw [if_pos (Or.inr h2)]
        refine ⟨e2, hmap (Or.inr hne), ?_, ?_, e3, ?_⟩
        · rw [List.map_cons, List.nodup_cons]; exact ⟨n2, n1⟩
        · rw [List.length_cons]; omega
        · rw [List.length_cons]; omega
      · have hnil : rt.freeRules = [] := by
          apply List.eq_nil_of_length_eq_zero; omega
        rw [if_neg (by intro hc; rcases hc with hc | hc; exact h1 hc; exact h2 hc), e6 ⟨hn, hnil⟩]
        exact h
  | remove v addr m =>
    obtain ⟨rt', c, e1, e2, e3, e4, e5, e6, e7⟩ := remove_map h.inv v (Mtrie.netPrefix addr m) m
    refine ⟨rt', by simp [rstep, e1], ?_⟩
    have hr := h.map v (Mtrie.netPrefix addr m) m
    unfold mstep
    simp only
    generalize Mtrie.netPrefix addr m = a at *
    rw [hr] at e5
    have hfl := filter_length h.keys (v, a, m)
    obtain ⟨n1, n2⟩ := nodup_filter h.keys (v, a, m)
    have hsize : (M.filter (fun e => e.1 ≠ (v, a, m))).length + rt'.freeRules.length = slots := by
      by_cases h1 : (M.lookup (v, a, m)).isSome = true
      · have hns : M.lookup (v, a, m) ≠ none := by
          intro hn; rw [hn] at h1; simp at h1
        rw [if_pos h1] at hfl
        rw [if_neg hns] at e5
        omega
      · have hn : M.lookup (v, a, m) = none := Option.not_isSome_iff_eq_none.1 h1
        rw [if_neg h1] at hfl
        rw [if_pos hn] at e5
        omega
    refine ⟨e2, ?_, n1, hsize, e6 h.nodes, ?_⟩
    · intro v' a' m'
      rw [e4, lookup_filter, h.map]
      by_cases hk : v' = v ∧ a' = a ∧ m' = m
      · obtain ⟨rfl, rfl, rfl⟩ := hk; simp
      · rw [if_neg hk, if_neg]
        intro hh; simp only [Prod.mk.injEq] at hh; exact hk hh
    · omega

theorem rep_run {slots : Nat} (os : List ROp) : ∀ {rt : RT} {M : List ((Nat × Nat × Nat) × Nat)}, Rep slots rt M →
    (∀ o ∈ os, match o with | .add _ _ m _ => m ≤ 32 | .remove _ _ _ => True) →
    ∃ rt', rrun rt os = some rt' ∧ Rep slots rt' (mrun slots M os) := by
  induction os with
  | nil => intro rt M h _; exact ⟨rt, rfl, h⟩
  | cons o os ih =>
    intro rt M h ho
    obtain ⟨rt1, e1, e2⟩ := rep_step h o (ho o (by simp))
    obtain ⟨rt2, f1, f2⟩ := ih e2 (fun x hx => ho x (by simp [hx]))
    exact ⟨rt2, by simp [rrun, e1, f1], f2⟩

/-- **The rule table is a map**: after any sequence of additions and removals (prefix lengths up to 32; at least as many tree
nodes in the pool as rule slots) the search finds for each prefix the next hop last added and not removed, and nothing for
the others. -/
theorem rules_after_history (slots pool : Nat) (hp : slots ≤ pool) (os : List ROp)
    (ho : ∀ o ∈ os, match o with | .add _ _ m _ => m ≤ 32 | .remove _ _ _ => True) :
    ∃ rt, rrun (RT.init slots pool) os = some rt ∧
      ∀ v a m, (search rt v a m).map (fun r => rt.data r.slot) = (mrun slots [] os).lookup (v, a, m) := by
  have h0 : Rep slots (RT.init slots pool) [] := by
    obtain ⟨h1, h2⟩ := init_inv slots pool
    exact ⟨h1, fun v a m => h2 v a m, List.nodup_nil, by simp [RT.init], by simpa [RT.init] using hp, rfl⟩
  obtain ⟨rt, e1, e2⟩ := rep_run os h0 ho
  exact ⟨rt, e1, fun v a m => by rw [search_nextHop e2.inv, e2.map]⟩

/-- **Listing the routes of a VRF**: after any such history the walk over a VRF calls the function once for each stored prefix of
that VRF, in increasing order of address and length, and for no other rule. -/
theorem vrf_listing_after_history (slots pool : Nat) (hp : slots ≤ pool) (hs : slots < 2 ^ 30) (os : List ROp)
    (ho : ∀ o ∈ os, match o with | .add _ _ m _ => m ≤ 32 | .remove _ _ _ => True) (v : Nat) :
    ∃ rt L, rrun (RT.init slots pool) os = some rt ∧
      vrfIter rt v (fun (acc : List (Nat × Nat × Nat)) r => (acc ++ [(r.addr, r.len, rt.data r.slot)], 0)) [] = some L ∧
      (∀ a m d, (a, m, d) ∈ L ↔ (mrun slots [] os).lookup (v, a, m) = some d) ∧
      L.Pairwise (fun x y => x.1 < y.1 ∨ (x.1 = y.1 ∧ x.2.1 < y.2.1)) := by
  have h0 : Rep slots (RT.init slots pool) [] := by
    obtain ⟨h1, h2⟩ := init_inv slots pool
    exact ⟨h1, fun v a m => h2 v a m, List.nodup_nil, by simp [RT.init], by simpa [RT.init] using hp, rfl⟩
  obtain ⟨rt, e1, e2⟩ := rep_run os h0 ho
  have hlen : rt.tree.length < 2 ^ 30 := by
    have := e2.size; have := e2.count; omega
  have fold : ∀ (xs : List Rule) (acc : List (Nat × Nat × Nat)),
      (foldStop (fun (acc : List (Nat × Nat × Nat)) r => (acc ++ [(r.addr, r.len, rt.data r.slot)], 0)) xs acc).1 =
        acc ++ xs.map fun r => (r.addr, r.len, rt.data r.slot) := by
    intro xs
    induction xs with
    | nil => intro acc; simp [foldStop]
    | cons x xs ih => intro acc; simp [foldStop, ih]
  refine ⟨rt, _, e1, vrfIter_spec e2.inv hlen v _ [], ?_, ?_⟩
  · intro a m d
    rw [fold, ← e2.map, nextHop_eq, List.nil_append, List.mem_map]
    constructor
    · rintro ⟨r, hr, heq⟩
      rw [List.mem_filter] at hr
      obtain ⟨hr1, hr2⟩ := hr
      simp only [decide_eq_true_eq] at hr2
      simp only [Prod.mk.injEq] at heq
      have := find_uniq e2.inv.uniq hr1
      rw [hr2, heq.1, heq.2.1] at this
      rw [this]
      simp [heq.2.2]
    · intro h
      cases hf : rt.tree.root.toList.find? (isKey v a m) with
      | none => rw [hf] at h; simp at h
      | some r =>
        rw [hf] at h
        simp only [Option.map_some, Option.some.injEq] at h
        have hm := List.mem_of_find?_eq_some hf
        have hk := List.find?_some hf
        simp only [isKey, decide_eq_true_eq] at hk
        exact ⟨r, List.mem_filter.2 ⟨hm, by simp [hk.1]⟩, by rw [hk.2.1, hk.2.2, h]⟩
  · rw [fold, List.nil_append, List.pairwise_map]
    have hall : rt.tree.root.toList.Pairwise (fun a b => cmpR a b ≤ 0 ∧ ¬ a.same b) :=
      List.pairwise_and_iff.2 ⟨e2.inv.good.sorted, e2.inv.uniq⟩
    have hf := List.Pairwise.sublist (List.filter_sublist (p := fun r : Rule => decide (r.vrf = v))) hall
    refine List.Pairwise.imp_of_mem ?_ hf
    intro a b hma hmb hab
    have ha := (List.mem_filter.1 hma).2
    have hb := (List.mem_filter.1 hmb).2
    simp only [decide_eq_true_eq] at ha hb
    have h1 := hab.1
    rw [cmpR_le] at h1
    have h2 := hab.2
    unfold Rule.same at h2
    show a.addr < b.addr ∨ (a.addr = b.addr ∧ a.len < b.len)
    omega

/-- Some routes in two VRFs, one replaced, one removed. -/
def demoRules : List ROp :=
  [.add 1 0x0a000000 8 100, .add 0 0x0a000000 8 7, .add 1 0x0a010000 16 101, .add 1 0 0 102, .add 1 0x0a0000ff 8 103,
   .add 2 0x0b000000 8 9, .remove 1 0x0a010000 16, .add 1 0xffffffff 32 104]

/-- Listing VRF 1. -/
example : ((rrun (RT.init 8 8) demoRules).bind fun rt =>
    vrfIter rt 1 (fun (acc : List (Nat × Nat × Nat)) r => (acc ++ [(r.addr, r.len, rt.data r.slot)], 0)) []) =
    some [(0, 0, 102), (0x0a000000, 8, 103), (0xffffffff, 32, 104)] := by decide +kernel

end Verif.Avl.Rules

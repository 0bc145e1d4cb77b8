import Verif.Avl.Rules
namespace Verif.Avl.Rules
open Verif.Avl

theorem cmpR_lt (a b : Rule) : cmpR a b < 0 ↔
    a.vrf < b.vrf ∨ (a.vrf = b.vrf ∧ (a.addr < b.addr ∨ (a.addr = b.addr ∧ a.len < b.len))) := by
  unfold cmpR; repeat' split
  all_goals omega

theorem cmpR_gt (a b : Rule) : 0 < cmpR a b ↔
    b.vrf < a.vrf ∨ (a.vrf = b.vrf ∧ (b.addr < a.addr ∨ (a.addr = b.addr ∧ b.len < a.len))) := by
  unfold cmpR; repeat' split
  all_goals omega

theorem cmpR_zero (a b : Rule) : cmpR a b = 0 ↔ a.same b := by
  unfold cmpR Rule.same; repeat' split
  all_goals omega

theorem cmpR_le (a b : Rule) : cmpR a b ≤ 0 ↔
    a.vrf < b.vrf ∨ (a.vrf = b.vrf ∧ (a.addr < b.addr ∨ (a.addr = b.addr ∧ a.len ≤ b.len))) := by
  have := cmpR_gt a b
  constructor
  · intro h
    have : ¬ 0 < cmpR a b := by omega
    rw [cmpR_gt] at this
    omega
  · intro h
    have : ¬ 0 < cmpR a b := by rw [cmpR_gt]; omega
    omega

/-- The comparison of rules is an order. -/
theorem order_cmpR : Order cmpR where
  refl a := by rw [cmpR_zero]; exact ⟨rfl, rfl, rfl⟩
  flip a b := by rw [cmpR_lt, cmpR_gt]; omega
  trans a b c := by rw [cmpR_le, cmpR_le, cmpR_le]; omega

/-- What holds of the rule table between calls. -/
structure Inv (rt : RT) : Prop where
  good : Good cmpR rt.tree
  rank : Ranked rt.tree.root
  uniq : rt.tree.root.toList.Pairwise fun a b => ¬ a.same b
  slots : (rt.tree.root.toList.map Rule.slot ++ rt.freeRules).Nodup
  bound : ∀ r ∈ rt.tree.root.toList, r.addr < 2 ^ 32 ∧ r.len ≤ 32

/-- The test used by `nextHop`. -/
def isKey (v a m : Nat) (r : Rule) : Bool := decide (r.vrf = v ∧ r.addr = a ∧ r.len = m)

theorem nextHop_eq (rt : RT) (v a m : Nat) :
    rt.nextHop v a m = (rt.tree.root.toList.find? (isKey v a m)).map fun r => rt.data r.slot := rfl

theorem find_uniq {L : List Rule} (hu : L.Pairwise fun a b => ¬ a.same b) {r : Rule} (hr : r ∈ L) :
    L.find? (isKey r.vrf r.addr r.len) = some r := by
  induction L with
  | nil => cases hr
  | cons x xs ih =>
    rw [List.pairwise_cons] at hu
    rw [List.find?_cons]
    rw [List.mem_cons] at hr
    rcases hr with rfl | hr
    · simp [isKey]
    · have hne := hu.1 r hr
      have : isKey r.vrf r.addr r.len x = false := by
        simp only [isKey, decide_eq_false_iff_not]; exact hne
      rw [this]
      exact ih hu.2 hr

theorem search_find {rt : RT} (hi : Inv rt) (v a m : Nat) :
    search rt v a m = rt.tree.root.toList.find? (isKey v a m) := by
  unfold search
  cases h : getByKey cmpR ⟨0, v, a, m⟩ rt.tree.root with
  | none =>
    have := (getByKey_none order_cmpR hi.good.sorted).1 h
    symm
    rw [List.find?_eq_none]
    intro r hr
    have h1 := this r hr
    simp only [isKey, decide_eq_true_eq]
    intro h2
    exact h1 ((cmpR_zero _ _).2 ⟨h2.1.symm, h2.2.1.symm, h2.2.2.symm⟩)
  | some r =>
    obtain ⟨h1, h2⟩ := getByKey_some h
    obtain ⟨e1, e2, e3⟩ := (cmpR_zero _ _).1 h2
    simp only at e1 e2 e3
    rw [e1, e2, e3]
    exact (find_uniq hi.uniq h1).symm

/-- Searching finds a rule exactly for the stored prefixes. -/
theorem search_nextHop {rt : RT} (hi : Inv rt) (v a m : Nat) :
    (search rt v a m).map (fun r => rt.data r.slot) = rt.nextHop v a m := by
  rw [search_find hi, nextHop_eq]

theorem find_insert {x y : List Rule} {k : Rule} (v a m : Nat) :
    (x ++ k :: y).find? (isKey v a m) =
      if isKey v a m k = true then (x.find? (isKey v a m)).or (some k) else (x ++ y).find? (isKey v a m) := by
  rw [List.find?_append, List.find?_append, List.find?_cons]
  by_cases h : isKey v a m k = true
  · rw [if_pos h, h]
  · have : isKey v a m k = false := by simpa using h
    rw [if_neg h, this]

/-- Adding a rule: the table then maps the prefix to the new next hop, and nothing else changes; only when the prefix is new and
no slot is free does nothing happen. (The return value is 0 only for a new rule.) -/
theorem add_map {rt : RT} (hi : Inv rt) (hfree : rt.freeRules.length ≤ rt.tree.free) (v a m d : Nat) (ha : a < 2 ^ 32)
    (hm : m ≤ 32) :
    ∃ rt' c, add rt v a m d = some (rt', c) ∧ Inv rt' ∧ rt'.freeRules.length ≤ rt'.tree.free ∧
      (c = 0 ↔ rt.nextHop v a m = none ∧ rt.freeRules ≠ []) ∧
      (rt.nextHop v a m ≠ none ∨ rt.freeRules ≠ [] → ∀ v' a' m',
        rt'.nextHop v' a' m' = if v' = v ∧ a' = a ∧ m' = m then some d else rt.nextHop v' a' m') ∧
      (rt.nextHop v a m = none ∧ rt.freeRules = [] → rt' = rt) ∧
      rt'.freeRules.length = (if rt.nextHop v a m = none then rt.freeRules.length - 1 else rt.freeRules.length) ∧
      rt'.tree.length + rt'.freeRules.length = rt.tree.length + rt.freeRules.length := by
  have hs := search_nextHop hi v a m
  unfold add
  cases h : search rt v a m with
  | some r =>
    have hsome : rt.nextHop v a m ≠ none := by rw [← hs, h]; simp
    have hfind := search_find hi v a m
    rw [h] at hfind
    have hr : r ∈ rt.tree.root.toList := List.mem_of_find?_eq_some hfind.symm
    have hkey := List.find?_some hfind.symm
    simp only [isKey, decide_eq_true_eq] at hkey
    refine ⟨_, _, rfl, ⟨hi.good, hi.rank, hi.uniq, hi.slots, hi.bound⟩, hfree, ?_, ?_, fun h => absurd h.1 hsome, ?_, rfl⟩
    · exact ⟨fun h => by simp at h, fun h => absurd h.1 hsome⟩
    · intro _ v' a' m'
      rw [nextHop_eq, nextHop_eq]
      show Option.map _ (rt.tree.root.toList.find? (isKey v' a' m')) = _
      by_cases hk : v' = v ∧ a' = a ∧ m' = m
      · rw [if_pos hk]
        obtain ⟨rfl, rfl, rfl⟩ := hk
        rw [← hfind]
        simp
      · rw [if_neg hk]
        cases hf : rt.tree.root.toList.find? (isKey v' a' m') with
        | none => rfl
        | some q =>
          have hq := List.mem_of_find?_eq_some hf
          have hqk := List.find?_some hf
          simp only [isKey, decide_eq_true_eq] at hqk
          have hne : q.slot ≠ r.slot := by
            intro he
            have hnd := hi.slots
            rw [List.nodup_append] at hnd
            have hinj := hnd.1
            have : q = r := by
              refine Classical.byContradiction fun hqr => ?_
              exact absurd he (by
                have := List.pairwise_map.1 hinj
                have h3 : ∀ L : List Rule, L.Pairwise (fun a b => a.slot ≠ b.slot) → q ∈ L → r ∈ L → q.slot ≠ r.slot := by
                  intro L hL
                  induction L with
                  | nil => intro h; cases h
                  | cons z zs ih =>
                    rw [List.pairwise_cons] at hL
                    intro h1 h2
                    rw [List.mem_cons] at h1 h2
                    rcases h1 with rfl | h1 <;> rcases h2 with rfl | h2
                    · exact absurd rfl hqr
                    · exact hL.1 r h2
                    · exact fun h => hL.1 q h1 h.symm
                    · exact ih hL.2 h1 h2
                exact h3 _ this hq hr)
            subst this
            exact hk ⟨by omega, by omega, by omega⟩
          simp [hne]
    · rw [if_neg hsome]
  | none =>
    have hnone : rt.nextHop v a m = none := by rw [← hs, h]; rfl
    have hfind := search_find hi v a m
    rw [h] at hfind
    cases hfr : rt.freeRules with
    | nil =>
      refine ⟨rt, -1, rfl, hi, hfree, ⟨fun h => by simp at h, fun h => absurd rfl h.2⟩, ?_, fun _ => rfl, ?_, by rw [hfr]⟩
      · intro h; rcases h with h | h
        · exact absurd hnone h
        · exact absurd rfl h
      · rw [if_pos hnone, hfr]; rfl
    | cons i rest =>
      have hpos : 0 < rt.tree.free := by rw [hfr] at hfree; simp at hfree; omega
      obtain ⟨t, t1, t2, t3, t4, x, y, e1, e2, e3, e4⟩ := insert_contents order_cmpR hi.good ⟨i, v, a, m⟩ hpos
      simp only
      rw [t1]
      have hnot : ∀ r ∈ x ++ y, ¬ (r.vrf = v ∧ r.addr = a ∧ r.len = m) := by
        rw [e1] at hfind
        have := List.find?_eq_none.1 hfind.symm
        intro r hr
        have := this r hr
        simpa [isKey] using this
      have hnd := hi.slots
      rw [hfr, e1] at hnd
      refine ⟨{ tree := t, data := fun j => if j = i then d else rt.data j, freeRules := rest }, 0, by simp,
        ⟨t2, t4 hi.rank, ?_, ?_, ?_⟩, ?_, ⟨fun _ => ⟨hnone, by simp⟩, fun _ => rfl⟩, ?_, fun h => by simp at h, ?_, ?_⟩
      · show t.root.toList.Pairwise _
        rw [e2]
        have hu := hi.uniq
        rw [e1, List.pairwise_append] at hu
        rw [List.pairwise_append, List.pairwise_cons]
        refine ⟨hu.1, ⟨?_, hu.2.1⟩, ?_⟩
        · intro r hr hsame
          exact hnot r (by simp [hr]) ⟨hsame.1.symm, hsame.2.1.symm, hsame.2.2.symm⟩
        · intro r hr q hq
          rw [List.mem_cons] at hq
          rcases hq with rfl | hq
          · intro hsame; exact hnot r (by simp [hr]) hsame
          · exact hu.2.2 r hr q hq
      · show (t.root.toList.map Rule.slot ++ rest).Nodup
        rw [e2]
        have hperm : ((x ++ (⟨i, v, a, m⟩ : Rule) :: y).map Rule.slot ++ rest).Perm ((x ++ y).map Rule.slot ++ i :: rest) := by
          simp only [List.map_append, List.map_cons, List.append_assoc, List.cons_append]
          refine List.Perm.trans List.perm_middle ?_
          have h1 : (i :: (x.map Rule.slot ++ (y.map Rule.slot ++ rest))).Perm (x.map Rule.slot ++ (y.map Rule.slot ++ i :: rest)) := by
            rw [← List.append_assoc, ← List.append_assoc]
            exact List.perm_middle.symm
          exact h1
        exact hperm.nodup_iff.2 hnd
      · intro r hr
        replace hr : r ∈ t.root.toList := hr
        rw [e2, List.mem_append, List.mem_cons] at hr
        rcases hr with hr | rfl | hr
        · exact hi.bound r (by rw [e1]; simp [hr])
        · exact ⟨ha, hm⟩
        · exact hi.bound r (by rw [e1]; simp [hr])
      · show rest.length ≤ t.free
        rw [hfr] at hfree
        simp at hfree
        omega
      · intro _ v' a' m'
        rw [nextHop_eq, nextHop_eq]
        show Option.map _ (t.root.toList.find? (isKey v' a' m')) = _
        rw [e2, find_insert]
        by_cases hk : v' = v ∧ a' = a ∧ m' = m
        · rw [if_pos hk]
          obtain ⟨rfl, rfl, rfl⟩ := hk
          have hx : x.find? (isKey v' a' m') = none := by
            rw [List.find?_eq_none]
            intro r hr
            have := hnot r (by simp [hr])
            simpa [isKey] using this
          rw [if_pos (by simp [isKey]), hx]
          simp
        · have hk' : ¬ isKey v' a' m' ⟨i, v, a, m⟩ = true := by
            simp only [isKey, decide_eq_true_eq]
            intro hh; exact hk ⟨hh.1.symm, hh.2.1.symm, hh.2.2.symm⟩
          rw [if_neg hk, if_neg hk', e1]
          cases hf : (x ++ y).find? (isKey v' a' m') with
          | none => rfl
          | some q =>
            have hq := List.mem_of_find?_eq_some hf
            have hne : q.slot ≠ i := by
              rw [List.nodup_append] at hnd
              intro he
              exact hnd.2.2 q.slot (List.mem_map_of_mem hq) i (by simp) he
            simp [hne]
      · rw [if_pos hnone]; simp
      · have c1 := t2.count
        have c2 := hi.good.count
        rw [e2] at c1
        rw [e1] at c2
        simp only [List.length_append, List.length_cons] at c1 c2
        show t.length + rest.length = rt.tree.length + (rest.length + 1)
        omega

/-- Removing a rule: the table then has no next hop for the prefix, nothing else changes, and the slot is free again. -/
theorem remove_map {rt : RT} (hi : Inv rt) (v a m : Nat) :
    ∃ rt' c, remove rt v a m = some (rt', c) ∧ Inv rt' ∧
      (c = 0 ↔ rt.nextHop v a m ≠ none) ∧
      (∀ v' a' m', rt'.nextHop v' a' m' = if v' = v ∧ a' = a ∧ m' = m then none else rt.nextHop v' a' m') ∧
      rt'.freeRules.length = (if rt.nextHop v a m = none then rt.freeRules.length else rt.freeRules.length + 1) ∧
      (rt.freeRules.length ≤ rt.tree.free → rt'.freeRules.length ≤ rt'.tree.free) ∧
      rt'.tree.length + rt'.freeRules.length = rt.tree.length + rt.freeRules.length := by
  have hs := search_nextHop hi v a m
  have hfind := search_find hi v a m
  unfold remove
  cases h : search rt v a m with
  | none =>
    have hnone : rt.nextHop v a m = none := by rw [← hs, h]; rfl
    refine ⟨rt, -1, rfl, hi, ⟨fun h => by simp at h, fun h => absurd hnone h⟩, ?_, by rw [if_pos hnone], fun h => h, rfl⟩
    intro v' a' m'
    by_cases hk : v' = v ∧ a' = a ∧ m' = m
    · rw [if_pos hk]
      obtain ⟨rfl, rfl, rfl⟩ := hk
      exact hnone
    · rw [if_neg hk]
  | some r =>
    rw [h] at hfind
    have hsome : rt.nextHop v a m ≠ none := by rw [← hs, h]; simp
    have hr : r ∈ rt.tree.root.toList := List.mem_of_find?_eq_some hfind.symm
    have hkey := List.find?_some hfind.symm
    simp only [isKey, decide_eq_true_eq] at hkey
    have hget : getByKey cmpR r rt.tree.root = some r := by
      cases hg : getByKey cmpR r rt.tree.root with
      | none =>
        exact absurd ((order_cmpR).refl r) ((getByKey_none order_cmpR hi.good.sorted).1 hg r hr)
      | some q =>
        obtain ⟨q1, q2⟩ := getByKey_some hg
        have hqr : r.same q := (cmpR_zero _ _).1 q2
        have f1 := find_uniq hi.uniq hr
        have f2 := find_uniq hi.uniq q1
        rw [hqr.1, hqr.2.1, hqr.2.2] at f1
        rw [f1] at f2
        exact f2.symm
    obtain ⟨t, t1, t2, t3, t4, x, y, e1, e2⟩ := delete_hit hi.good hget
    simp only
    rw [t1]
    have hu := hi.uniq
    rw [e1, List.pairwise_append, List.pairwise_cons] at hu
    have hnd := hi.slots
    rw [e1] at hnd
    have hnot : ∀ q ∈ x ++ y, ¬ isKey v a m q = true := by
      intro q hq hk
      simp only [isKey, decide_eq_true_eq] at hk
      rw [List.mem_append] at hq
      rcases hq with hq | hq
      · exact hu.2.2 q hq r (by simp) ⟨by omega, by omega, by omega⟩
      · exact hu.2.1.1 q hq ⟨by omega, by omega, by omega⟩
    refine ⟨{ rt with tree := t, freeRules := r.slot :: rt.freeRules }, 0, rfl, ⟨t2, t4 hi.rank, ?_, ?_, ?_⟩,
      ⟨fun _ => hsome, fun _ => rfl⟩, ?_, by rw [if_neg hsome]; rfl, ?_, ?_⟩
    · show t.root.toList.Pairwise _
      rw [e2, List.pairwise_append]
      exact ⟨hu.1, hu.2.1.2, fun p hp q hq => hu.2.2 p hp q (by simp [hq])⟩
    · show (t.root.toList.map Rule.slot ++ r.slot :: rt.freeRules).Nodup
      rw [e2]
      have hperm : ((x ++ r :: y).map Rule.slot ++ rt.freeRules).Perm ((x ++ y).map Rule.slot ++ r.slot :: rt.freeRules) := by
        simp only [List.map_append, List.map_cons, List.append_assoc, List.cons_append]
        refine List.Perm.trans List.perm_middle ?_
        rw [← List.append_assoc, ← List.append_assoc]
        exact List.perm_middle.symm
      exact hperm.nodup_iff.1 hnd
    · intro q hq
      replace hq : q ∈ t.root.toList := hq
      rw [e2] at hq
      refine hi.bound q ?_
      rw [e1]
      rw [List.mem_append] at hq ⊢
      rcases hq with hq | hq
      · exact Or.inl hq
      · exact Or.inr (by simp [hq])
    · intro v' a' m'
      rw [nextHop_eq, nextHop_eq]
      show Option.map _ (t.root.toList.find? (isKey v' a' m')) = _
      rw [e2]
      by_cases hk : v' = v ∧ a' = a ∧ m' = m
      · rw [if_pos hk]
        obtain ⟨rfl, rfl, rfl⟩ := hk
        rw [List.find?_eq_none.2 hnot]; rfl
      · rw [if_neg hk, e1, find_insert, if_neg]
        simp only [isKey, decide_eq_true_eq]
        intro hh; exact hk ⟨by omega, by omega, by omega⟩
    · intro hle
      show rt.freeRules.length + 1 ≤ t.free
      omega
    · have c1 := t2.count
      have c2 := hi.good.count
      rw [e2] at c1
      rw [e1] at c2
      simp only [List.length_append, List.length_cons] at c1 c2
      show t.length + (rt.freeRules.length + 1) = rt.tree.length + rt.freeRules.length
      omega

/-- The empty table. -/
theorem init_inv (slots nodes : Nat) : Inv (RT.init slots nodes) ∧ ∀ v a m, (RT.init slots nodes).nextHop v a m = none := by
  refine ⟨⟨⟨trivial, ?_, rfl⟩, trivial, ?_, ?_, ?_⟩, fun v a m => rfl⟩
  · simp [RT.init, T.toList, Sorted]
  · simp [RT.init, T.toList]
  · simp [RT.init, T.toList, List.nodup_range]
  · simp [RT.init, T.toList]

/-! ### Walking the rules of a VRF -/

/-- In a list sorted by a number, the elements with one value are a contiguous section. -/
theorem section_eq {α : Type} (g : α → Nat) (v : Nat) (L : List α) (hs : L.Pairwise fun a b => g a ≤ g b) :
    (L.drop (L.filter fun x => decide (g x < v)).length).take (L.filter fun x => decide (g x = v)).length =
      L.filter fun x => decide (g x = v) := by
  induction L with
  | nil => simp
  | cons x xs ih =>
    rw [List.pairwise_cons] at hs
    by_cases h1 : g x < v
    · have h2 : ¬ g x = v := by omega
      simp only [List.filter_cons, h1, h2, decide_true, decide_false, if_true, List.length_cons, List.drop_succ_cons,
        Bool.false_eq_true, if_false]
      exact ih hs.2
    · have hnil : xs.filter (fun x => decide (g x < v)) = [] := by
        rw [List.filter_eq_nil_iff]
        intro y hy
        have := hs.1 y hy
        simp only [decide_eq_true_eq]; omega
      have ih' := ih hs.2
      rw [hnil] at ih'
      simp only [List.length_nil, List.drop_zero] at ih'
      by_cases h2 : g x = v
      · simp only [List.filter_cons, h1, h2, decide_true, decide_false, Bool.false_eq_true, if_true, if_false, hnil,
          List.length_nil, List.drop_zero, List.length_cons, List.take_succ_cons]
        have h3 : ¬ v < v := by omega
        simp only [h3, decide_false, Bool.false_eq_true, if_false, List.length_nil, List.drop_zero, List.take_succ_cons]
        rw [ih']
      · have hnil2 : xs.filter (fun x => decide (g x = v)) = [] := by
          rw [List.filter_eq_nil_iff]
          intro y hy
          have := hs.1 y hy
          simp only [decide_eq_true_eq]; omega
        simp [List.filter_cons, h1, h2, hnil2]

theorem filter_length_eq {α : Type} (p q : α → Bool) (L : List α) (h : ∀ x ∈ L, p x = q x) :
    (L.filter p).length = (L.filter q).length := by
  rw [List.filter_congr h]

/-- Walking the rules of a VRF calls the function on exactly the stored rules of that VRF, in increasing order of
address and length, until it returns nonzero. -/
theorem vrfIter_spec {σ : Type} {rt : RT} (hi : Inv rt) (hn : rt.tree.length < 2 ^ 30) (v : Nat)
    (f : σ → Rule → σ × Int) (st : σ) :
    vrfIter rt v f st = some (foldStop f (rt.tree.root.toList.filter fun r => decide (r.vrf = v)) st).1 := by
  have hs := hi.good.sorted
  have hvrf : rt.tree.root.toList.Pairwise fun a b => a.vrf ≤ b.vrf := by
    refine List.Pairwise.imp ?_ hs
    intro a b h
    rw [cmpR_le] at h; omega
  obtain ⟨l1, l2⟩ := getLeast_spec order_cmpR ⟨0, v, 0, 0⟩ rt.tree.root none hs
  obtain ⟨m1, m2⟩ := getMost_spec order_cmpR ⟨0, v, 0xFFFFFFFF, 32⟩ rt.tree.root none hs
  have geL : ∀ r : Rule, cmpR ⟨0, v, 0, 0⟩ r ≤ 0 ↔ v ≤ r.vrf := by
    intro r; rw [cmpR_le]; simp only; omega
  have leM : ∀ r ∈ rt.tree.root.toList, (cmpR r ⟨0, v, 0xFFFFFFFF, 32⟩ ≤ 0 ↔ r.vrf ≤ v) := by
    intro r hr
    have := hi.bound r hr
    rw [cmpR_le]; simp only; omega
  have empty : (∀ r ∈ rt.tree.root.toList, r.vrf ≠ v) →
      foldStop f (rt.tree.root.toList.filter fun r => decide (r.vrf = v)) st = (st, 0) := by
    intro h
    have : rt.tree.root.toList.filter (fun r => decide (r.vrf = v)) = [] := by
      rw [List.filter_eq_nil_iff]
      intro r hr
      simp only [decide_eq_true_eq]
      exact h r hr
    rw [this]; rfl
  unfold vrfIter
  cases hL : getLeast cmpR ⟨0, v, 0, 0⟩ rt.tree.root none with
  | none =>
    have := (l2 hL).2
    rw [empty (fun r hr h => this r hr ((geL r).2 (by omega)))]
  | some r =>
    rcases l1 r hL with ⟨a1, a2, a3⟩ | ⟨a1, _⟩
    · by_cases hrv : r.vrf = v
      · simp only [hrv, ne_eq, not_true_eq_false, if_false]
        rw [spanLow_spec order_cmpR hi.good hi.rank hn r ⟨r, a1, order_cmpR.refl r⟩]
        cases hM : getMost cmpR ⟨0, v, 0xFFFFFFFF, 32⟩ rt.tree.root none with
        | none => exact absurd ((leM r a1).2 (by omega)) ((m2 hM).2 r a1)
        | some q =>
          rcases m1 q hM with ⟨b1, b2, b3⟩ | ⟨b1, _⟩
          · have hqv : q.vrf = v := by
              have h1 := (leM q b1).1 b2
              have h2 := b3 r a1 ((leM r a1).2 (by omega))
              rw [cmpR_le] at h2
              omega
            simp only [hqv, not_true_eq_false, if_false]
            rw [spanLow_spec order_cmpR hi.good hi.rank hn q ⟨q, b1, order_cmpR.refl q⟩]
            simp only
            -- the two indices
            have hlow : below cmpR r rt.tree.root.toList = (rt.tree.root.toList.filter fun x => decide (x.vrf < v)).length := by
              refine filter_length_eq _ _ _ fun x hx => ?_
              have : cmpR x r < 0 ↔ x.vrf < v := by
                constructor
                · intro h
                  refine Classical.byContradiction fun hc => ?_
                  have := a3 x hx ((geL x).2 (by omega))
                  have := (order_cmpR.flip x r).1 h
                  omega
                · intro h; rw [cmpR_lt]; omega
              by_cases h : x.vrf < v
              · simp [h, this.2 h]
              · have hh : ¬ cmpR x r < 0 := fun h' => h (this.1 h')
                simp [h, hh]
            -- split the list at q
            obtain ⟨A, B, hAB⟩ := List.append_of_mem b1
            have hu := hi.uniq
            have hs' := hs
            unfold Sorted at hs'
            rw [hAB, List.pairwise_append, List.pairwise_cons] at hu hs'
            have hhigh : below cmpR q rt.tree.root.toList = A.length := by
              unfold below
              rw [hAB, List.filter_append]
              have hA : A.filter (fun x => decide (cmpR x q < 0)) = A := by
                rw [List.filter_eq_self]
                intro x hx
                have h1 := hs'.2.2 x hx q (by simp)
                have h2 := hu.2.2 x hx q (by simp)
                have h3 : cmpR x q ≠ 0 := fun h => h2 ((cmpR_zero _ _).1 h)
                simp only [decide_eq_true_eq]; omega
              have hB : (q :: B).filter (fun x => decide (cmpR x q < 0)) = [] := by
                rw [List.filter_eq_nil_iff]
                intro x hx
                simp only [decide_eq_true_eq]
                intro h
                have h1 := (order_cmpR.flip x q).1 h
                rw [List.mem_cons] at hx
                rcases hx with rfl | hx
                · have := order_cmpR.refl x; omega
                · have := hs'.2.1.1 x hx; omega
              rw [hA, hB, List.append_nil]
            have hcount : (rt.tree.root.toList.filter fun x => decide (x.vrf < v)).length +
                (rt.tree.root.toList.filter fun x => decide (x.vrf = v)).length = A.length + 1 := by
              have hAle : ∀ x ∈ A, x.vrf ≤ v := by
                intro x hx
                have := hs'.2.2 x hx q (by simp)
                rw [cmpR_le] at this; omega
              have hBgt : ∀ x ∈ B, v < x.vrf := by
                intro x hx
                refine Classical.byContradiction fun hc => ?_
                have hxm : x ∈ rt.tree.root.toList := by rw [hAB]; simp [hx]
                have h1 := b3 x hxm ((leM x hxm).2 (by omega))
                have h2 := hs'.2.1.1 x hx
                have h3 := hu.2.1.1 x hx
                rw [cmpR_le] at h1 h2
                exact h3 ⟨by omega, by omega, by omega⟩
              have hsum : ∀ (C : List Rule), (∀ x ∈ C, x.vrf ≤ v) →
                  (C.filter fun x => decide (x.vrf < v)).length + (C.filter fun x => decide (x.vrf = v)).length = C.length := by
                intro C
                induction C with
                | nil => intro _; rfl
                | cons x xs ih =>
                  intro h
                  have h1 := h x (by simp)
                  have h2 := ih (fun y hy => h y (by simp [hy]))
                  by_cases h3 : x.vrf < v
                  · have h4 : ¬ x.vrf = v := by omega
                    simp only [List.filter_cons, h3, h4, decide_true, decide_false, Bool.false_eq_true, if_true, if_false, List.length_cons]
                    omega
                  · have h4 : x.vrf = v := by omega
                    have h5 : ¬ v < v := by omega
                    simp only [List.filter_cons, h4, h5, decide_true, decide_false, Bool.false_eq_true, if_true, if_false, List.length_cons]
                    omega
              have hz : ∀ p : Rule → Bool, (∀ x ∈ B, p x = false) → B.filter p = [] := by
                intro p hp
                rw [List.filter_eq_nil_iff]
                intro x hx
                simp [hp x hx]
              have hA := hsum A hAle
              rw [hAB, List.filter_append, List.filter_append]
              have c1 : ¬ v < v := by omega
              simp only [List.filter_cons, hqv, c1, decide_true, decide_false, Bool.false_eq_true, if_true, if_false]
              rw [hz (fun x => decide (x.vrf < v)) (fun x hx => by have := hBgt x hx; simp; omega),
                hz (fun x => decide (x.vrf = v)) (fun x hx => by have := hBgt x hx; simp; omega)]
              simp only [List.append_nil, List.length_append, List.length_cons, List.length_nil]
              omega
            rw [hlow, hhigh]
            have hpos : 0 < (rt.tree.root.toList.filter fun x => decide (x.vrf = v)).length := by
              rw [List.length_pos_iff]
              intro h
              have := List.filter_eq_nil_iff.1 h r a1
              simp [hrv] at this
            have hlen : A.length + 1 ≤ rt.tree.length := by
              rw [hi.good.count, hAB]; simp
            rw [iterRange_spec f rt.tree _ _ st hi.rank hi.good.count hn (by omega) hlen]
            have e : A.length + 1 - (rt.tree.root.toList.filter fun x => decide (x.vrf < v)).length =
                (rt.tree.root.toList.filter fun x => decide (x.vrf = v)).length := by omega
            rw [e, section_eq (fun r : Rule => r.vrf) v rt.tree.root.toList hvrf]
            rfl
          · cases b1
      · simp only [ne_eq, hrv, not_false_eq_true, if_true]
        have hgt : v < r.vrf := by
          have := (geL r).1 a2; omega
        rw [empty]
        intro x hx hxv
        have := a3 x hx ((geL x).2 (by omega))
        rw [cmpR_le] at this
        omega
    · cases a1

end Verif.Avl.Rules

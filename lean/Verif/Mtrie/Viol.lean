import Verif.Mtrie.Props
/-!
# Properties C12, C13: calls after which the mtrie tables are wrong

Each theorem gives a short history of valid calls. The addresses are the numbers of dotted quads: `10.1.2.0` is
`0x0a010200`.
-/
namespace Verif.Mtrie
open Verif.Radix

/-- The longest prefix match, computed. -/
def lpmc (T : Spec.Table Nat) (bits : List Bool) : Nat → Option Nat
  | 0 => T (bits.take 0)
  | n + 1 => match T (bits.take (n + 1)) with
    | some d => some d
    | none => lpmc T bits n

theorem lpmc_spec (T : Spec.Table Nat) (bits : List Bool) : ∀ n,
    (∃ d k, k ≤ n ∧ T (bits.take k) = some d ∧ (∀ m, k < m → m ≤ n → T (bits.take m) = none) ∧ lpmc T bits n = some d) ∨
    ((∀ m, m ≤ n → T (bits.take m) = none) ∧ lpmc T bits n = none) := by
  intro n
  induction n with
  | zero =>
    unfold lpmc
    cases h : T (bits.take 0) with
    | some d => exact Or.inl ⟨d, 0, Nat.le_refl _, h, fun m h1 h2 => by omega, rfl⟩
    | none => exact Or.inr ⟨fun m hm => by rw [Nat.le_zero.1 hm]; exact h, rfl⟩
  | succ n ih =>
    unfold lpmc
    cases h : T (bits.take (n + 1)) with
    | some d => exact Or.inl ⟨d, n + 1, Nat.le_refl _, h, fun m h1 h2 => by omega, rfl⟩
    | none =>
      simp only
      rcases ih with ⟨d, k, h1, h2, h3, h4⟩ | ⟨h1, h2⟩
      · refine Or.inl ⟨d, k, by omega, h2, fun m hm hm' => ?_, h4⟩
        by_cases e : m = n + 1
        · rw [e]; exact h
        · exact h3 m hm (by omega)
      · refine Or.inr ⟨fun m hm => ?_, h2⟩
        by_cases e : m = n + 1
        · rw [e]; exact h
        · exact h1 m (by omega)

theorem isLpm_unique {T : Spec.Table Nat} {bits : List Bool} {r r' : Option Nat} (h : Spec.IsLpm T bits r)
    (h' : Spec.IsLpm T bits r') : r = r' := by
  rcases h with ⟨d, n, a1, a2, a3, a4⟩ | ⟨a1, a2⟩ <;> rcases h' with ⟨d', n', b1, b2, b3, b4⟩ | ⟨b1, b2⟩
  · by_cases hlt : n < n'
    · rw [a3 n' hlt b1] at b2; cases b2
    · by_cases hgt : n' < n
      · rw [b3 n hgt a1] at a2; cases a2
      · have e : n = n' := by omega
        subst e
        rw [a2] at b2
        rw [a4, b4, b2]
  · rw [b1 n a1] at a2; cases a2
  · rw [a1 n' b1] at b2; cases b2
  · rw [a2, b2]

/-- The correct answer of a lookup is the computed one. -/
theorem isLpm_eq {T : Spec.Table Nat} {x : BitVec 32} {r : Option Nat} (h : Spec.IsLpm T (Spec.bits4 x) r) :
    r = lpmc T (Spec.bits4 x) 32 := by
  refine isLpm_unique h ?_
  have hl := bits4_length x
  rcases lpmc_spec T (Spec.bits4 x) 32 with ⟨d, k, h1, h2, h3, h4⟩ | ⟨h1, h2⟩
  · exact Or.inl ⟨d, k, by omega, h2, fun m hm hm' => h3 m hm (by omega), h4⟩
  · exact Or.inr ⟨fun m hm => h1 m (by omega), h2⟩

/-- The history ends, and the lookup of `x` in VRF 0 then gives `r`. -/
def Ends (ops : List Op) (nodes maxrules : Nat) (x : BitVec 32) (r : Option Nat) : Prop :=
  (run (St.init 1 nodes maxrules) ops).map (fun s => search s 0 x.toNat) = some r

instance (ops : List Op) (nodes maxrules : Nat) (x : BitVec 32) (r : Option Nat) : Decidable (Ends ops nodes maxrules x r) :=
  inferInstanceAs (Decidable (_ = _))

/-- The lookup of `x` in VRF 0 after `ops` is not the longest prefix match. -/
theorem wrong {ops : List Op} {nodes maxrules : Nat} {x : BitVec 32} {r : Option Nat} (h : Ends ops nodes maxrules x r)
    (hne : r ≠ lpmc (specRun noRoutes ops 0) (Spec.bits4 x) 32) :
    ∃ s, run (St.init 1 nodes maxrules) ops = some s ∧
      ¬ Spec.IsLpm (specRun noRoutes ops 0) (Spec.bits4 x) (search s 0 x.toNat) := by
  unfold Ends at h
  cases hr : run (St.init 1 nodes maxrules) ops with
  | none => rw [hr] at h; cases h
  | some s =>
    rw [hr] at h
    simp only [Option.map_some, Option.some.injEq] at h
    exact ⟨s, rfl, fun hh => hne (by rw [← h]; exact isLpm_eq hh)⟩

/-- **C12 violated (reuse of a freed table that is still linked).** 10.1.0.0/16, 10.1.2.0/24, delete the /24, then add
20.5.2.0/24: the lookup of 10.1.2.1 gives the next hop of 20.5.2.0/24. -/
theorem mtrie_dangling_table_violated : ∃ s,
    run (St.init 1 1 10) [.add 0 0x0a010000#32 16 1, .add 0 0x0a010200#32 24 2, .del 0 0x0a010200#32 24,
      .add 0 0x14050200#32 24 3] = some s ∧
    ¬ Spec.IsLpm (specRun noRoutes [.add 0 0x0a010000#32 16 1, .add 0 0x0a010200#32 24 2, .del 0 0x0a010200#32 24,
      .add 0 0x14050200#32 24 3] 0) (Spec.bits4 0x0a010201#32) (search s 0 (0x0a010201#32).toNat) :=
  wrong (r := some 3) (by decide +kernel) (by decide +kernel)

/-- **C12 violated (a deleted route comes back).** 10.1.0.0/24 is added and deleted, then 20.5.7.16/28: the second
table of the latter is the former table of 10.1, where element 0 was not cleared. The lookup of 20.5.7.0 gives the next hop
of the deleted route. -/
theorem mtrie_stale_element_violated : ∃ s,
    run (St.init 1 2 10) [.add 0 0x0a010000#32 24 1, .del 0 0x0a010000#32 24, .add 0 0x14050710#32 28 2] = some s ∧
    ¬ Spec.IsLpm (specRun noRoutes [.add 0 0x0a010000#32 24 1, .del 0 0x0a010000#32 24, .add 0 0x14050710#32 28 2] 0)
      (Spec.bits4 0x14050700#32) (search s 0 (0x14050700#32).toNat) :=
  wrong (r := some 1) (by decide +kernel) (by decide +kernel)

/-- **C12 violated (an addition that fails for lack of a table).** The call stores the rule and reports success, but
the route is not used. -/
theorem mtrie_failed_add_violated : ∃ s,
    run (St.init 1 1 10) [.add 0 0x0a010200#32 24 1, .add 0 0x0a020200#32 24 2] = some s ∧
    ¬ Spec.IsLpm (specRun noRoutes [.add 0 0x0a010200#32 24 1, .add 0 0x0a020200#32 24 2] 0)
      (Spec.bits4 0x0a020201#32) (search s 0 (0x0a020201#32).toNat) :=
  wrong (r := none) (by decide +kernel) (by decide +kernel)

/-- **C12 violated (full rule table).** The route is used but no rule is stored, so it cannot be deleted. -/
theorem mtrie_full_rules_violated : ∃ s,
    run (St.init 1 2 1) [.add 0 0x0a010200#32 24 1, .add 0 0x0a020200#32 24 2, .del 0 0x0a020200#32 24] = some s ∧
    ¬ Spec.IsLpm (specRun noRoutes [.add 0 0x0a010200#32 24 1, .add 0 0x0a020200#32 24 2, .del 0 0x0a020200#32 24] 0)
      (Spec.bits4 0x0a020201#32) (search s 0 (0x0a020201#32).toNat) :=
  wrong (r := some 2) (by decide +kernel) (by decide +kernel)

theorem insert_first (s : St) (v a m d : Nat) (hm : m ≤ 16) (n i : Nat) : ∃ b e, (insert s v a m d).1.ents n i =
    if n = v ∧ b ≤ i ∧ i < e then wr 16 m d (s.ents n i) else s.ents n i := by
  unfold insert levels insertLv
  simp only [if_pos hm]
  exact ⟨_, _, (writeLoop v 16 m d _ _ (incRef s v)).1 n i⟩

theorem insert_default (s : St) (v a m d : Nat) (hm : m = 0) (h : ∀ n i, (s.ents n i).masklen = 0) (n i : Nat) :
    ((addRoute s v a m d).1.ents n i).masklen = 0 := by
  have hadd : (addRoute s v a m d).1.ents = (insert s v a m d).1.ents := by
    unfold addRoute ruleAdd
    simp only
    split
    · rfl
    · split <;> rfl
  rw [hadd]
  obtain ⟨b, e, he⟩ := insert_first s v a m d (by omega) n i
  rw [he]
  split
  · unfold wr
    split
    · exact hm
    · exact h _ _
  · exact h _ _

/-- **C12 violated (default route).** After adding 0.0.0.0/0 to an empty table, no lookup finds it. -/
theorem mtrie_default_route_violated (nodes maxrules : Nat) (x : BitVec 32) : ∃ s,
    run (St.init 1 nodes maxrules) [.add 0 0#32 0 5] = some s ∧ search s 0 x.toNat = none ∧
    Spec.IsLpm (specRun noRoutes [.add 0 0#32 0 5] 0) (Spec.bits4 x) (some 5) := by
  have hst := insert_default (St.init 1 nodes maxrules) 0 0 0 5 rfl (fun _ _ => rfl)
  have hz : (0#32).toNat = 0 := by decide
  refine ⟨(addRoute (St.init 1 nodes maxrules) 0 0 0 5).1, ?_, ?_, ?_⟩
  · unfold run step
    simp only
    unfold run
    rw [hz]
  · generalize (addRoute (St.init 1 nodes maxrules) 0 0 0 5).1 = s at hst
    unfold search levels searchLv
    simp only
    rw [if_pos (hst _ _)]
  · refine Or.inl ⟨5, 0, Nat.zero_le _, rfl, ?_, rfl⟩
    intro m hm hm'
    rw [bits4_length] at hm'
    show (if (Spec.bits4 x).take m = pfx 0#32 0 then some 5 else none) = none
    rw [if_neg]
    intro hh
    have := take_eq_len x 0#32 m 0 hm' (by omega) hh
    omega

/-- **C13 violated (null pointer).** 10.1.0.16/28 is added to an empty table and deleted: the deletion returns the
second level table to the free list, which clears the link of its element 0, the element on the way to the third level;
the program then reads the counter of the third level through a null pointer. -/
theorem mtrie_delete_crash_violated :
    run (St.init 1 10 10) [.add 0 0x0a010010#32 28 1] ≠ none ∧
    run (St.init 1 10 10) [.add 0 0x0a010010#32 28 1, .del 0 0x0a010010#32 28] = none := by
  constructor
  · intro h
    cases h
  · have : (run (St.init 1 10 10) [.add 0 0x0a010010#32 28 1, .del 0 0x0a010010#32 28]).isNone = true := by decide +kernel
    exact Option.isNone_iff_eq_none.1 this

/-- **C13 violated (null pointer after a failed addition).** With one table: 10.2.2.0/24 cannot be added below
10.2.0.0/16, its rule is stored, and deleting it follows a link that was never made. -/
theorem mtrie_delete_after_failure_crash_violated :
    run (St.init 1 1 10) [.add 0 0x0a010200#32 24 1, .add 0 0x0a020000#32 16 2, .add 0 0x0a020200#32 24 3,
      .del 0 0x0a020200#32 24] = none := by
  have : (run (St.init 1 1 10) [.add 0 0x0a010200#32 24 1, .add 0 0x0a020000#32 16 2, .add 0 0x0a020200#32 24 3,
      .del 0 0x0a020200#32 24]).isNone = true := by decide +kernel
  exact Option.isNone_iff_eq_none.1 this

/-- **C13 violated (leak).** With one table, adding 10.1.2.0/24 twice and deleting it leaves no route and no free
table. -/
theorem mtrie_leak_violated : ∃ s,
    run (St.init 1 1 10) [.add 0 0x0a010200#32 24 1, .add 0 0x0a010200#32 24 2, .del 0 0x0a010200#32 24] = some s ∧
    (∀ p, specRun noRoutes [.add 0 0x0a010200#32 24 1, .add 0 0x0a010200#32 24 2, .del 0 0x0a010200#32 24] 0 p = none) ∧
    nodeAlloc s = none := by
  refine ⟨_, rfl, ?_, ?_⟩
  · intro p
    show (if p = pfx 0x0a010200#32 24 then none else if p = pfx 0x0a010200#32 24 then some 2 else
      if p = pfx 0x0a010200#32 24 then some 1 else none) = none
    split
    · rfl
    · rfl
  · have : ∀ s : St, s.first.isNone = true → nodeAlloc s = none := by
      intro s h
      unfold nodeAlloc
      rw [Option.isNone_iff_eq_none.1 h]
    apply this
    decide +kernel

/-! ## Non-vacuity -/

/-- A history of additions and deletions at all levels that satisfies `Fair`, and a lookup in it. -/
example : ∃ s T, Hist 1 10 10 s T 6 ∧ T 0 (pfx 0x0a010210#32 28) = some 3 ∧ T 0 (pfx 0x0a010200#32 24) = none ∧
    search s 0 0x0a010211 = some 3 ∧ search s 0 0x0a010201 = some 5 := by
  have h0 : Hist 1 10 10 _ _ _ := .init
  have h1 := Hist.step (.add 0 0x0a010000#32 16 1) h0 ⟨by decide, by decide, by decide, Or.inr (by decide), by decide +kernel⟩ rfl
  have h2 := Hist.step (.add 0 0x0a010200#32 24 2) h1 ⟨by decide, by decide, by decide, Or.inr (by decide +kernel), by decide +kernel⟩ rfl
  have h3 := Hist.step (.add 0 0x0a010210#32 28 3) h2 ⟨by decide, by decide, by decide, Or.inr (by decide +kernel), by decide +kernel⟩ rfl
  have h4 := Hist.step (.add 0 0x0a010200#32 23 5) h3 ⟨by decide, by decide, by decide, Or.inr (by decide +kernel), by decide +kernel⟩ rfl
  have h5 := Hist.step (.del 0 0x0a010200#32 24) h4 ⟨by decide, by decide, by decide, fun _ lo hlo hlt => by
    rcases hlo with rfl | rfl
    · exact ⟨0x0a010210#32, 28, by decide, by decide, by decide +kernel, by decide +kernel, by decide +kernel⟩
    · exact absurd hlt (by decide)⟩ rfl
  have h6 := Hist.step (.del 0 0x0a030000#32 17) h5 ⟨by decide, by decide, by decide, fun h => absurd (by decide +kernel) h⟩ rfl
  exact ⟨_, _, h6, by decide +kernel, by decide +kernel, by decide +kernel, by decide +kernel⟩

end Verif.Mtrie

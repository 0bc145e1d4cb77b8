import Verif.Avl.Del
namespace Verif.Avl
variable {κ : Type}

/-! ### Insertion -/

/-- Inserting adds the key after all smaller keys and before all others, and keeps the tree in good order. -/
theorem insert_contents {cmp : κ → κ → Int} (ho : Order cmp) {s : Tree κ} (hg : Good cmp s) (k : κ) (hf : 0 < s.free) :
    ∃ s', insert cmp s k = some (s', 0) ∧ Good cmp s' ∧ s'.free + 1 = s.free ∧
      (Ranked s.root → Ranked s'.root) ∧
      ∃ a b, s.root.toList = a ++ b ∧ s'.root.toList = a ++ k :: b ∧ (∀ x ∈ a, 0 < cmp k x) ∧ ∀ x ∈ b, cmp k x ≤ 0 := by
  have hp : PathBal 0 (insDown cmp k s.root []) := insDown_bal cmp k s.root [] hg.bal trivial
  have hlb : Balanced (leaf k) := by simp [leaf, Balanced, T.height]
  have hlh : (leaf k).height = 0 + 1 := by simp [leaf, T.height]
  obtain ⟨t, t1, t2, t3⟩ := climb_bal (leaf k) (insDown cmp k s.root []) 0 hlb hlh (Or.inr rfl) hp
  obtain ⟨a, b, e1, e2, e3, e4, e5⟩ := insDown_split cmp ho k s.root [] hg.sorted
  have hlist : t.toList = a ++ k :: b := by
    rw [t3, e2, e3]; simp [pre, post, leaf, T.toList]
  refine ⟨{ root := t, length := s.length + 1, free := s.free - 1 }, ?_, ⟨t2, ?_, ?_⟩, ?_, ?_, a, b, e1, hlist, e4, e5⟩
  · unfold insert
    show (if _ then _ else _) = _
    rw [if_neg (by omega), t1]
  · show Sorted cmp t.toList
    have hs := hg.sorted
    unfold Sorted at hs ⊢
    rw [hlist]
    rw [e1, List.pairwise_append] at hs
    rw [List.pairwise_append, List.pairwise_cons]
    refine ⟨hs.1, ⟨e5, hs.2.1⟩, ?_⟩
    intro x hx y hy
    rw [List.mem_cons] at hy
    rcases hy with rfl | hy
    · have := (ho.flip x y).2 (e4 x hx); omega
    · exact hs.2.2 x hx y hy
  · show s.length + 1 = t.toList.length
    rw [hlist, hg.count, e1]; simp; omega
  · show s.free - 1 + 1 = s.free; omega
  · intro hr
    exact climb_rank (leaf k) t _ 0 hlb hlh (Or.inr rfl) hp t1 (by simp [leaf, Ranked, T.toList])
      (by
        have := insDown_rank cmp k s.root [] hr trivial
        simpa [leaf, T.toList] using this)

theorem insDown_toList (cmp : κ → κ → Int) (k : κ) (t : T κ) (up : List (Frame κ)) :
    pre (insDown cmp k t up) ++ post (insDown cmp k t up) = pre up ++ t.toList ++ post up := by
  induction t generalizing up with
  | nil => simp [insDown, T.toList]
  | node l x rk b r ihl ihr =>
    unfold insDown
    by_cases h : cmp k x < 1
    · rw [if_pos h, ihl]; simp [pre, post, T.toList]
    · rw [if_neg h, ihr]; simp [pre, post, T.toList]

/-- With no node left the insertion fails, and the contents stays (the ranks do not: `insert_full_rank_violated`). -/
theorem insert_full {cmp : κ → κ → Int} {s : Tree κ} (hg : Good cmp s) (k : κ) (hf : s.free = 0) :
    ∃ s', insert cmp s k = some (s', -1) ∧ Good cmp s' ∧ s'.root.toList = s.root.toList ∧ s'.length = s.length ∧
      s'.free = s.free := by
  have hl : (plug .nil (insDown cmp k s.root [])).toList = s.root.toList := by
    rw [toList_plug]
    have := insDown_toList cmp k s.root []
    simpa [pre, post, T.toList] using this
  refine ⟨{ s with root := plug .nil (insDown cmp k s.root []) }, by unfold insert; simp [hf], ⟨?_, ?_, ?_⟩, hl, rfl, rfl⟩
  · show Balanced _
    rw [bal_plug]
    exact ⟨trivial, insDown_bal cmp k s.root [] hg.bal trivial⟩
  · show Sorted cmp (T.toList _); rw [hl]; exact hg.sorted
  · show s.length = (T.toList _).length; rw [hl]; exact hg.count

/-! ### Look-up -/

theorem getByKey_some {cmp : κ → κ → Int} {k y : κ} {t : T κ} (h : getByKey cmp k t = some y) :
    y ∈ t.toList ∧ cmp k y = 0 := by
  induction t with
  | nil => simp [getByKey] at h
  | node l x rk b r ihl ihr =>
    unfold getByKey at h
    by_cases h1 : cmp k x < 0
    · rw [if_pos h1] at h
      have := ihl h
      exact ⟨by simp [T.toList, this.1], this.2⟩
    · rw [if_neg h1] at h
      by_cases h2 : cmp k x > 0
      · rw [if_pos h2] at h
        have := ihr h
        exact ⟨by simp [T.toList, this.1], this.2⟩
      · rw [if_neg h2] at h
        cases h
        exact ⟨by simp [T.toList], by omega⟩

/-- Below a key that is smaller, everything to the left is smaller too; and the other way round. -/
theorem cmp_lt_right {cmp : κ → κ → Int} (ho : Order cmp) {k x y : κ} (h : cmp k x < 0) (hxy : cmp x y ≤ 0) : cmp k y < 0 := by
  by_cases hc : cmp k y < 0
  · exact hc
  · exfalso
    have h1 : ¬ 0 < cmp y k := fun h0 => hc ((ho.flip k y).2 h0)
    have h2 := ho.trans x y k hxy (by omega)
    have h3 := (ho.flip k x).1 h
    omega

theorem cmp_gt_left {cmp : κ → κ → Int} (ho : Order cmp) {k x y : κ} (h : 0 < cmp k x) (hyx : cmp y x ≤ 0) : 0 < cmp k y := by
  by_cases hc : 0 < cmp k y
  · exact hc
  · exfalso
    have := ho.trans k y x (by omega) hyx
    omega

/-- A key is found exactly when an equal one is stored. -/
theorem getByKey_none {cmp : κ → κ → Int} (ho : Order cmp) {k : κ} {t : T κ} (hs : Sorted cmp t.toList) :
    getByKey cmp k t = none ↔ ∀ x ∈ t.toList, cmp k x ≠ 0 := by
  induction t with
  | nil => simp [getByKey, T.toList]
  | node l x rk b r ihl ihr =>
    obtain ⟨s1, s2, s3, s4, s5⟩ := hs.node
    unfold getByKey
    by_cases h1 : cmp k x < 0
    · rw [if_pos h1, ihl s1]
      constructor
      · intro h y hy
        simp only [T.toList, List.mem_append, List.mem_cons] at hy
        rcases hy with hy | rfl | hy
        · exact h y hy
        · omega
        · have := cmp_lt_right ho h1 (s4 y hy); omega
      · intro h y hy; exact h y (by simp [T.toList, hy])
    · rw [if_neg h1]
      by_cases h2 : cmp k x > 0
      · rw [if_pos h2, ihr s2]
        constructor
        · intro h y hy
          simp only [T.toList, List.mem_append, List.mem_cons] at hy
          rcases hy with hy | rfl | hy
          · have := cmp_gt_left ho h2 (s3 y hy); omega
          · omega
          · exact h y hy
        · intro h y hy; exact h y (by simp [T.toList, hy])
      · rw [if_neg h2]
        constructor
        · intro h; cases h
        · intro h; exact absurd (by omega) (h x (by simp [T.toList]))

/-! ### Deletion -/

theorem delDown_found (cmp : κ → κ → Int) (k : κ) (t : T κ) (up : List (Frame κ)) :
    (∀ y, getByKey cmp k t = some y → ∃ l rk b r vp, delDown cmp k t up = .hit l y rk b r vp) ∧
    (getByKey cmp k t = none → (t = .nil ∧ up = [] ∧ delDown cmp k t up = .empty) ∨ (∃ f vp, delDown cmp k t up = .missLeft f vp) ∨
      ∃ f vp, delDown cmp k t up = .missRight f vp) := by
  induction t generalizing up with
  | nil =>
    refine ⟨by simp [getByKey], fun _ => ?_⟩
    cases up with
    | nil => exact Or.inl ⟨rfl, rfl, rfl⟩
    | cons f fs =>
      unfold delDown
      by_cases hl : f.left = true
      · rw [if_pos hl]; exact Or.inr (Or.inl ⟨_, _, rfl⟩)
      · rw [if_neg hl]; exact Or.inr (Or.inr ⟨_, _, rfl⟩)
  | node l x rk b r ihl ihr =>
    unfold getByKey delDown
    by_cases h1 : cmp k x < 0
    · simp only [if_pos h1]
      obtain ⟨i1, i2⟩ := ihl ({ left := true, key := x, rank := rk - 1, bal := b, other := r } :: up)
      refine ⟨i1, fun h => ?_⟩
      rcases i2 h with ⟨_, h', _⟩ | h | h
      · cases h'
      · exact Or.inr (Or.inl h)
      · exact Or.inr (Or.inr h)
    · simp only [if_neg h1]
      by_cases h2 : cmp k x > 0
      · simp only [if_pos h2]
        obtain ⟨i1, i2⟩ := ihr ({ left := false, key := x, rank := rk, bal := b, other := l } :: up)
        refine ⟨i1, fun h => ?_⟩
        rcases i2 h with ⟨_, h', _⟩ | h | h
        · cases h'
        · exact Or.inr (Or.inl h)
        · exact Or.inr (Or.inr h)
      · simp only [if_neg h2]
        refine ⟨fun y h => ?_, fun h => by cases h⟩
        simp only [Option.some.injEq] at h
        subst h
        exact ⟨_, _, _, _, _, rfl⟩

theorem Sorted.erase {cmp : κ → κ → Int} {a b : List κ} {x : κ} (h : Sorted cmp (a ++ x :: b)) : Sorted cmp (a ++ b) := by
  unfold Sorted at *
  rw [List.pairwise_append, List.pairwise_cons] at h
  rw [List.pairwise_append]
  exact ⟨h.1, h.2.1.2, fun y hy z hz => h.2.2 y hy z (by simp [hz])⟩

/-- Deleting a stored key removes exactly one element, the one the look-up finds, and keeps the tree in good order. -/
theorem delete_hit {cmp : κ → κ → Int} {s : Tree κ} (hg : Good cmp s) {k y : κ}
    (hf : getByKey cmp k s.root = some y) :
    ∃ s', delete cmp s k = some (s', 0, some y) ∧ Good cmp s' ∧ s'.free = s.free + 1 ∧
      (Ranked s.root → Ranked s'.root) ∧
      ∃ a b, s.root.toList = a ++ y :: b ∧ s'.root.toList = a ++ b := by
  obtain ⟨l, rk, b, r, vp, hd⟩ := (delDown_found cmp k s.root []).1 y hf
  obtain ⟨d1, d2, d3, d4⟩ := delDown_hit cmp k s.root [] hg.bal trivial hd
  obtain ⟨n1, n2, n3, n4, n5⟩ := id d1
  have hrk : Ranked s.root → Ranked (.node l y rk b r) ∧ PathRank ((T.node l y rk b r).toList.length - 1) vp :=
    fun h => delDown_rank cmp k s.root [] h trivial hd
  have hl0 : s.root.toList = (pre vp ++ l.toList) ++ y :: (r.toList ++ post vp) := by
    simp only [pre, post, List.nil_append, List.append_nil] at d4
    rw [← d4]; simp [T.toList]
  -- what the branch computes
  have main : ∃ t, takeOut l rk b r vp = some t ∧ Balanced t ∧ t.toList = pre vp ++ l.toList ++ (r.toList ++ post vp) ∧
        (Ranked s.root → Ranked t) := by
    cases l with
    | nil =>
      have hp : PathBal (r.height + 1) vp := by
        have : (T.node .nil y rk b r).height = r.height + 1 := by simp [T.height]
        rw [this] at d2; exact d2
      obtain ⟨t, t1, t2, t3⟩ := shrink_bal r vp n5 hp
      refine ⟨t, by cases r <;> exact t1, t2, by rw [t3]; simp [T.toList], fun h => ?_⟩
      obtain ⟨q1, q2⟩ := hrk h
      exact shrink_rank r t vp t1 q1.2.2 (by simpa [T.toList] using q2)
    | node ll lx lrk lb lr =>
      cases r with
      | nil =>
        have hp : PathBal ((T.node ll lx lrk lb lr).height + 1) vp := by
          have : (T.node (T.node ll lx lrk lb lr) y rk b .nil).height = (T.node ll lx lrk lb lr).height + 1 := by simp [T.height]
          rw [this] at d2; exact d2
        obtain ⟨t, t1, t2, t3⟩ := shrink_bal _ vp n4 hp
        refine ⟨t, t1, t2, by rw [t3]; simp [T.toList], fun h => ?_⟩
        obtain ⟨q1, q2⟩ := hrk h
        exact shrink_rank _ t vp t1 q1.2.1 (by simpa [T.toList] using q2)
      | node rl rx rrk rb rr =>
        have hpath := predDown_path ll lx lrk lb lr []
          ({ left := true, key := (predDown ll lx lrk lb lr []).2.1, rank := rk - 1, bal := b, other := .node rl rx rrk rb rr } :: vp)
        rw [List.nil_append] at hpath
        have sp := predDown_spec ll lx lrk lb lr
          ({ left := true, key := (predDown ll lx lrk lb lr []).2.1, rank := rk - 1, bal := b, other := .node rl rx rrk rb rr } :: vp)
          n4 ⟨by simpa using n1, n2, n3, n5, d2⟩
        have spr := predDown_rank ll lx lrk lb lr
          ({ left := true, key := (predDown ll lx lrk lb lr []).2.1, rank := rk - 1, bal := b, other := .node rl rx rrk rb rr } :: vp)
        rw [hpath] at sp spr
        obtain ⟨e1, e2, e3, e4⟩ := sp
        obtain ⟨t, t1, t2, t3⟩ := shrink_bal _ _ e1 e2
        simp only at e3 e4
        refine ⟨t, t1, t2, ?_, fun h => ?_⟩
        · rw [t3, e4]
          simp only [pre, post, if_true] at e3 ⊢
          simp only [List.append_assoc, List.cons_append] at e3 ⊢
          generalize predDown ll lx lrk lb lr [] = Y at *
          have := congrArg (· ++ ((T.node rl rx rrk rb rr).toList ++ post vp)) e3
          simp only [List.append_assoc, List.cons_append, List.nil_append] at this
          exact this.symm
        · obtain ⟨q1, q2⟩ := hrk h
          obtain ⟨q11, q12, q13⟩ := q1
          have hpos : 0 < (T.node ll lx lrk lb lr).toList.length := by simp [T.toList]; omega
          obtain ⟨z1, z2⟩ := spr q12 ⟨by
              show rk - 1 = _
              rw [q11]; exact rank_sub _ 1 _ (by simp; omega), q13, by
              have e : (T.node (T.node ll lx lrk lb lr) y rk b (T.node rl rx rrk rb rr)).toList.length - 1 =
                  (T.node ll lx lrk lb lr).toList.length - 1 + (T.node rl rx rrk rb rr).toList.length + 1 := by
                generalize T.node ll lx lrk lb lr = L at hpos ⊢
                generalize T.node rl rx rrk rb rr = R
                simp only [T.toList, List.length_append, List.length_cons]; omega
              rw [e] at q2; exact q2⟩
          exact shrink_rank _ t _ t1 z1 z2
  obtain ⟨t, t1, t2, t3, t4⟩ := main
  refine ⟨{ root := t, length := s.length - 1, free := s.free + 1 }, ?_, ⟨t2, ?_, ?_⟩, rfl, t4, pre vp ++ l.toList,
    r.toList ++ post vp, hl0, t3⟩
  · unfold delete
    rw [hd]
    simp only
    rw [t1]
  · show Sorted cmp t.toList
    rw [t3]
    have := hg.sorted
    rw [hl0] at this
    exact this.erase
  · show s.length - 1 = t.toList.length
    rw [t3, hg.count, hl0]
    simp only [List.length_append, List.length_cons]; omega

/-- Deleting a key that is not stored reports -1 and leaves the contents. -/
theorem delete_miss {cmp : κ → κ → Int} {s : Tree κ} (hg : Good cmp s) {k : κ}
    (hf : getByKey cmp k s.root = none) :
    ∃ s', delete cmp s k = some (s', -1, none) ∧ Good cmp s' ∧ s'.free = s.free ∧ s'.root.toList = s.root.toList := by
  have fix : ∀ (f : Frame κ) (vp : List (Frame κ)), plug .nil (f :: undo vp) = s.root →
      Balanced (plug .nil ({ f with rank := f.rank + 1 } :: undo vp)) ∧
        (plug .nil ({ f with rank := f.rank + 1 } :: undo vp)).toList = s.root.toList := by
    intro f vp h
    have hb := hg.bal
    rw [← h] at hb ⊢
    rw [toList_plug, toList_plug]
    rw [bal_plug] at hb ⊢
    exact ⟨⟨trivial, hb.2⟩, rfl⟩
  have good : ∀ t : T κ, Balanced t → t.toList = s.root.toList → Good cmp { s with root := t } := by
    intro t h1 h2
    exact ⟨h1, by show Sorted cmp t.toList; rw [h2]; exact hg.sorted, by show s.length = t.toList.length; rw [h2]; exact hg.count⟩
  rcases (delDown_found cmp k s.root []).2 hf with ⟨h1, _, h2⟩ | ⟨f, vp, h⟩ | ⟨f, vp, h⟩
  · exact ⟨s, by unfold delete; rw [h2], hg, rfl, rfl⟩
  · have e := ((delDown_miss cmp k s.root [] vp f).1 h).1
    replace e : plug .nil ({ f with rank := f.rank + 1 } :: undo vp) = s.root := e
    refine ⟨{ s with root := plug .nil ({ f with rank := f.rank + 1 } :: undo vp) }, by unfold delete; rw [h], ?_, rfl, ?_⟩
    · rw [e]; exact hg
    · show T.toList (plug _ _) = _
      rw [e]
  · have e := ((delDown_miss cmp k s.root [] vp f).2 h).1
    obtain ⟨g1, g2⟩ := fix f vp e
    exact ⟨_, by unfold delete; rw [h], good _ g1 g2, rfl, g2⟩

/-! ### Cost -/

theorem getSteps_height (cmp : κ → κ → Int) (k : κ) (t : T κ) : getSteps cmp k t ≤ t.height := by
  induction t with
  | nil => simp [getSteps]
  | node l x rk b r ihl ihr =>
    unfold getSteps T.height
    by_cases h1 : cmp k x < 0
    · rw [if_pos h1]; omega
    · rw [if_neg h1]
      by_cases h2 : cmp k x > 0
      · rw [if_pos h2]; omega
      · rw [if_neg h2]; omega

theorem size_of_height (n : Nat) : ∀ (t : T κ), Balanced t → t.height = n → 2 ^ (n / 2) ≤ t.toList.length + 1 := by
  induction n using Nat.strongRecOn with
  | _ n ih =>
    intro t hb hh
    cases t with
    | nil => simp [T.height] at hh; subst hh; simp
    | node l x rk b r =>
      obtain ⟨b1, b2, b3, b4, b5⟩ := hb
      simp only [T.height] at hh
      simp only [T.toList, List.length_append, List.length_cons]
      have mono : ∀ a c : Nat, a ≤ c → 2 ^ (a / 2) ≤ 2 ^ (c / 2) :=
        fun a c h => Nat.pow_le_pow_right (by decide) (Nat.div_le_div_right h)
      have hl := ih l.height (by omega) l b4 rfl
      have hr := ih r.height (by omega) r b5 rfl
      by_cases hn : n < 2
      · have : n / 2 = 0 := by omega
        rw [this]; simp
      · have e : n / 2 = (n - 2) / 2 + 1 := by omega
        rw [e, Nat.pow_succ]
        have m1 := mono (n - 2) l.height (by omega)
        have m2 := mono (n - 2) r.height (by omega)
        omega

/-- A look-up in a tree of `n` keys makes at most `2 * log2 (n + 1) + 1` comparisons. -/
theorem getSteps_log {cmp : κ → κ → Int} {s : Tree κ} (hg : Good cmp s) (k : κ) :
    2 ^ (getSteps cmp k s.root / 2) ≤ s.length + 1 := by
  have h1 := getSteps_height cmp k s.root
  have h2 := size_of_height s.root.height s.root hg.bal rfl
  rw [← hg.count] at h2
  exact Nat.le_trans (Nat.pow_le_pow_right (by decide) (Nat.div_le_div_right h1)) h2

end Verif.Avl

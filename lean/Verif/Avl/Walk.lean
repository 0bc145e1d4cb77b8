import Verif.Avl.Props
namespace Verif.Avl
variable {κ : Type}

/-! ### By index -/

theorem rank_toNat (n : Nat) (h : n < 2 ^ 30) : (BitVec.ofNat 30 n).toNat = n := by
  rw [BitVec.toNat_ofNat, Nat.mod_eq_of_lt h]

theorem getByRank_spec (t : T κ) (hr : Ranked t) (hn : t.toList.length < 2 ^ 30) (i : Nat) :
    getByRank (i + 1) t = t.toList[i]? := by
  induction t generalizing i with
  | nil => simp [getByRank, T.toList]
  | node l x rk b r ihl ihr =>
    obtain ⟨r1, r2, r3⟩ := hr
    have hlen : (T.node l x rk b r).toList.length = l.toList.length + r.toList.length + 1 := by simp [T.toList]; omega
    have hk : rk.toNat = l.toList.length + 1 := by rw [r1]; exact rank_toNat _ (by omega)
    unfold getByRank
    rw [hk]
    by_cases h1 : i + 1 < l.toList.length + 1
    · rw [if_pos h1, ihl r2 (by omega), T.toList, List.getElem?_append_left (by omega)]
    · rw [if_neg h1]
      by_cases h2 : i + 1 > l.toList.length + 1
      · rw [if_pos h2]
        have e : i + 1 - (l.toList.length + 1) = (i - l.toList.length - 1) + 1 := by omega
        rw [e, ihr r3 (by omega), T.toList, List.getElem?_append_right (by omega)]
        have e2 : i - l.toList.length = (i - l.toList.length - 1) + 1 := by omega
        rw [e2, List.getElem?_cons_succ]
        congr 1
      · rw [if_neg h2, T.toList, List.getElem?_append_right (by omega)]
        have : i - l.toList.length = 0 := by omega
        rw [this]; rfl

/-! ### Positions -/

/-- Keys before and after a position. -/
def Loc.before (p : Loc κ) : List κ := pre p.up ++ p.l.toList
def Loc.after (p : Loc κ) : List κ := p.r.toList ++ post p.up

/-- The keys around a position are the contents of the tree. -/
theorem Loc.split (p : Loc κ) : (plug p.tree p.up).toList = p.before ++ p.key :: p.after := by
  rw [toList_plug]
  simp [Loc.before, Loc.after, Loc.tree, T.toList]

theorem leftmost_spec (t : T κ) (up : List (Frame κ)) :
    (leftmost t up = none → t = .nil) ∧
    ∀ q, leftmost t up = some q → plug q.tree q.up = plug t up ∧ q.before = pre up := by
  induction t generalizing up with
  | nil => simp [leftmost]
  | node l x rk b r ihl _ =>
    unfold leftmost
    obtain ⟨i1, i2⟩ := ihl ({ left := true, key := x, rank := rk, bal := b, other := r } :: up)
    cases h : leftmost l ({ left := true, key := x, rank := rk, bal := b, other := r } :: up) with
    | none =>
      have hl := i1 h
      refine ⟨by simp, fun q hq => ?_⟩
      simp only [Option.some.injEq] at hq
      subst hq
      exact ⟨rfl, by simp [Loc.before, hl, T.toList]⟩
    | some p =>
      refine ⟨by simp, fun q hq => ?_⟩
      simp only [Option.some.injEq] at hq
      subst hq
      obtain ⟨j1, j2⟩ := i2 p h
      exact ⟨by rw [j1]; rfl, by rw [j2]; simp [pre]⟩

theorem rightmost_spec (t : T κ) (up : List (Frame κ)) :
    (rightmost t up = none → t = .nil) ∧
    ∀ q, rightmost t up = some q → plug q.tree q.up = plug t up ∧ q.after = post up := by
  induction t generalizing up with
  | nil => simp [rightmost]
  | node l x rk b r _ ihr =>
    unfold rightmost
    obtain ⟨i1, i2⟩ := ihr ({ left := false, key := x, rank := rk, bal := b, other := l } :: up)
    cases h : rightmost r ({ left := false, key := x, rank := rk, bal := b, other := l } :: up) with
    | none =>
      have hl := i1 h
      refine ⟨by simp, fun q hq => ?_⟩
      simp only [Option.some.injEq] at hq
      subst hq
      exact ⟨rfl, by simp [Loc.after, hl, T.toList]⟩
    | some p =>
      refine ⟨by simp, fun q hq => ?_⟩
      simp only [Option.some.injEq] at hq
      subst hq
      obtain ⟨j1, j2⟩ := i2 p h
      exact ⟨by rw [j1]; rfl, by rw [j2]; simp [post]⟩

theorem upNext_spec (c : T κ) (up : List (Frame κ)) :
    (upNext c up = none → post up = []) ∧
    ∀ q, upNext c up = some q → plug q.tree q.up = plug c up ∧ q.before = pre up ++ c.toList := by
  induction up generalizing c with
  | nil => simp [upNext, post]
  | cons f fs ih =>
    unfold upNext
    by_cases hl : f.left = true
    · rw [if_pos hl]
      refine ⟨by simp, fun q hq => ?_⟩
      simp only [Option.some.injEq] at hq
      subst hq
      exact ⟨by simp [plug, Loc.tree, Frame.close, hl], by simp [Loc.before, pre, hl]⟩
    · rw [if_neg hl]
      obtain ⟨i1, i2⟩ := ih (f.close f.bal c)
      refine ⟨fun h => by simp [post, hl, i1 h], fun q hq => ?_⟩
      obtain ⟨j1, j2⟩ := i2 q hq
      exact ⟨by rw [j1]; rfl, by rw [j2]; simp [pre, hl, Frame.close, T.toList]⟩

theorem upPrev_spec (c : T κ) (up : List (Frame κ)) :
    (upPrev c up = none → pre up = []) ∧
    ∀ q, upPrev c up = some q → plug q.tree q.up = plug c up ∧ q.after = c.toList ++ post up := by
  induction up generalizing c with
  | nil => simp [upPrev, pre]
  | cons f fs ih =>
    unfold upPrev
    by_cases hl : f.left = true
    · rw [if_pos hl]
      obtain ⟨i1, i2⟩ := ih (f.close f.bal c)
      refine ⟨fun h => by simp [pre, hl, i1 h], fun q hq => ?_⟩
      obtain ⟨j1, j2⟩ := i2 q hq
      exact ⟨by rw [j1]; rfl, by rw [j2]; simp [post, hl, Frame.close, T.toList]⟩
    · rw [if_neg hl]
      refine ⟨by simp, fun q hq => ?_⟩
      simp only [Option.some.injEq] at hq
      subst hq
      exact ⟨by simp [plug, Loc.tree, Frame.close, hl], by simp [Loc.after, post, hl]⟩

/-- The successor: one position to the right in the same tree; none only at the last key. -/
theorem next_spec (p : Loc κ) :
    (next p = none → p.after = []) ∧
    ∀ q, next p = some q → plug q.tree q.up = plug p.tree p.up ∧ q.before = p.before ++ [p.key] := by
  unfold next
  cases hr : p.r with
  | nil =>
    obtain ⟨i1, i2⟩ := upNext_spec p.tree p.up
    refine ⟨fun h => by simp [Loc.after, hr, T.toList, i1 h], fun q hq => ?_⟩
    obtain ⟨j1, j2⟩ := i2 q hq
    exact ⟨j1, by rw [j2]; simp [Loc.before, Loc.tree, hr, T.toList]⟩
  | node a1 a2 a3 a4 a5 =>
    obtain ⟨i1, i2⟩ := leftmost_spec (T.node a1 a2 a3 a4 a5)
      ({ left := false, key := p.key, rank := p.rank, bal := p.bal, other := p.l } :: p.up)
    refine ⟨fun h => absurd (i1 h) (by simp), fun q hq => ?_⟩
    obtain ⟨j1, j2⟩ := i2 q hq
    exact ⟨by rw [j1]; simp [plug, Frame.close, Loc.tree, hr], by rw [j2]; simp [Loc.before, pre]⟩

/-- The predecessor: one position to the left in the same tree; none only at the first key. -/
theorem prev_spec (p : Loc κ) :
    (prev p = none → p.before = []) ∧
    ∀ q, prev p = some q → plug q.tree q.up = plug p.tree p.up ∧ q.after = p.key :: p.after := by
  unfold prev
  cases hl : p.l with
  | nil =>
    obtain ⟨i1, i2⟩ := upPrev_spec p.tree p.up
    refine ⟨fun h => by simp [Loc.before, hl, T.toList, i1 h], fun q hq => ?_⟩
    obtain ⟨j1, j2⟩ := i2 q hq
    exact ⟨j1, by rw [j2]; simp [Loc.after, Loc.tree, hl, T.toList]⟩
  | node a1 a2 a3 a4 a5 =>
    obtain ⟨i1, i2⟩ := rightmost_spec (T.node a1 a2 a3 a4 a5)
      ({ left := true, key := p.key, rank := p.rank, bal := p.bal, other := p.r } :: p.up)
    refine ⟨fun h => absurd (i1 h) (by simp), fun q hq => ?_⟩
    obtain ⟨j1, j2⟩ := i2 q hq
    exact ⟨by rw [j1]; simp [plug, Frame.close, Loc.tree, hl], by rw [j2]; simp [Loc.after, post]⟩

/-- `p` is the `i`-th key of the tree `t`. -/
structure At (t : T κ) (i : Nat) (p : Loc κ) : Prop where
  tree : plug p.tree p.up = t
  idx : p.before.length = i

theorem At.list {t : T κ} {i : Nat} {p : Loc κ} (h : At t i p) : t.toList = p.before ++ p.key :: p.after := by
  rw [← h.tree, p.split]

theorem At.get {t : T κ} {i : Nat} {p : Loc κ} (h : At t i p) : t.toList[i]? = some p.key := by
  rw [h.list, ← h.idx, List.getElem?_append_right (Nat.le_refl _)]; simp

theorem At.next {t : T κ} {i : Nat} {p : Loc κ} (h : At t i p) :
    (next p = none → t.toList.length = i + 1) ∧ ∀ q, Avl.next p = some q → At t (i + 1) q := by
  obtain ⟨n1, n2⟩ := next_spec p
  constructor
  · intro hn
    rw [h.list, n1 hn]
    simp [h.idx]
  · intro q hq
    obtain ⟨j1, j2⟩ := n2 q hq
    exact ⟨by rw [j1, h.tree], by rw [j2]; simp [h.idx]⟩

theorem At.prev {t : T κ} {i : Nat} {p : Loc κ} (h : At t i p) :
    (prev p = none → i = 0) ∧ ∀ q, Avl.prev p = some q → ∃ j, i = j + 1 ∧ At t j q := by
  obtain ⟨n1, n2⟩ := prev_spec p
  constructor
  · intro hn
    rw [← h.idx, n1 hn]; rfl
  · intro q hq
    obtain ⟨j1, j2⟩ := n2 q hq
    have hq' : At t q.before.length q := ⟨by rw [j1, h.tree], rfl⟩
    refine ⟨q.before.length, ?_, hq'⟩
    have e1 := congrArg List.length h.list
    have e2 := congrArg List.length hq'.list
    rw [j2] at e2
    simp only [List.length_append, List.length_cons] at e1 e2
    have := h.idx
    omega

/-- What a callback sees and what the walk returns: stop at the first nonzero result. -/
def foldStop {σ : Type} (f : σ → κ → σ × Int) : List κ → σ → σ × Int
  | [], st => (st, 0)
  | x :: xs, st => if (f st x).2 ≠ 0 then f st x else foldStop f xs (f st x).1

theorem foldStop_append {σ : Type} (f : σ → κ → σ × Int) (xs ys : List κ) (st : σ) :
    foldStop f (xs ++ ys) st =
      if (foldStop f xs st).2 ≠ 0 then foldStop f xs st else foldStop f ys (foldStop f xs st).1 := by
  induction xs generalizing st with
  | nil => simp [foldStop]
  | cons x xs ih =>
    rw [List.cons_append, foldStop, foldStop]
    by_cases h : (f st x).2 ≠ 0
    · rw [if_pos h, if_pos h, if_pos h]
    · rw [if_neg h, if_neg h, ih]

/-- Walking the whole tree calls the function on the keys in order until it returns nonzero. -/
theorem iterate_spec {σ : Type} (f : σ → κ → σ × Int) (t : T κ) (st : σ) : iterate f t st = foldStop f t.toList st := by
  induction t generalizing st with
  | nil => rfl
  | node l x rk b r ihl ihr =>
    unfold iterate
    rw [T.toList, foldStop_append, ← ihl]
    show (if _ then _ else _) = _
    by_cases h : (iterate f l st).2 ≠ 0
    · rw [if_pos h, if_pos h]
    · rw [if_neg h, if_neg h, foldStop]
      show (if _ then _ else _) = _
      by_cases h2 : (f (iterate f l st).1 x).2 ≠ 0
      · rw [if_pos h2, if_pos h2]
      · rw [if_neg h2, if_neg h2, ihr]

theorem seek_spec (t : T κ) (up : List (Frame κ)) (hr : Ranked t) (hn : t.toList.length < 2 ^ 30) (i : Nat)
    (hi : i < t.toList.length) :
    ∃ p, seek (i + 1) t up = some p ∧ plug p.tree p.up = plug t up ∧ p.before.length = (pre up).length + i := by
  induction t generalizing up i with
  | nil => simp [T.toList] at hi
  | node l x rk b r ihl ihr =>
    obtain ⟨r1, r2, r3⟩ := hr
    have hlen : (T.node l x rk b r).toList.length = l.toList.length + r.toList.length + 1 := by simp [T.toList]; omega
    have hk : rk.toNat = l.toList.length + 1 := by rw [r1]; exact rank_toNat _ (by omega)
    unfold seek
    rw [hk]
    by_cases h1 : i + 1 < l.toList.length + 1
    · rw [if_pos h1]
      obtain ⟨p, p1, p2, p3⟩ := ihl ({ left := true, key := x, rank := rk, bal := b, other := r } :: up) r2 (by omega) i (by omega)
      exact ⟨p, p1, by rw [p2]; rfl, by rw [p3]; simp [pre]⟩
    · rw [if_neg h1]
      by_cases h2 : i + 1 > l.toList.length + 1
      · rw [if_pos h2]
        have e : i + 1 - (l.toList.length + 1) = (i - l.toList.length - 1) + 1 := by omega
        rw [e]
        obtain ⟨p, p1, p2, p3⟩ := ihr ({ left := false, key := x, rank := rk, bal := b, other := l } :: up) r3 (by omega)
          (i - l.toList.length - 1) (by omega)
        exact ⟨p, p1, by rw [p2]; rfl, by rw [p3]; simp [pre]; omega⟩
      · rw [if_neg h2]
        exact ⟨_, rfl, rfl, by simp [Loc.before]; omega⟩

theorem walk_spec {σ : Type} (f : σ → κ → σ × Int) (t : T κ) (n i : Nat) (p : Option (Loc κ)) (st : σ)
    (hp : ∀ q, p = some q → At t i q) (hnone : p = none → t.toList.length ≤ i) (hn : i + n ≤ t.toList.length) :
    walk f n p st = some ((foldStop f ((t.toList.drop i).take n) st).1,
      if (foldStop f ((t.toList.drop i).take n) st).2 = 0 then 0 else -1) := by
  induction n generalizing i p st with
  | zero => simp [walk, foldStop]
  | succ n ih =>
    cases p with
    | none => have := hnone rfl; omega
    | some q =>
      have hq := hp q rfl
      have hget := hq.get
      have hdrop : (t.toList.drop i).take (n + 1) = q.key :: (t.toList.drop (i + 1)).take n := by
        have hlt : i < t.toList.length := by omega
        rw [List.drop_eq_getElem_cons hlt, List.take_succ_cons]
        rw [List.getElem?_eq_getElem hlt] at hget
        simp only [Option.some.injEq] at hget
        rw [hget]
      rw [hdrop, foldStop]
      unfold walk
      show (if _ then _ else _) = _
      by_cases h : (f st q.key).2 ≠ 0
      · rw [if_pos h, if_pos h, if_neg h]
      · rw [if_neg h, if_neg h]
        exact ih (i + 1) (next q) _ (fun q' h' => hq.next.2 q' h')
          (fun h' => by have := hq.next.1 h'; omega) (by omega)

/-- Iterating over a range of indices calls the function on exactly the keys with those indices, in order, until it
returns nonzero. -/
theorem iterRange_spec {σ : Type} (f : σ → κ → σ × Int) (s : Tree κ) (low high : Nat) (st : σ) (hr : Ranked s.root)
    (hc : s.length = s.root.toList.length) (hn : s.length < 2 ^ 30) (hlh : low < high) (hh : high ≤ s.length) :
    iterRange f s low high st = some ((foldStop f ((s.root.toList.drop low).take (high - low)) st).1,
      if (foldStop f ((s.root.toList.drop low).take (high - low)) st).2 = 0 then 0 else -1) := by
  unfold iterRange
  rw [if_neg (by omega)]
  obtain ⟨p, p1, p2, p3⟩ := seek_spec s.root [] hr (by omega) low (by omega)
  rw [p1]
  exact walk_spec f s.root (high - low) low (some p) st
    (fun q hq => by cases hq; exact ⟨p2, by rw [p3]; simp [pre]⟩) (fun h => by cases h) (by omega)

/-! ### Nearest keys -/

theorem le_of_not_lt {cmp : κ → κ → Int} (ho : Order cmp) {a b : κ} (h : ¬ cmp a b < 0) : cmp b a ≤ 0 := by
  have : ¬ 0 < cmp b a := fun h0 => h ((ho.flip a b).2 h0)
  omega

theorem le_of_eq {cmp : κ → κ → Int} (ho : Order cmp) {a b : κ} (h : cmp a b = 0) : cmp b a ≤ 0 :=
  le_of_not_lt ho (by omega)

/-- The greatest key not above `k` (`best` is one already seen that is below everything in the subtree). -/
theorem getMost_spec {cmp : κ → κ → Int} (ho : Order cmp) (k : κ) (t : T κ) (best : Option κ) (hs : Sorted cmp t.toList) :
    (∀ y, getMost cmp k t best = some y →
      (y ∈ t.toList ∧ cmp y k ≤ 0 ∧ ∀ x ∈ t.toList, cmp x k ≤ 0 → cmp x y ≤ 0) ∨
      (best = some y ∧ ∀ x ∈ t.toList, ¬ cmp x k ≤ 0)) ∧
    (getMost cmp k t best = none → best = none ∧ ∀ x ∈ t.toList, ¬ cmp x k ≤ 0) := by
  induction t generalizing best with
  | nil => exact ⟨fun y h => Or.inr ⟨h, by simp [T.toList]⟩, fun h => ⟨h, by simp [T.toList]⟩⟩
  | node l x rk b r ihl ihr =>
    obtain ⟨s1, s2, s3, s4, s5⟩ := hs.node
    unfold getMost
    by_cases h0 : cmp k x = 0
    · rw [if_pos h0]
      refine ⟨fun y hy => Or.inl ?_, fun h => by cases h⟩
      simp only [Option.some.injEq] at hy
      subst hy
      exact ⟨by simp [T.toList], le_of_eq ho h0, fun z _ hzk => ho.trans z k x hzk (by omega)⟩
    · rw [if_neg h0]
      by_cases h1 : cmp k x < 0
      · rw [if_pos h1]
        have above : ∀ z, z = x ∨ z ∈ r.toList → ¬ cmp z k ≤ 0 := by
          intro z hz hzk
          have : cmp k z < 0 := by
            rcases hz with rfl | hz
            · exact h1
            · exact cmp_lt_right ho h1 (s4 z hz)
          have := (ho.flip k z).1 this
          omega
        obtain ⟨i1, i2⟩ := ihl best s1
        constructor
        · intro y hy
          rcases i1 y hy with ⟨a1, a2, a3⟩ | ⟨a1, a2⟩
          · refine Or.inl ⟨by simp [T.toList, a1], a2, fun z hz hzk => ?_⟩
            simp only [T.toList, List.mem_append, List.mem_cons] at hz
            rcases hz with hz | hz
            · exact a3 z hz hzk
            · exact absurd hzk (above z hz)
          · refine Or.inr ⟨a1, fun z hz => ?_⟩
            simp only [T.toList, List.mem_append, List.mem_cons] at hz
            rcases hz with hz | hz
            · exact a2 z hz
            · exact above z hz
        · intro hn
          obtain ⟨a1, a2⟩ := i2 hn
          refine ⟨a1, fun z hz => ?_⟩
          simp only [T.toList, List.mem_append, List.mem_cons] at hz
          rcases hz with hz | hz
          · exact a2 z hz
          · exact above z hz
      · rw [if_neg h1]
        have hxk : cmp x k ≤ 0 := le_of_not_lt ho (by omega)
        obtain ⟨i1, i2⟩ := ihr (some x) s2
        constructor
        · intro y hy
          rcases i1 y hy with ⟨a1, a2, a3⟩ | ⟨a1, a2⟩
          · refine Or.inl ⟨by simp [T.toList, a1], a2, fun z hz hzk => ?_⟩
            simp only [T.toList, List.mem_append, List.mem_cons] at hz
            rcases hz with hz | rfl | hz
            · exact s5 z hz y a1
            · exact s4 y a1
            · exact a3 z hz hzk
          · simp only [Option.some.injEq] at a1
            subst a1
            refine Or.inl ⟨by simp [T.toList], hxk, fun z hz hzk => ?_⟩
            simp only [T.toList, List.mem_append, List.mem_cons] at hz
            rcases hz with hz | rfl | hz
            · exact s3 z hz
            · have := ho.refl z; omega
            · exact absurd hzk (a2 z hz)
        · intro hn
          exact absurd (i2 hn).1 (by simp)

/-- The least key not below `k`. -/
theorem getLeast_spec {cmp : κ → κ → Int} (ho : Order cmp) (k : κ) (t : T κ) (best : Option κ) (hs : Sorted cmp t.toList) :
    (∀ y, getLeast cmp k t best = some y →
      (y ∈ t.toList ∧ cmp k y ≤ 0 ∧ ∀ x ∈ t.toList, cmp k x ≤ 0 → cmp y x ≤ 0) ∨
      (best = some y ∧ ∀ x ∈ t.toList, ¬ cmp k x ≤ 0)) ∧
    (getLeast cmp k t best = none → best = none ∧ ∀ x ∈ t.toList, ¬ cmp k x ≤ 0) := by
  induction t generalizing best with
  | nil => exact ⟨fun y h => Or.inr ⟨h, by simp [T.toList]⟩, fun h => ⟨h, by simp [T.toList]⟩⟩
  | node l x rk b r ihl ihr =>
    obtain ⟨s1, s2, s3, s4, s5⟩ := hs.node
    unfold getLeast
    by_cases h0 : cmp k x = 0
    · rw [if_pos h0]
      refine ⟨fun y hy => Or.inl ?_, fun h => by cases h⟩
      simp only [Option.some.injEq] at hy
      subst hy
      exact ⟨by simp [T.toList], by omega, fun z _ hzk => ho.trans x k z (le_of_eq ho h0) hzk⟩
    · rw [if_neg h0]
      by_cases h1 : cmp k x < 0
      · rw [if_pos h1]
        obtain ⟨i1, i2⟩ := ihl (some x) s1
        constructor
        · intro y hy
          rcases i1 y hy with ⟨a1, a2, a3⟩ | ⟨a1, a2⟩
          · refine Or.inl ⟨by simp [T.toList, a1], a2, fun z hz hzk => ?_⟩
            simp only [T.toList, List.mem_append, List.mem_cons] at hz
            rcases hz with hz | rfl | hz
            · exact a3 z hz hzk
            · exact s3 y a1
            · exact s5 y a1 z hz
          · simp only [Option.some.injEq] at a1
            subst a1
            refine Or.inl ⟨by simp [T.toList], by omega, fun z hz hzk => ?_⟩
            simp only [T.toList, List.mem_append, List.mem_cons] at hz
            rcases hz with hz | rfl | hz
            · exact absurd hzk (a2 z hz)
            · have := ho.refl z; omega
            · exact s4 z hz
        · intro hn
          exact absurd (i2 hn).1 (by simp)
      · rw [if_neg h1]
        have h2 : 0 < cmp k x := by omega
        have under : ∀ z, z = x ∨ z ∈ l.toList → ¬ cmp k z ≤ 0 := by
          intro z hz hzk
          have : 0 < cmp k z := by
            rcases hz with rfl | hz
            · exact h2
            · exact cmp_gt_left ho h2 (s3 z hz)
          omega
        obtain ⟨i1, i2⟩ := ihr best s2
        constructor
        · intro y hy
          rcases i1 y hy with ⟨a1, a2, a3⟩ | ⟨a1, a2⟩
          · refine Or.inl ⟨by simp [T.toList, a1], a2, fun z hz hzk => ?_⟩
            simp only [T.toList, List.mem_append, List.mem_cons] at hz
            rcases hz with hz | rfl | hz
            · exact absurd hzk (under z (Or.inr hz))
            · exact absurd hzk (under z (Or.inl rfl))
            · exact a3 z hz hzk
          · refine Or.inr ⟨a1, fun z hz => ?_⟩
            simp only [T.toList, List.mem_append, List.mem_cons] at hz
            rcases hz with hz | rfl | hz
            · exact under z (Or.inr hz)
            · exact under z (Or.inl rfl)
            · exact a2 z hz
        · intro hn
          obtain ⟨a1, a2⟩ := i2 hn
          refine ⟨a1, fun z hz => ?_⟩
          simp only [T.toList, List.mem_append, List.mem_cons] at hz
          rcases hz with hz | rfl | hz
          · exact under z (Or.inr hz)
          · exact under z (Or.inl rfl)
          · exact a2 z hz

/-! ### Index of a key -/

theorem indexOf_spec {cmp : κ → κ → Int} (k : κ) (t : T κ) (base : Nat) (up : List (Frame κ))
    (hr : Ranked t) (hn : t.toList.length < 2 ^ 30) (hb : (pre up).length = base) :
    (getByKey cmp k t = none → indexOf cmp k t base up = none) ∧
    ∀ y, getByKey cmp k t = some y → ∃ p m, indexOf cmp k t base up = some (p, m) ∧ p.key = y ∧
      plug p.tree p.up = plug t up ∧ p.before.length = m := by
  induction t generalizing base up with
  | nil => simp [getByKey, indexOf]
  | node l x rk b r ihl ihr =>
    obtain ⟨r1, r2, r3⟩ := hr
    have hlen : (T.node l x rk b r).toList.length = l.toList.length + r.toList.length + 1 := by simp [T.toList]; omega
    have hk : rk.toNat = l.toList.length + 1 := by rw [r1]; exact rank_toNat _ (by omega)
    unfold getByKey indexOf
    by_cases h1 : cmp k x < 0
    · simp only [if_pos h1]
      exact ihl base ({ left := true, key := x, rank := rk, bal := b, other := r } :: up) r2 (by omega) (by simpa [pre] using hb)
    · simp only [if_neg h1]
      by_cases h2 : cmp k x > 0
      · simp only [if_pos h2]
        exact ihr (base + rk.toNat) ({ left := false, key := x, rank := rk, bal := b, other := l } :: up) r3 (by omega)
          (by simp [pre]; omega)
      · simp only [if_neg h2]
        refine ⟨fun h => (by cases h), fun y hy => ?_⟩
        simp only [Option.some.injEq] at hy
        exact ⟨_, _, rfl, hy, rfl, by simp only [Loc.before, List.length_append]; omega⟩

theorem spanLeft_spec {cmp : κ → κ → Int} (ho : Order cmp) (k : κ) (t : T κ) (hs : Sorted cmp t.toList) (i : Nat)
    (p : Option (Loc κ)) (hp : ∀ q, p = some q → ∃ j, i = j + 1 ∧ At t j q) (hnone : p = none → i = 0)
    (hle : ∀ x ∈ t.toList.take i, cmp x k ≤ 0) :
    spanLeft cmp k i p = below cmp k (t.toList.take i) := by
  induction i generalizing p with
  | zero => simp [spanLeft, below]
  | succ i ih =>
    cases p with
    | none => exact absurd (hnone rfl) (by omega)
    | some q =>
      obtain ⟨j, hj, hq⟩ := hp q rfl
      have hj' : j = i := by omega
      subst hj'
      have hget := hq.get
      have htake : t.toList.take (j + 1) = t.toList.take j ++ [q.key] := by
        rw [List.take_add_one, hget]; rfl
      have hqk : cmp q.key k ≤ 0 := hle _ (by rw [htake]; simp)
      unfold spanLeft
      by_cases h0 : cmp k q.key = 0
      · rw [if_pos h0]
        rw [ih (prev q) (fun q' h' => hq.prev.2 q' h') (fun h' => hq.prev.1 h') (fun x hx => hle x (by rw [htake]; simp [hx]))]
        unfold below
        rw [htake, List.filter_append]
        have : ¬ cmp q.key k < 0 := by
          intro h; have := (ho.flip _ _).1 h; omega
        simp [this]
      · rw [if_neg h0]
        have hlt : cmp q.key k < 0 := by
          by_cases h : cmp q.key k < 0
          · exact h
          · have := le_of_not_lt ho h
            have h3 : ¬ cmp k q.key < 0 := fun h' => by have := (ho.flip _ _).1 h'; omega
            omega
        unfold below
        have hall : (t.toList.take (j + 1)).filter (fun x => decide (cmp x k < 0)) = t.toList.take (j + 1) := by
          rw [List.filter_eq_self]
          intro x hx
          rw [htake, List.mem_append] at hx
          simp only [decide_eq_true_eq]
          rcases hx with hx | hx
          · have hxq : cmp x q.key ≤ 0 := by
              have := hs
              unfold Sorted at this
              rw [hq.list] at this
              rw [List.pairwise_append] at this
              refine this.2.2 x ?_ q.key (by simp)
              have e : t.toList.take j = q.before := by
                rw [hq.list, ← hq.idx, List.take_left']
                rfl
              rw [← e]; exact hx
            have h4 : 0 < cmp k q.key := (ho.flip _ _).1 hlt
            exact (ho.flip _ _).2 (cmp_gt_left ho h4 hxq)
          · simp only [List.mem_singleton] at hx
            rw [hx]; exact hlt
        rw [hall, List.length_take]
        have : t.toList.length = j + 1 + q.after.length := by
          rw [hq.list]; simp [hq.idx]; omega
        omega

/-- The low index of the span of a stored key is the number of smaller keys. -/
theorem spanLow_spec {cmp : κ → κ → Int} (ho : Order cmp) {s : Tree κ} (hg : Good cmp s) (hr : Ranked s.root)
    (hn : s.length < 2 ^ 30) (k : κ) (hk : ∃ x ∈ s.root.toList, cmp k x = 0) :
    spanLow cmp s k = some (below cmp k s.root.toList) := by
  cases hget : getByKey cmp k s.root with
  | none =>
    obtain ⟨x, hx, hx0⟩ := hk
    exact absurd hx0 ((getByKey_none ho hg.sorted).1 hget x hx)
  | some y =>
    obtain ⟨p, m, e1, e2, e3, e4⟩ := (indexOf_spec (cmp := cmp) k s.root 0 [] hr (by rw [← hg.count]; exact hn) rfl).2 y hget
    have hky := (getByKey_some hget).2
    have hat : At s.root m p := ⟨e3, e4⟩
    unfold spanLow
    rw [e1]
    simp only
    have hsp := hg.sorted
    unfold Sorted at hsp
    rw [hat.list, List.pairwise_append, List.pairwise_cons] at hsp
    have hbefore : s.root.toList.take m = p.before := by
      rw [hat.list, ← hat.idx, List.take_left']
      rfl
    have hyk : cmp p.key k ≤ 0 := by rw [e2]; exact le_of_eq ho hky
    have key : ∀ x ∈ s.root.toList.take m, cmp x k ≤ 0 := by
      intro x hx
      rw [hbefore] at hx
      exact ho.trans x p.key k (hsp.2.2 x hx p.key (by simp)) hyk
    rw [spanLeft_spec ho k s.root hg.sorted m (prev p) (fun q h => hat.prev.2 q h) (fun h => hat.prev.1 h) key]
    congr 1
    unfold below
    rw [hbefore, hat.list, List.filter_append]
    have : (p.key :: p.after).filter (fun x => decide (cmp x k < 0)) = [] := by
      rw [List.filter_eq_nil_iff]
      intro x hx
      simp only [decide_eq_true_eq]
      intro hlt
      have h1 : 0 < cmp k x := (ho.flip _ _).1 hlt
      have h2 : cmp p.key x ≤ 0 := by
        rw [List.mem_cons] at hx
        rcases hx with rfl | hx
        · have := ho.refl p.key; omega
        · exact hsp.2.1.1 x hx
      have h3 := ho.trans k p.key x (by rw [e2]; omega) h2
      omega
    rw [this, List.append_nil]

end Verif.Avl

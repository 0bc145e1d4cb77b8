import Verif.Avl.Lemmas
namespace Verif.Avl
variable {κ : Type}

theorem shrink_bal (c : T κ) (fs : List (Frame κ)) (hb : Balanced c) (hp : PathBal (c.height + 1) fs) :
    ∃ t, shrink c fs = some t ∧ Balanced t ∧ t.toList = pre fs ++ c.toList ++ post fs := by
  induction fs generalizing c with
  | nil => exact ⟨c, rfl, hb, by simp [pre, post]⟩
  | cons f fs ih =>
    obtain ⟨p1, p2, p3, p4, p5⟩ := hp
    unfold shrink
    show ∃ t, (if f.bal = 0 then _ else if f.bal = (if f.left then (-1 : Int) else 1) then _ else _) = some t ∧ _
    by_cases h0 : f.bal = 0
    · rw [if_pos h0]
      refine ⟨_, rfl, ?_, by rw [toList_plug, toList_close]⟩
      rw [bal_plug, height_close, bal_close]
      by_cases hl : f.left = true
      · simp only [hl, if_true] at p1 ⊢
        have : max c.height f.other.height + 1 = max (c.height + 1) f.other.height + 1 := by omega
        rw [this]
        exact ⟨⟨by omega, by omega, by omega, p4, hb⟩, p5⟩
      · simp only [hl, Bool.false_eq_true, if_false] at p1 ⊢
        have : max c.height f.other.height + 1 = max (c.height + 1) f.other.height + 1 := by omega
        rw [this]
        exact ⟨⟨by omega, by omega, by omega, p4, hb⟩, p5⟩
    · rw [if_neg h0]
      by_cases h1 : f.bal = (if f.left then (-1 : Int) else 1)
      · rw [if_pos h1]
        have hbc : Balanced (f.close 0 c) := by
          rw [bal_close]
          by_cases hl : f.left = true
          · simp only [hl, if_true] at p1 h1 ⊢; exact ⟨by omega, by omega, by omega, p4, hb⟩
          · simp only [hl, Bool.false_eq_true, if_false] at p1 h1 ⊢; exact ⟨by omega, by omega, by omega, p4, hb⟩
        have hh : (f.close 0 c).height + 1 = max (c.height + 1) f.other.height + 1 := by
          rw [height_close]
          by_cases hl : f.left = true
          · simp only [hl, if_true] at p1 h1; omega
          · simp only [hl, Bool.false_eq_true, if_false] at p1 h1; omega
        obtain ⟨t, t1, t2, t3⟩ := ih _ hbc (by rw [hh]; exact p5)
        exact ⟨t, t1, t2, by rw [t3, toList_close]⟩
      · rw [if_neg h1]
        cases ho : f.other with
        | nil =>
          rw [ho] at p1
          simp only [T.height] at p1
          by_cases hl : f.left = true
          · simp only [hl, if_true] at p1 h1; omega
          · simp only [hl, Bool.false_eq_true, if_false] at p1 h1; omega
        | node ql qx qrk qb qr =>
          rw [ho] at p1 p4 p5
          obtain ⟨q1, q2, q3, q4, q5⟩ := p4
          simp only [T.height] at p1 p5
          by_cases hl : f.left = true
          · simp only [hl, if_true] at p1 h1 ⊢
            have hfb : f.bal = 1 := by omega
            by_cases h2 : qb = 0
            · rw [if_pos h2]
              refine ⟨_, rfl, ?_, by rw [toList_plug]; simp [pre, post, hl, ho, T.toList]⟩
              rw [bal_plug]
              simp only [Balanced, T.height, hb, q4, q5, and_true, true_and]
              have e : max (max c.height ql.height + 1) qr.height + 1 = max (c.height + 1) (max ql.height qr.height + 1) + 1 := by omega
              rw [e]
              refine ⟨⟨?_, ?_, ?_, ?_, ?_, ?_⟩, p5⟩ <;> omega
            · rw [if_neg h2]
              by_cases h3 : qb = f.bal
              · rw [if_pos h3]
                obtain ⟨t, t1, t2, t3⟩ := ih (.node (.node c f.key f.rank 0 ql) qx (qrk + f.rank) 0 qr)
                  (by simp only [Balanced, T.height, hb, q4, q5, and_true]; refine ⟨?_, ?_, ?_, ?_, ?_, ?_⟩ <;> omega)
                  (by
                    have e : (T.node (.node c f.key f.rank 0 ql) qx (qrk + f.rank) 0 qr).height + 1 =
                        max (c.height + 1) (max ql.height qr.height + 1) + 1 := by simp only [T.height]; omega
                    rw [e]; exact p5)
                exact ⟨t, t1, t2, by rw [t3]; simp [pre, post, hl, ho, T.toList]⟩
              · rw [if_neg h3]
                cases ql with
                | nil => simp only [T.height] at q1 p1; omega
                | node rl rx rrk rb rr =>
                  obtain ⟨r1, r2, r3, r4, r5⟩ := q4
                  simp only [T.height] at q1 p1 p5
                  obtain ⟨t, t1, t2, t3⟩ := ih (.node (.node c f.key f.rank (if rb = -1 then 0 else if rb = 1 then -1 else 0) rl) rx
                      (rrk + f.rank) 0 (.node rr qx (qrk - rrk) (if rb = -1 then 1 else 0) qr))
                    (by
                      simp only [Balanced, T.height, hb, q5, r4, r5, and_true]
                      by_cases hx : rb = -1
                      · rw [if_pos hx, if_pos hx]; (refine ⟨?_, ?_, ?_, ⟨?_, ?_, ?_⟩, ?_, ?_, ?_⟩ <;> omega)
                      · by_cases hy : rb = 1
                        · rw [if_neg hx, if_neg hx, if_pos hy]; (refine ⟨?_, ?_, ?_, ⟨?_, ?_, ?_⟩, ?_, ?_, ?_⟩ <;> omega)
                        · rw [if_neg hx, if_neg hx, if_neg hy]; (refine ⟨?_, ?_, ?_, ⟨?_, ?_, ?_⟩, ?_, ?_, ?_⟩ <;> omega))
                    (by
                      have e : ∀ b1 b2, (T.node (.node c f.key f.rank b1 rl) rx
                          (rrk + f.rank) 0 (.node rr qx (qrk - rrk) b2 qr)).height + 1 =
                          max (c.height + 1) (max (max rl.height rr.height + 1) qr.height + 1) + 1 := by
                        intro b1 b2; simp only [T.height]; omega
                      rw [e]; exact p5)
                  exact ⟨t, t1, t2, by rw [t3]; simp [pre, post, hl, ho, T.toList]⟩
          · simp only [hl, Bool.false_eq_true, if_false] at p1 h1 ⊢
            have hfb : f.bal = -1 := by omega
            by_cases h2 : qb = 0
            · rw [if_pos h2]
              refine ⟨_, rfl, ?_, by rw [toList_plug]; simp [pre, post, hl, ho, T.toList]⟩
              rw [bal_plug]
              simp only [Balanced, T.height, hb, q4, q5, and_true, true_and]
              have e : max ql.height (max qr.height c.height + 1) + 1 = max (c.height + 1) (max ql.height qr.height + 1) + 1 := by omega
              rw [e]
              refine ⟨⟨?_, ?_, ?_, ?_, ?_, ?_⟩, p5⟩ <;> omega
            · rw [if_neg h2]
              by_cases h3 : qb = f.bal
              · rw [if_pos h3]
                obtain ⟨t, t1, t2, t3⟩ := ih (.node ql qx qrk 0 (.node qr f.key (f.rank - qrk) 0 c))
                  (by simp only [Balanced, T.height, hb, q4, q5, and_true, true_and]; refine ⟨?_, ?_, ?_, ?_, ?_, ?_⟩ <;> omega)
                  (by
                    have e : (T.node ql qx qrk 0 (.node qr f.key (f.rank - qrk) 0 c)).height + 1 =
                        max (c.height + 1) (max ql.height qr.height + 1) + 1 := by simp only [T.height]; omega
                    rw [e]; exact p5)
                exact ⟨t, t1, t2, by rw [t3]; simp [pre, post, hl, ho, T.toList]⟩
              · rw [if_neg h3]
                cases qr with
                | nil => simp only [T.height] at q1 p1; omega
                | node rl rx rrk rb rr =>
                  obtain ⟨r1, r2, r3, r4, r5⟩ := q5
                  simp only [T.height] at q1 p1 p5
                  obtain ⟨t, t1, t2, t3⟩ := ih (.node (.node ql qx qrk (if rb = 1 then -1 else 0) rl) rx (rrk + qrk) 0
                      (.node rr f.key (f.rank - (rrk + qrk)) (if rb = 1 then 0 else if rb = -1 then 1 else 0) c))
                    (by
                      simp only [Balanced, T.height, hb, q4, r4, r5, and_true]
                      by_cases hx : rb = 1
                      · rw [if_pos hx, if_pos hx]; (refine ⟨?_, ?_, ?_, ⟨?_, ?_, ?_⟩, ?_, ?_, ?_⟩ <;> omega)
                      · by_cases hy : rb = -1
                        · rw [if_neg hx, if_neg hx, if_pos hy]; (refine ⟨?_, ?_, ?_, ⟨?_, ?_, ?_⟩, ?_, ?_, ?_⟩ <;> omega)
                        · rw [if_neg hx, if_neg hx, if_neg hy]; (refine ⟨?_, ?_, ?_, ⟨?_, ?_, ?_⟩, ?_, ?_, ?_⟩ <;> omega))
                    (by
                      have e : ∀ b1 b2, (T.node (.node ql qx qrk b1 rl) rx (rrk + qrk) 0
                          (.node rr f.key (f.rank - (rrk + qrk)) b2 c)).height + 1 =
                          max (c.height + 1) (max ql.height (max rl.height rr.height + 1) + 1) + 1 := by
                        intro b1 b2; simp only [T.height]; omega
                      rw [e]; exact p5)
                  exact ⟨t, t1, t2, by rw [t3]; simp [pre, post, hl, ho, T.toList]⟩

theorem shrink_rank (c t : T κ) (fs : List (Frame κ)) (hs : shrink c fs = some t) (hc : Ranked c)
    (hp : PathRank c.toList.length fs) : Ranked t := by
  induction fs generalizing c with
  | nil => simp [shrink] at hs; exact hs ▸ hc
  | cons f fs ih =>
    obtain ⟨r1, r2, r3⟩ := hp
    have hrc : ∀ b, Ranked (f.close b c) := fun b => (rank_close f b c).2 ⟨r1, r2, hc⟩
    have hplug : ∀ b, Ranked (plug (f.close b c) fs) := fun b => (rank_plug _ _).2 ⟨hrc b, by rw [size_close]; exact r3⟩
    unfold shrink at hs
    replace hs : (if f.bal = 0 then _ else if f.bal = (if f.left then (-1 : Int) else 1) then _ else _) = some t := hs
    by_cases h0 : f.bal = 0
    · rw [if_pos h0] at hs
      simp only [Option.some.injEq] at hs
      rw [← hs]; exact hplug _
    · rw [if_neg h0] at hs
      by_cases h1 : f.bal = (if f.left then (-1 : Int) else 1)
      · rw [if_pos h1] at hs
        exact ih _ hs (hrc _) (by rw [size_close]; exact r3)
      · rw [if_neg h1] at hs
        cases ho : f.other with
        | nil => rw [ho] at hs; simp at hs
        | node ql qx qrk qb qr =>
          rw [ho] at hs r1 r2 r3
          obtain ⟨k1, k2, k3⟩ := r2
          by_cases hl : f.left = true
          · simp only [hl, if_true] at hs r1
            have rot : ∀ b1 b2, Ranked (.node (.node c f.key f.rank b1 ql) qx (qrk + f.rank) b2 qr) ∧
                (T.node (.node c f.key f.rank b1 ql) qx (qrk + f.rank) b2 qr).toList.length =
                  c.toList.length + (T.node ql qx qrk qb qr).toList.length + 1 := by
              intro b1 b2
              simp only [Ranked, T.toList, List.length_append, List.length_cons]
              refine ⟨⟨?_, ⟨r1, hc, k2⟩, k3⟩, by omega⟩
              rw [r1, k1]; exact rank_add _ _ _ (by omega)
            by_cases h2 : qb = 0
            · rw [if_pos h2] at hs
              simp only [Option.some.injEq] at hs
              rw [← hs, rank_plug, (rot _ _).2]
              exact ⟨(rot _ _).1, r3⟩
            · rw [if_neg h2] at hs
              by_cases h3 : qb = f.bal
              · rw [if_pos h3] at hs
                exact ih _ hs (rot _ _).1 (by rw [(rot _ _).2]; exact r3)
              · rw [if_neg h3] at hs
                cases ql with
                | nil => simp at hs
                | node rl rx rrk rb rr =>
                  simp only at hs
                  obtain ⟨g1, g2, g3⟩ := k2
                  have hh : ∀ b1 b2, Ranked (.node (.node c f.key f.rank b1 rl) rx (rrk + f.rank) 0
                        (.node rr qx (qrk - rrk) b2 qr)) ∧
                      (T.node (.node c f.key f.rank b1 rl) rx (rrk + f.rank) 0
                        (.node rr qx (qrk - rrk) b2 qr)).toList.length =
                        c.toList.length + (T.node (T.node rl rx rrk rb rr) qx qrk qb qr).toList.length + 1 := by
                    intro b1 b2
                    simp only [Ranked, T.toList, List.length_append, List.length_cons] at k1 ⊢
                    refine ⟨⟨?_, ⟨r1, hc, g2⟩, ?_, g3, k3⟩, by omega⟩
                    · rw [r1, g1]; exact rank_add _ _ _ (by omega)
                    · rw [k1, g1]; exact rank_sub _ _ _ (by omega)
                  exact ih _ hs (hh _ _).1 (by rw [(hh _ _).2]; exact r3)
          · simp only [hl, Bool.false_eq_true, if_false] at hs r1
            have rot : ∀ b1 b2, Ranked (.node ql qx qrk b2 (.node qr f.key (f.rank - qrk) b1 c)) ∧
                (T.node ql qx qrk b2 (.node qr f.key (f.rank - qrk) b1 c)).toList.length =
                  c.toList.length + (T.node ql qx qrk qb qr).toList.length + 1 := by
              intro b1 b2
              simp only [Ranked, T.toList, List.length_append, List.length_cons] at r1 ⊢
              refine ⟨⟨k1, k2, ?_, k3, hc⟩, by omega⟩
              rw [r1, k1]; exact rank_sub _ _ _ (by omega)
            by_cases h2 : qb = 0
            · rw [if_pos h2] at hs
              simp only [Option.some.injEq] at hs
              rw [← hs, rank_plug, (rot _ _).2]
              exact ⟨(rot _ _).1, r3⟩
            · rw [if_neg h2] at hs
              by_cases h3 : qb = f.bal
              · rw [if_pos h3] at hs
                exact ih _ hs (rot _ _).1 (by rw [(rot _ _).2]; exact r3)
              · rw [if_neg h3] at hs
                cases qr with
                | nil => simp at hs
                | node rl rx rrk rb rr =>
                  simp only at hs
                  obtain ⟨g1, g2, g3⟩ := k3
                  have e : rrk + qrk = BitVec.ofNat 30 (ql.toList.length + (rl.toList.length + 1) + 1) := by
                    rw [g1, k1]; exact rank_add _ _ _ (by omega)
                  have hh : ∀ b1 b2, Ranked (.node (.node ql qx qrk b1 rl) rx (rrk + qrk) 0
                        (.node rr f.key (f.rank - (rrk + qrk)) b2 c)) ∧
                      (T.node (.node ql qx qrk b1 rl) rx (rrk + qrk) 0
                        (.node rr f.key (f.rank - (rrk + qrk)) b2 c)).toList.length =
                        c.toList.length + (T.node ql qx qrk qb (T.node rl rx rrk rb rr)).toList.length + 1 := by
                    intro b1 b2
                    rw [e]
                    simp only [Ranked, T.toList, List.length_append, List.length_cons] at r1 ⊢
                    refine ⟨⟨by trivial, ⟨k1, k2, g2⟩, ?_, g3, hc⟩, by omega⟩
                    rw [r1]; exact rank_sub _ _ _ (by omega)
                  exact ih _ hs (hh _ _).1 (by rw [(hh _ _).2]; exact r3)

/-! ### The descents -/

theorem insDown_bal (cmp : κ → κ → Int) (k : κ) (t : T κ) (up : List (Frame κ)) (hb : Balanced t)
    (hp : PathBal t.height up) : PathBal 0 (insDown cmp k t up) := by
  induction t generalizing up with
  | nil => exact hp
  | node l x rk b r ihl ihr =>
    obtain ⟨b1, b2, b3, b4, b5⟩ := hb
    unfold insDown
    by_cases h : cmp k x < 1
    · rw [if_pos h]
      exact ihl _ b4 ⟨by simpa using b1, b2, b3, b5, hp⟩
    · rw [if_neg h]
      refine ihr _ b5 ⟨by simpa using b1, b2, b3, b4, ?_⟩
      have : max r.height l.height + 1 = max l.height r.height + 1 := by omega
      show PathBal (max r.height l.height + 1) up
      rw [this]; exact hp

theorem insDown_rank (cmp : κ → κ → Int) (k : κ) (t : T κ) (up : List (Frame κ)) (hb : Ranked t)
    (hp : PathRank (t.toList.length + 1) up) : PathRank 1 (insDown cmp k t up) := by
  induction t generalizing up with
  | nil => exact hp
  | node l x rk b r ihl ihr =>
    obtain ⟨b1, b2, b3⟩ := hb
    unfold insDown
    by_cases h : cmp k x < 1
    · rw [if_pos h]
      refine ihl _ b2 ⟨?_, b3, ?_⟩
      · show rk + 1 = _
        rw [b1]; exact rank_add _ 1 _ rfl
      · have : (T.node l x rk b r).toList.length + 1 = l.toList.length + 1 + r.toList.length + 1 := by
          simp [T.toList]; omega
        rw [this] at hp; exact hp
    · rw [if_neg h]
      refine ihr _ b3 ⟨b1, b2, ?_⟩
      have : (T.node l x rk b r).toList.length + 1 = r.toList.length + 1 + l.toList.length + 1 := by
        simp [T.toList]; omega
      rw [this] at hp; exact hp

theorem Sorted.node {cmp : κ → κ → Int} {l r : T κ} {x : κ} {rk : BitVec 30} {b : Int}
    (h : Sorted cmp (T.node l x rk b r).toList) :
    Sorted cmp l.toList ∧ Sorted cmp r.toList ∧ (∀ y ∈ l.toList, cmp y x ≤ 0) ∧ (∀ y ∈ r.toList, cmp x y ≤ 0) ∧
      ∀ y ∈ l.toList, ∀ z ∈ r.toList, cmp y z ≤ 0 := by
  unfold Sorted at *
  rw [T.toList, List.pairwise_append, List.pairwise_cons] at h
  obtain ⟨h1, ⟨h2, h3⟩, h4⟩ := h
  exact ⟨h1, h3, fun y hy => h4 y hy x (by simp), h2, fun y hy z hz => h4 y hy z (by simp [hz])⟩

theorem insDown_split (cmp : κ → κ → Int) (ho : Order cmp) (k : κ) (t : T κ) (up : List (Frame κ))
    (hs : Sorted cmp t.toList) :
    ∃ a b, t.toList = a ++ b ∧ pre (insDown cmp k t up) = pre up ++ a ∧ post (insDown cmp k t up) = b ++ post up ∧
      (∀ x ∈ a, 0 < cmp k x) ∧ ∀ x ∈ b, cmp k x ≤ 0 := by
  induction t generalizing up with
  | nil => exact ⟨[], [], rfl, by simp [insDown], by simp [insDown], by simp, by simp⟩
  | node l x rk b r ihl ihr =>
    obtain ⟨s1, s2, s3, s4, s5⟩ := hs.node
    unfold insDown
    by_cases h : cmp k x < 1
    · rw [if_pos h]
      obtain ⟨a, c, e1, e2, e3, e4, e5⟩ := ihl ({ left := true, key := x, rank := rk + 1, bal := b, other := r } :: up) s1
      refine ⟨a, c ++ x :: r.toList, by simp [T.toList, e1], by rw [e2]; simp [pre], by rw [e3]; simp [post], e4, ?_⟩
      intro y hy
      simp only [List.mem_append, List.mem_cons] at hy
      rcases hy with hy | rfl | hy
      · exact e5 y hy
      · omega
      · exact ho.trans k x y (by omega) (s4 y hy)
    · rw [if_neg h]
      obtain ⟨a, c, e1, e2, e3, e4, e5⟩ := ihr ({ left := false, key := x, rank := rk, bal := b, other := l } :: up) s2
      refine ⟨l.toList ++ x :: a, c, by simp [T.toList, e1], by rw [e2]; simp [pre], by rw [e3]; simp [post], ?_, e5⟩
      intro y hy
      simp only [List.mem_append, List.mem_cons] at hy
      rcases hy with hy | rfl | hy
      · refine Int.not_le.1 fun hc => ?_
        have := ho.trans k y x hc (s3 y hy)
        omega
      · omega
      · exact e4 y hy

theorem predDown_path (l : T κ) (x : κ) (rk : BitVec 30) (b : Int) (r : T κ) (up vp : List (Frame κ)) :
    predDown l x rk b r (up ++ vp) =
      ((predDown l x rk b r up).1, (predDown l x rk b r up).2.1, (predDown l x rk b r up).2.2 ++ vp) := by
  induction r generalizing l x rk b up with
  | nil => rfl
  | node rl rx rrk rb rr _ ih =>
    unfold predDown
    rw [← List.cons_append]
    exact ih rl rx rrk rb _

theorem predDown_spec (l : T κ) (x : κ) (rk : BitVec 30) (b : Int) (r : T κ) (up : List (Frame κ))
    (hb : Balanced (.node l x rk b r)) (hp : PathBal (T.node l x rk b r).height up) :
    Balanced (predDown l x rk b r up).1 ∧ PathBal ((predDown l x rk b r up).1.height + 1) (predDown l x rk b r up).2.2 ∧
      pre up ++ (T.node l x rk b r).toList =
        pre (predDown l x rk b r up).2.2 ++ (predDown l x rk b r up).1.toList ++ [(predDown l x rk b r up).2.1] ∧
      post (predDown l x rk b r up).2.2 = post up := by
  induction r generalizing l x rk b up with
  | nil =>
    obtain ⟨b1, b2, b3, b4, b5⟩ := hb
    refine ⟨b4, ?_, by simp [predDown, T.toList], rfl⟩
    simp only [T.height, Nat.max_zero] at hp
    exact hp
  | node rl rx rrk rb rr _ ih =>
    obtain ⟨b1, b2, b3, b4, b5⟩ := hb
    unfold predDown
    obtain ⟨e1, e2, e3, e4⟩ := ih rl rx rrk rb ({ left := false, key := x, rank := rk, bal := b, other := l } :: up) b5
      ⟨by simpa using b1, b2, b3, b4, by
        show PathBal (max (T.node rl rx rrk rb rr).height l.height + 1) up
        rw [Nat.max_comm]; exact hp⟩
    refine ⟨e1, e2, ?_, by rw [e4]; simp [post]⟩
    rw [← e3]
    simp [pre, T.toList]

theorem predDown_rank (l : T κ) (x : κ) (rk : BitVec 30) (b : Int) (r : T κ) (up : List (Frame κ))
    (hb : Ranked (.node l x rk b r)) (hp : PathRank ((T.node l x rk b r).toList.length - 1) up) :
    Ranked (predDown l x rk b r up).1 ∧
      PathRank ((predDown l x rk b r up).1.toList.length) (predDown l x rk b r up).2.2 := by
  induction r generalizing l x rk b up with
  | nil =>
    obtain ⟨b1, b2, b3⟩ := hb
    refine ⟨b2, ?_⟩
    simp only [T.toList, List.length_append, List.length_cons, List.length_nil] at hp
    exact hp
  | node rl rx rrk rb rr _ ih =>
    obtain ⟨b1, b2, b3⟩ := hb
    unfold predDown
    refine ih rl rx rrk rb _ b3 ⟨b1, b2, ?_⟩
    have e : (T.node l x rk b (T.node rl rx rrk rb rr)).toList.length - 1 =
        (T.node rl rx rrk rb rr).toList.length - 1 + l.toList.length + 1 := by
      simp [T.toList]; omega
    rw [e] at hp
    exact hp

/-- What the descent of a deletion gives when it finds the key. -/
theorem delDown_hit (cmp : κ → κ → Int) (k : κ) (t : T κ) (up : List (Frame κ)) (hb : Balanced t)
    (hp : PathBal t.height up) {l r : T κ} {x : κ} {rk : BitVec 30} {b : Int} {vp : List (Frame κ)}
    (h : delDown cmp k t up = .hit l x rk b r vp) :
    Balanced (.node l x rk b r) ∧ PathBal (T.node l x rk b r).height vp ∧ cmp k x = 0 ∧
      pre vp ++ (T.node l x rk b r).toList ++ post vp = pre up ++ t.toList ++ post up := by
  induction t generalizing up with
  | nil =>
    cases up with
    | nil => simp [delDown] at h
    | cons f fs => unfold delDown at h; by_cases hl : f.left = true <;> simp [hl] at h
  | node tl tx trk tb tr ihl ihr =>
    obtain ⟨b1, b2, b3, b4, b5⟩ := id hb
    unfold delDown at h
    by_cases h1 : cmp k tx < 0
    · rw [if_pos h1] at h
      obtain ⟨e1, e2, e3, e4⟩ := ihl ({ left := true, key := tx, rank := trk - 1, bal := tb, other := tr } :: up) b4 ⟨by simpa using b1, b2, b3, b5, hp⟩ h
      exact ⟨e1, e2, e3, by rw [e4]; simp [pre, post, T.toList]⟩
    · rw [if_neg h1] at h
      by_cases h2 : cmp k tx > 0
      · rw [if_pos h2] at h
        obtain ⟨e1, e2, e3, e4⟩ := ihr ({ left := false, key := tx, rank := trk, bal := tb, other := tl } :: up) b5 ⟨by simpa using b1, b2, b3, b4, by
          show PathBal (max tr.height tl.height + 1) up
          rw [Nat.max_comm]; exact hp⟩ h
        exact ⟨e1, e2, e3, by rw [e4]; simp [pre, post, T.toList]⟩
      · rw [if_neg h2] at h
        cases h
        exact ⟨hb, hp, by omega, rfl⟩

theorem delDown_rank (cmp : κ → κ → Int) (k : κ) (t : T κ) (up : List (Frame κ)) (hb : Ranked t)
    (hp : PathRank (t.toList.length - 1) up) {l r : T κ} {x : κ} {rk : BitVec 30} {b : Int} {vp : List (Frame κ)}
    (h : delDown cmp k t up = .hit l x rk b r vp) :
    Ranked (.node l x rk b r) ∧ PathRank ((T.node l x rk b r).toList.length - 1) vp := by
  induction t generalizing up with
  | nil =>
    cases up with
    | nil => simp [delDown] at h
    | cons f fs => unfold delDown at h; by_cases hl : f.left = true <;> simp [hl] at h
  | node tl tx trk tb tr ihl ihr =>
    obtain ⟨b1, b2, b3⟩ := id hb
    unfold delDown at h
    by_cases h1 : cmp k tx < 0
    · rw [if_pos h1] at h
      have hne : tl ≠ .nil := by
        rintro rfl; simp [delDown] at h
      have hlen : 0 < tl.toList.length := by
        cases tl with
        | nil => exact absurd rfl hne
        | node a1 a2 a3 a4 a5 => simp [T.toList]; omega
      refine ihl ({ left := true, key := tx, rank := trk - 1, bal := tb, other := tr } :: up) b2 ⟨?_, b3, ?_⟩ h
      · show trk - 1 = _
        rw [b1]; exact rank_sub _ 1 _ (by simp; omega)
      · have e : (T.node tl tx trk tb tr).toList.length - 1 = tl.toList.length - 1 + tr.toList.length + 1 := by
          simp [T.toList]; omega
        rw [e] at hp; exact hp
    · rw [if_neg h1] at h
      by_cases h2 : cmp k tx > 0
      · rw [if_pos h2] at h
        have hne : tr ≠ .nil := by
          rintro rfl; simp [delDown] at h
        have hlen : 0 < tr.toList.length := by
          cases tr with
          | nil => exact absurd rfl hne
          | node a1 a2 a3 a4 a5 => simp [T.toList]; omega
        refine ihr ({ left := false, key := tx, rank := trk, bal := tb, other := tl } :: up) b3 ⟨b1, b2, ?_⟩ h
        have e : (T.node tl tx trk tb tr).toList.length - 1 = tr.toList.length - 1 + tl.toList.length + 1 := by
          simp [T.toList]; omega
        rw [e] at hp; exact hp
      · rw [if_neg h2] at h
        cases h
        exact ⟨hb, hp⟩

/-- Undoing changes only ranks. -/
theorem undo_pre (up : List (Frame κ)) : pre (undo up) = pre up ∧ post (undo up) = post up := by
  induction up with
  | nil => exact ⟨rfl, rfl⟩
  | cons f fs ih =>
    by_cases hl : f.left = true
    · simp [undo, hl, pre, post] at ih ⊢; exact ih
    · simp [undo, hl, pre, post] at ih ⊢; exact ih

/-- The search that ends at a missing child found no equal key, and the undo loop puts the tree back – except for the
rank of the last node when its right child is missing. -/
theorem delDown_miss (cmp : κ → κ → Int) (k : κ) (t : T κ) (up vp : List (Frame κ)) (f : Frame κ) :
    (delDown cmp k t up = .missLeft f vp → plug .nil ({ f with rank := f.rank + 1 } :: undo vp) = plug t (undo up) ∧ f.left = true) ∧
    (delDown cmp k t up = .missRight f vp → plug .nil (f :: undo vp) = plug t (undo up) ∧ f.left = false) := by
  induction t generalizing up with
  | nil =>
    cases up with
    | nil => simp [delDown]
    | cons g gs =>
      unfold delDown
      by_cases hl : g.left = true
      · rw [if_pos hl]
        refine ⟨fun h => ?_, fun h => by cases h⟩
        cases h
        exact ⟨by simp [undo, hl], hl⟩
      · rw [if_neg hl]
        refine ⟨fun h => (by cases h), fun h => ?_⟩
        cases h
        exact ⟨by simp [undo, hl], by simpa using hl⟩
  | node tl tx trk tb tr ihl ihr =>
    unfold delDown
    by_cases h1 : cmp k tx < 0
    · rw [if_pos h1]
      have := ihl ({ left := true, key := tx, rank := trk - 1, bal := tb, other := tr } :: up)
      have e : plug tl (undo ({ left := true, key := tx, rank := trk - 1, bal := tb, other := tr } :: up)) =
          plug (.node tl tx trk tb tr) (undo up) := by
        simp [undo, plug, Frame.close, BitVec.sub_add_cancel]
      rw [e] at this
      exact this
    · rw [if_neg h1]
      by_cases h2 : cmp k tx > 0
      · rw [if_pos h2]
        have := ihr ({ left := false, key := tx, rank := trk, bal := tb, other := tl } :: up)
        have e : plug tr (undo ({ left := false, key := tx, rank := trk, bal := tb, other := tl } :: up)) =
            plug (.node tl tx trk tb tr) (undo up) := by
          simp [undo, plug, Frame.close]
        rw [e] at this
        exact this
      · rw [if_neg h2]
        exact ⟨fun h => (by cases h), fun h => (by cases h)⟩

end Verif.Avl

import Verif.Avl.Spec
namespace Verif.Avl
variable {κ : Type}

/-- Keys before the hole of a path. -/
def pre : List (Frame κ) → List κ
  | [] => []
  | f :: fs => if f.left then pre fs else pre fs ++ f.other.toList ++ [f.key]

/-- Keys after the hole of a path. -/
def post : List (Frame κ) → List κ
  | [] => []
  | f :: fs => if f.left then f.key :: f.other.toList ++ post fs else post fs

theorem toList_close (f : Frame κ) (b : Int) (c : T κ) (fs : List (Frame κ)) :
    pre fs ++ (f.close b c).toList ++ post fs = pre (f :: fs) ++ c.toList ++ post (f :: fs) := by
  unfold Frame.close
  by_cases h : f.left = true <;> simp [h, pre, post, T.toList]

theorem toList_plug (c : T κ) (fs : List (Frame κ)) : (plug c fs).toList = pre fs ++ c.toList ++ post fs := by
  induction fs generalizing c with
  | nil => simp [plug, pre, post]
  | cons f fs ih => rw [plug, ih, toList_close]

/-- Heights of the path above a hole of height `h`. -/
def PathBal : Nat → List (Frame κ) → Prop
  | _, [] => True
  | h, f :: fs =>
    f.bal = (if f.left then (f.other.height : Int) - h else (h : Int) - f.other.height) ∧ -1 ≤ f.bal ∧ f.bal ≤ 1 ∧
      Balanced f.other ∧ PathBal (max h f.other.height + 1) fs

theorem height_close (f : Frame κ) (b : Int) (c : T κ) : (f.close b c).height = max c.height f.other.height + 1 := by
  unfold Frame.close
  by_cases h : f.left = true
  · simp [h, T.height]
  · simp [h, T.height, Nat.max_comm]

theorem bal_close (f : Frame κ) (b : Int) (c : T κ) :
    Balanced (f.close b c) ↔
      b = (if f.left then (f.other.height : Int) - c.height else (c.height : Int) - f.other.height) ∧ -1 ≤ b ∧ b ≤ 1 ∧
        Balanced f.other ∧ Balanced c := by
  unfold Frame.close
  by_cases h : f.left = true
  · simp [h, Balanced, and_comm]
  · simp [h, Balanced]

theorem bal_plug (c : T κ) (fs : List (Frame κ)) : Balanced (plug c fs) ↔ Balanced c ∧ PathBal c.height fs := by
  induction fs generalizing c with
  | nil => simp [plug, PathBal]
  | cons f fs ih =>
    rw [plug, ih, height_close, bal_close, PathBal]
    constructor
    · rintro ⟨⟨a, b, c, d, e⟩, g⟩; exact ⟨e, a, b, c, d, g⟩
    · rintro ⟨e, a, b, c, d, g⟩; exact ⟨⟨a, b, c, d, e⟩, g⟩

/-- Ranks of the path above a hole with `n` keys. -/
def PathRank : Nat → List (Frame κ) → Prop
  | _, [] => True
  | n, f :: fs =>
    f.rank = BitVec.ofNat 30 ((if f.left then n else f.other.toList.length) + 1) ∧ Ranked f.other ∧
      PathRank (n + f.other.toList.length + 1) fs

theorem size_close (f : Frame κ) (b : Int) (c : T κ) :
    (f.close b c).toList.length = c.toList.length + f.other.toList.length + 1 := by
  unfold Frame.close
  by_cases h : f.left = true
  · simp [h, T.toList]; omega
  · simp [h, T.toList]; omega

theorem rank_close (f : Frame κ) (b : Int) (c : T κ) :
    Ranked (f.close b c) ↔
      f.rank = BitVec.ofNat 30 ((if f.left then c.toList.length else f.other.toList.length) + 1) ∧
        Ranked f.other ∧ Ranked c := by
  unfold Frame.close
  by_cases h : f.left = true
  · simp [h, Ranked, and_comm]
  · simp [h, Ranked]

theorem rank_plug (c : T κ) (fs : List (Frame κ)) : Ranked (plug c fs) ↔ Ranked c ∧ PathRank c.toList.length fs := by
  induction fs generalizing c with
  | nil => simp [plug, PathRank]
  | cons f fs ih =>
    rw [plug, ih, size_close, rank_close, PathRank]
    constructor
    · rintro ⟨⟨a, b, e⟩, g⟩; exact ⟨e, a, b, g⟩
    · rintro ⟨e, a, b, g⟩; exact ⟨⟨a, b, e⟩, g⟩

/-! ### Insertion: balance and contents -/

theorem insRot_bal (f : Frame κ) (r : T κ) (h : Nat) (hb : Balanced r) (hh : r.height = h + 1)
    (hr : r.balance ≠ 0) (hf : f.bal = (if f.left then -1 else 1))
    (hfb : f.bal = (if f.left then (f.other.height : Int) - h else (h : Int) - f.other.height))
    (ho : Balanced f.other) :
    ∃ c, insRot f r = some c ∧ Balanced c ∧ c.height = h + 1 ∧
      (∀ fs, pre fs ++ c.toList ++ post fs = pre (f :: fs) ++ r.toList ++ post (f :: fs)) := by
  cases r with
  | nil => simp [T.height] at hh
  | node rl rx rrk rb rr =>
    simp only [T.balance] at hr
    simp only [T.height] at hh
    obtain ⟨e1, e2, e3, e4, e5⟩ := hb
    by_cases hl : f.left = true
    · simp only [hl, if_true] at hf hfb
      by_cases hm : rb = -1
      · refine ⟨.node rl rx rrk 0 (.node rr f.key (f.rank - rrk) 0 f.other), by simp [insRot, hl, hm], ?_, ?_, ?_⟩
        · simp only [Balanced, T.height, ho, e4, e5, and_true, true_and]; refine ⟨?_, ?_, ?_, ?_, ?_, ?_⟩ <;> omega
        · simp only [T.height]; omega
        · intro fs; simp [pre, post, hl, T.toList]
      · have hp : rb = 1 := by omega
        cases rr with
        | nil => simp only [T.height] at e1 hh; omega
        | node pl px prk pb pr =>
          obtain ⟨g1, g2, g3, g4, g5⟩ := e5
          simp only [T.height] at e1 hh
          refine ⟨.node (.node rl rx rrk (if pb = -1 then 0 else if pb = 1 then -1 else 0) pl) px (prk + rrk) 0
            (.node pr f.key (f.rank - (prk + rrk)) (if pb = -1 then 1 else 0) f.other), by simp [insRot, hl, hp], ?_, ?_, ?_⟩
          · simp only [Balanced, T.height, ho, e4, g4, g5, and_true]
            by_cases hx : pb = -1
            · rw [if_pos hx, if_pos hx]; (refine ⟨?_, ?_, ?_, ⟨?_, ?_, ?_⟩, ?_, ?_, ?_⟩ <;> omega)
            · by_cases hy : pb = 1
              · rw [if_neg hx, if_neg hx, if_pos hy]; (refine ⟨?_, ?_, ?_, ⟨?_, ?_, ?_⟩, ?_, ?_, ?_⟩ <;> omega)
              · rw [if_neg hx, if_neg hx, if_neg hy]; (refine ⟨?_, ?_, ?_, ⟨?_, ?_, ?_⟩, ?_, ?_, ?_⟩ <;> omega)
          · simp only [T.height]; omega
          · intro fs; simp [pre, post, hl, T.toList]
    · simp only [hl] at hf hfb
      simp only [Bool.false_eq_true, if_false] at hf hfb
      by_cases hm : rb = 1
      · refine ⟨.node (.node f.other f.key f.rank 0 rl) rx (rrk + f.rank) 0 rr, by simp [insRot, hl, hm], ?_, ?_, ?_⟩
        · simp only [Balanced, T.height, ho, e4, e5, and_true, true_and]; refine ⟨?_, ?_, ?_, ?_, ?_, ?_⟩ <;> omega
        · simp only [T.height]; omega
        · intro fs; simp [pre, post, hl, T.toList]
      · have hp : rb = -1 := by omega
        cases rl with
        | nil => simp only [T.height] at e1 hh; omega
        | node pl px prk pb pr =>
          obtain ⟨g1, g2, g3, g4, g5⟩ := e4
          simp only [T.height] at e1 hh
          refine ⟨.node (.node f.other f.key f.rank (if pb = 1 then -1 else 0) pl) px (prk + f.rank) 0
            (.node pr rx (rrk - prk) (if pb = 1 then 0 else if pb = -1 then 1 else 0) rr), by simp [insRot, hl, hp], ?_, ?_, ?_⟩
          · simp only [Balanced, T.height, ho, e5, g4, g5, and_true]
            by_cases hx : pb = 1
            · rw [if_pos hx, if_pos hx]; (refine ⟨?_, ?_, ?_, ⟨?_, ?_, ?_⟩, ?_, ?_, ?_⟩ <;> omega)
            · by_cases hy : pb = -1
              · rw [if_neg hx, if_neg hx, if_pos hy]; (refine ⟨?_, ?_, ?_, ⟨?_, ?_, ?_⟩, ?_, ?_, ?_⟩ <;> omega)
              · rw [if_neg hx, if_neg hx, if_neg hy]; (refine ⟨?_, ?_, ?_, ⟨?_, ?_, ?_⟩, ?_, ?_, ?_⟩ <;> omega)
          · simp only [T.height]; omega
          · intro fs; simp [pre, post, hl, T.toList]

theorem climb_bal (q : T κ) (fs : List (Frame κ)) (h : Nat) (hb : Balanced q) (hh : q.height = h + 1)
    (hq : q.balance ≠ 0 ∨ h = 0) (hp : PathBal h fs) :
    ∃ t, climb q fs = some t ∧ Balanced t ∧ t.toList = pre fs ++ q.toList ++ post fs := by
  induction fs generalizing q h with
  | nil => exact ⟨q, rfl, hb, by simp [pre, post]⟩
  | cons f fs ih =>
    obtain ⟨p1, p2, p3, p4, p5⟩ := hp
    have hclose : ∀ b, (f.close b q).balance = b := by
      intro b; unfold Frame.close; by_cases hl : f.left = true <;> simp [hl, T.balance]
    have ha : (if f.left then (-1 : Int) else 1) = -1 ∧ f.left = true ∨ (if f.left then (-1 : Int) else 1) = 1 ∧ f.left = false := by
      by_cases hl : f.left = true
      · simp [hl]
      · simp [hl]
    unfold climb
    by_cases h0 : f.bal = 0
    · have hnb : Balanced (f.close (if f.left then -1 else 1) q) := by
        rw [bal_close]
        rcases ha with ⟨ha, hl⟩ | ⟨ha, hl⟩
        · simp only [hl, if_true] at p1 ⊢; rw [hh]; exact ⟨by omega, by omega, by omega, p4, hb⟩
        · simp only [hl, Bool.false_eq_true, if_false] at p1 ⊢; rw [hh]; exact ⟨by omega, by omega, by omega, p4, hb⟩
      have hnh : (f.close (if f.left then -1 else 1) q).height = (h + 1) + 1 := by
        rw [height_close, hh]
        rcases ha with ⟨ha, hl⟩ | ⟨ha, hl⟩
        · simp only [hl, if_true] at p1; omega
        · simp only [hl, Bool.false_eq_true, if_false] at p1; omega
      have hpath : PathBal (h + 1) fs := by
        have : max h f.other.height + 1 = h + 1 := by
          rcases ha with ⟨ha, hl⟩ | ⟨ha, hl⟩
          · simp only [hl, if_true] at p1; omega
          · simp only [hl, Bool.false_eq_true, if_false] at p1; omega
        rw [this] at p5; exact p5
      show ∃ t, (if f.bal = 0 then _ else _) = some t ∧ _
      rw [if_pos h0]
      by_cases hfs : fs = []
      · rw [if_pos hfs]
        refine ⟨_, rfl, hnb, ?_⟩
        have := toList_close f (if f.left then -1 else 1) q fs
        subst hfs
        simpa [pre, post] using this
      · rw [if_neg hfs]
        obtain ⟨t, e1, e2, e3⟩ := ih _ (h + 1) hnb hnh (Or.inl (by rw [hclose]; rcases ha with ⟨ha, _⟩ | ⟨ha, _⟩ <;> rw [ha] <;> decide)) hpath
        exact ⟨t, e1, e2, by rw [e3, toList_close]⟩
    · show ∃ t, (if f.bal = 0 then _ else if f.bal = -(if f.left then (-1 : Int) else 1) then _ else _) = some t ∧ _
      rw [if_neg h0]
      by_cases h1 : f.bal = -(if f.left then (-1 : Int) else 1)
      · rw [if_pos h1]
        refine ⟨_, rfl, ?_, by rw [toList_plug, toList_close]⟩
        rw [bal_plug, height_close, hh, bal_close, hh]
        have : max (h + 1) f.other.height + 1 = max h f.other.height + 1 := by
          rcases ha with ⟨ha, hl⟩ | ⟨ha, hl⟩
          · simp only [hl, if_true] at p1 h1; omega
          · simp only [hl, Bool.false_eq_true, if_false] at p1 h1; omega
        rw [this]
        refine ⟨⟨?_, by omega, by omega, p4, hb⟩, p5⟩
        rcases ha with ⟨ha, hl⟩ | ⟨ha, hl⟩
        · simp only [hl, if_true] at p1 h1 ⊢; omega
        · simp only [hl, Bool.false_eq_true, if_false] at p1 h1 ⊢; omega
      · rw [if_neg h1]
        have h2 : f.bal = (if f.left then (-1 : Int) else 1) := by
          rcases ha with ⟨ha, hl⟩ | ⟨ha, hl⟩ <;> rw [ha] at h1 ⊢ <;> omega
        rw [if_pos h2]
        have hq' : q.balance ≠ 0 := by
          rcases hq with hq | hq
          · exact hq
          · rcases ha with ⟨ha, hl⟩ | ⟨ha, hl⟩
            · simp only [hl, if_true] at p1 h2; omega
            · simp only [hl, Bool.false_eq_true, if_false] at p1 h2; omega
        obtain ⟨c, c1, c2, c3, c4⟩ := insRot_bal f q h hb hh hq' h2 p1 p4
        rw [c1]
        refine ⟨_, rfl, ?_, by rw [toList_plug, c4]⟩
        rw [bal_plug, c3]
        have : h + 1 = max h f.other.height + 1 := by
          rcases ha with ⟨ha, hl⟩ | ⟨ha, hl⟩
          · simp only [hl, if_true] at p1 h2; omega
          · simp only [hl, Bool.false_eq_true, if_false] at p1 h2; omega
        rw [this]
        exact ⟨c2, p5⟩

/-! ### Insertion: ranks -/

theorem ofNat_add30 (a b : Nat) : BitVec.ofNat 30 (a + b) = BitVec.ofNat 30 a + BitVec.ofNat 30 b := by
  exact BitVec.ofNat_add a b

theorem rank_sub (a b c : Nat) (h : a = b + c) : BitVec.ofNat 30 a - BitVec.ofNat 30 b = BitVec.ofNat 30 c := by
  rw [h, ofNat_add30, BitVec.add_comm, BitVec.add_sub_cancel]

theorem rank_add (a b c : Nat) (h : c = a + b) : BitVec.ofNat 30 a + BitVec.ofNat 30 b = BitVec.ofNat 30 c := by
  rw [h, ofNat_add30]

theorem insRot_rank (f : Frame κ) (r c : T κ) (hr : insRot f r = some c) (hk : Ranked r) (hne : r.balance ≠ 0)
    (hb : -1 ≤ r.balance ∧ r.balance ≤ 1)
    (hf : f.rank = BitVec.ofNat 30 ((if f.left then r.toList.length else f.other.toList.length) + 1)) (ho : Ranked f.other) :
    Ranked c ∧ c.toList.length = r.toList.length + f.other.toList.length + 1 := by
  cases r with
  | nil => simp [insRot] at hr
  | node rl rx rrk rb rr =>
    simp only [T.balance] at hne hb
    obtain ⟨k1, k2, k3⟩ := hk
    unfold insRot at hr
    by_cases hl : f.left = true
    · simp only [hl, if_true] at hr hf
      by_cases hm : rb = -1
      · simp only [hm, if_true, Option.some.injEq] at hr
        subst hr
        simp only [Ranked, T.toList, List.length_append, List.length_cons] at hf ⊢
        refine ⟨⟨k1, k2, ?_, k3, ho⟩, by omega⟩
        rw [hf, k1]; exact rank_sub _ _ _ (by omega)
      · have hp : rb = 1 := by omega
        simp only [hm, hp, if_true, if_false] at hr
        cases rr with
        | nil => simp at hr
        | node pl px prk pb pr =>
          obtain ⟨g1, g2, g3⟩ := k3
          simp only [Int.reduceEq, Int.reduceNeg, if_false, if_true, Option.some.injEq] at hr
          subst hr
          simp only [Ranked, T.toList, List.length_append, List.length_cons] at hf ⊢
          have e : prk + rrk = BitVec.ofNat 30 (rl.toList.length + (pl.toList.length + 1) + 1) := by
            rw [g1, k1]; exact rank_add _ _ _ (by omega)
          rw [e]
          refine ⟨⟨rfl, ⟨k1, k2, g2⟩, ?_, g3, ho⟩, by omega⟩
          rw [hf]; exact rank_sub _ _ _ (by omega)
    · simp only [hl, Bool.false_eq_true, if_false] at hr hf
      by_cases hm : rb = 1
      · simp only [hm, if_true, Option.some.injEq] at hr
        subst hr
        simp only [Ranked, T.toList, List.length_append, List.length_cons] at hf ⊢
        refine ⟨⟨?_, ⟨hf, ho, k2⟩, k3⟩, by omega⟩
        rw [hf, k1]; exact rank_add _ _ _ (by omega)
      · have hp : rb = -1 := by omega
        simp only [hm, hp, if_true, if_false] at hr
        cases rl with
        | nil => simp at hr
        | node pl px prk pb pr =>
          obtain ⟨g1, g2, g3⟩ := k2
          simp only [Int.reduceEq, Int.reduceNeg, if_false, if_true, Option.some.injEq] at hr
          subst hr
          simp only [Ranked, T.toList, List.length_append, List.length_cons] at hf k1 ⊢
          refine ⟨⟨?_, ⟨hf, ho, g2⟩, ?_, g3, k3⟩, by omega⟩
          · rw [hf, g1]; exact rank_add _ _ _ (by omega)
          · rw [k1, g1]; exact rank_sub _ _ _ (by omega)

theorem climb_rank (q t : T κ) (fs : List (Frame κ)) (h : Nat) (hb : Balanced q) (hh : q.height = h + 1)
    (hq : q.balance ≠ 0 ∨ h = 0) (hp : PathBal h fs) (hc : climb q fs = some t) (hr : Ranked q)
    (hpr : PathRank q.toList.length fs) : Ranked t := by
  induction fs generalizing q h with
  | nil => simp [climb] at hc; exact hc ▸ hr
  | cons f fs ih =>
    obtain ⟨p1, p2, p3, p4, p5⟩ := hp
    obtain ⟨r1, r2, r3⟩ := hpr
    have hrc : ∀ b, Ranked (f.close b q) := fun b => (rank_close f b q).2 ⟨r1, r2, hr⟩
    have hplug : ∀ b, Ranked (plug (f.close b q) fs) := fun b => (rank_plug _ _).2 ⟨hrc b, by rw [size_close]; exact r3⟩
    have hclose : ∀ b, (f.close b q).balance = b := by
      intro b; unfold Frame.close; by_cases hl : f.left = true <;> simp [hl, T.balance]
    have ha : (if f.left then (-1 : Int) else 1) = -1 ∧ f.left = true ∨ (if f.left then (-1 : Int) else 1) = 1 ∧ f.left = false := by
      by_cases hl : f.left = true
      · simp [hl]
      · simp [hl]
    unfold climb at hc
    replace hc : (if f.bal = 0 then _ else if f.bal = -(if f.left then (-1 : Int) else 1) then _ else _) = some t := hc
    by_cases h0 : f.bal = 0
    · have hnb : Balanced (f.close (if f.left then -1 else 1) q) := by
        rw [bal_close]
        rcases ha with ⟨ha, hl⟩ | ⟨ha, hl⟩
        · simp only [hl, if_true] at p1 ⊢; rw [hh]; exact ⟨by omega, by omega, by omega, p4, hb⟩
        · simp only [hl, Bool.false_eq_true, if_false] at p1 ⊢; rw [hh]; exact ⟨by omega, by omega, by omega, p4, hb⟩
      have hnh : (f.close (if f.left then -1 else 1) q).height = (h + 1) + 1 := by
        rw [height_close, hh]
        rcases ha with ⟨ha, hl⟩ | ⟨ha, hl⟩
        · simp only [hl, if_true] at p1; omega
        · simp only [hl, Bool.false_eq_true, if_false] at p1; omega
      have hpath : PathBal (h + 1) fs := by
        have : max h f.other.height + 1 = h + 1 := by
          rcases ha with ⟨ha, hl⟩ | ⟨ha, hl⟩
          · simp only [hl, if_true] at p1; omega
          · simp only [hl, Bool.false_eq_true, if_false] at p1; omega
        rw [this] at p5; exact p5
      rw [if_pos h0] at hc
      by_cases hfs : fs = []
      · rw [if_pos hfs] at hc
        simp only [Option.some.injEq] at hc
        rw [← hc]; exact hrc _
      · rw [if_neg hfs] at hc
        exact ih _ (h + 1) hnb hnh (Or.inl (by rw [hclose]; rcases ha with ⟨ha, _⟩ | ⟨ha, _⟩ <;> rw [ha] <;> decide)) hpath hc
          (hrc _) (by rw [size_close]; exact r3)
    · rw [if_neg h0] at hc
      by_cases h1 : f.bal = -(if f.left then (-1 : Int) else 1)
      · rw [if_pos h1] at hc
        simp only [Option.some.injEq] at hc
        rw [← hc]; exact hplug _
      · rw [if_neg h1] at hc
        have h2 : f.bal = (if f.left then (-1 : Int) else 1) := by
          rcases ha with ⟨ha, hl⟩ | ⟨ha, hl⟩ <;> rw [ha] at h1 ⊢ <;> omega
        rw [if_pos h2] at hc
        have hq' : q.balance ≠ 0 := by
          rcases hq with hq | hq
          · exact hq
          · rcases ha with ⟨ha, hl⟩ | ⟨ha, hl⟩
            · simp only [hl, if_true] at p1 h2; omega
            · simp only [hl, Bool.false_eq_true, if_false] at p1 h2; omega
        cases hi : insRot f q with
        | none => rw [hi] at hc; simp at hc
        | some c =>
          rw [hi] at hc
          simp only [Option.map_some, Option.some.injEq] at hc
          have hbb : -1 ≤ q.balance ∧ q.balance ≤ 1 := by
            cases q with
            | nil => simp [T.balance]
            | node => exact ⟨hb.2.1, hb.2.2.1⟩
          obtain ⟨c1, c2⟩ := insRot_rank f q c hi hr hq' hbb r1 r2
          rw [← hc, rank_plug, c2]
          exact ⟨c1, r3⟩

end Verif.Avl

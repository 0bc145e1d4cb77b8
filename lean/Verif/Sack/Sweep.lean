import Verif.Sack.Lemmas
/-! # The sweep over the scoreboard -/
namespace Verif.Sack
open Verif.Tcp

variable {u : BitVec 32} {F M : Nat}

theorem pw_mid {R : Hole → Hole → Prop} {A B : List Hole} {x : Hole} :
    (A ++ x :: B).Pairwise R ↔ (A ++ B).Pairwise R ∧ (∀ a ∈ A, R a x) ∧ ∀ b ∈ B, R x b := by
  simp only [List.pairwise_append, List.pairwise_cons, List.mem_cons]
  constructor
  · rintro ⟨h1, ⟨h2, h3⟩, h4⟩
    exact ⟨⟨h1, h3, fun a ha b hb => h4 a ha b (Or.inr hb)⟩, fun a ha => h4 a ha x (Or.inl rfl), h2⟩
  · rintro ⟨⟨h1, h3, h4⟩, h5, h6⟩
    refine ⟨h1, ⟨h6, h3⟩, ?_⟩
    rintro a ha b (rfl | hb)
    · exact h5 a ha
    · exact h4 a ha b hb

theorem mem_mid {A B : List Hole} {x y : Hole} : y ∈ A ++ x :: B ↔ y = x ∨ y ∈ A ++ B := by
  simp only [List.mem_append, List.mem_cons]
  constructor
  · rintro (h | h | h) <;> simp [h]
  · rintro (h | h | h) <;> simp [h]

theorem nodup_mid {A B : List Hole} {x : Hole} : ((A ++ x :: B).map Hole.id).Nodup ↔
    ((A ++ B).map Hole.id).Nodup ∧ ∀ y ∈ A ++ B, y.id ≠ x.id := by
  have hp : ((A ++ x :: B).map Hole.id).Perm (x.id :: (A ++ B).map Hole.id) := by
    have := List.perm_middle (a := x) (l₁ := A) (l₂ := B)
    exact this.map Hole.id
  rw [hp.nodup_iff, List.nodup_cons]
  constructor
  · rintro ⟨h1, h2⟩
    exact ⟨h2, fun y hy e => h1 (e ▸ List.mem_map_of_mem hy)⟩
  · rintro ⟨h1, h2⟩
    refine ⟨fun h => ?_, h1⟩
    obtain ⟨y, hy, e⟩ := List.mem_map.mp h
    exact h2 y hy e

/-- A hole shrinks. -/
theorem ok_repl (hM : M < 2 ^ 31) (hF : F ≤ M) {A B : List Hole} {x x' : Hole} {c : Ctl}
    (ok : Ok u F (A ++ x :: B) c) (hid : x'.id = x.id) (hx' : HoleOk u F x')
    (h1 : off u x.start ≤ off u x'.start) (h2 : off u x'.stop ≤ off u x.stop)
    (hf : full x → full x') :
    Ok u F (A ++ x' :: B) { c with
      bytes := c.bytes - rex x + rex x' } where
  hole := by
    intro y hy
    rcases mem_mid.mp hy with rfl | hy
    · exact hx'
    · exact ok.hole y (mem_mid.mpr (Or.inr hy))
  ord := by
    obtain ⟨p1, p2, p3⟩ := pw_mid.mp ok.ord
    refine pw_mid.mpr ⟨p1, fun a ha => ?_, fun b hb => ?_⟩
    · have := p2 a ha; omega
    · have := p3 b hb; omega
  num := by have := ok.num; simpa using this
  bytes := by
    show c.bytes - rex x + rex x' = _
    rw [ok.bytes, rex_eq hM hF hx', rex_eq hM hF (ok.hole x (mem_mid.mpr (Or.inl rfl))),
      rx_sum, rx_sum]
    omega
  ids := by
    obtain ⟨n1, n2⟩ := nodup_mid.mp ok.ids
    exact nodup_mid.mpr ⟨n1, fun y hy => by rw [hid]; exact n2 y hy⟩
  fresh := by
    intro y hy
    rcases mem_mid.mp hy with rfl | hy
    · rw [hid]; exact ok.fresh x (mem_mid.mpr (Or.inl rfl))
    · exact ok.fresh y (mem_mid.mpr (Or.inr hy))
  hint := hint_repl hid hf ok.hint

/-- A hole goes. -/
theorem ok_rem (hM : M < 2 ^ 31) (hF : F ≤ M) {A B : List Hole} {x : Hole} {c : Ctl}
    (ok : Ok u F (A ++ x :: B) c) :
    Ok u F (A ++ B) (hintRem { c with
      bytes := c.bytes - rex x } x.id B) where
  hole := fun y hy => ok.hole y (mem_mid.mpr (Or.inr hy))
  ord := (pw_mid.mp ok.ord).1
  num := by
    have := ok.num
    simp only [hintRem]
    simp only [List.length_append, List.length_cons] at *
    omega
  bytes := by
    show c.bytes - rex x = _
    rw [ok.bytes, rex_eq hM hF (ok.hole x (mem_mid.mpr (Or.inl rfl))), rx_sum]
    omega
  ids := (nodup_mid.mp ok.ids).1
  fresh := fun y hy => ok.fresh y (mem_mid.mpr (Or.inr hy))
  hint := hint_rem ok.ids ok.hint

/-- Only the bookkeeping of attempts changes. -/
theorem ok_ctl {l : List Hole} {c c' : Ctl} (ok : Ok u F l c) (h1 : c'.num = c.num)
    (h2 : c'.hint = c.hint) (h3 : c'.bytes = c.bytes) (h4 : c.fresh ≤ c'.fresh) : Ok u F l c' where
  hole := ok.hole
  ord := ok.ord
  num := h1.trans ok.num
  bytes := h3.trans ok.bytes
  ids := ok.ids
  fresh := fun y hy => Nat.lt_of_lt_of_le (ok.fresh y hy) h4
  hint := by rw [h2]; exact ok.hint

/-- A hole is split in two. -/
theorem ok_split (hM : M < 2 ^ 31) (hF : F ≤ M) {A B : List Hole} {x x' t : Hole} {c : Ctl}
    (ok : Ok u F (A ++ x :: B) c) (hid : x'.id = x.id) (hx' : HoleOk u F x') (ht : HoleOk u F t)
    (htid : t.id = c.fresh)
    (h1 : off u x.start ≤ off u x'.start) (h2 : off u x'.stop < off u t.start)
    (h3 : off u t.stop ≤ off u x.stop) (hf : full x → full x' ∧ full t) {k : Nat} :
    Ok u F (A ++ x' :: t :: B) ⟨c.num + 1, if c.hint.isNone then some t.id else c.hint,
      c.bytes - rex x + rex t + rex x', c.fresh + 1, k⟩ where
  hole := by
    intro y hy
    rcases mem_mid.mp hy with rfl | hy
    · exact hx'
    · rcases mem_mid.mp hy with rfl | hy
      · exact ht
      · exact ok.hole y (mem_mid.mpr (Or.inr hy))
  ord := by
    obtain ⟨p1, p2, p3⟩ := pw_mid.mp ok.ord
    have n1 := hx'.ne
    have n2 := ht.ne
    refine pw_mid.mpr ⟨pw_mid.mpr ⟨p1, fun a ha => ?_, fun b hb => ?_⟩, fun a ha => ?_, fun b hb => ?_⟩
    · have := p2 a ha; omega
    · have := p3 b hb; omega
    · have := p2 a ha; omega
    · rcases List.mem_cons.mp hb with rfl | hb
      · exact h2
      · have := p3 b hb; omega
  num := by
    have := ok.num
    simp only [List.length_append, List.length_cons] at *
    omega
  bytes := by
    show c.bytes - rex x + rex t + rex x' = _
    rw [ok.bytes, rex_eq hM hF hx', rex_eq hM hF ht,
      rex_eq hM hF (ok.hole x (mem_mid.mpr (Or.inl rfl))), rx_sum, rx_sum, rx_sum]
    omega
  ids := by
    obtain ⟨n1, n2⟩ := nodup_mid.mp ok.ids
    have fr : ∀ y ∈ A ++ B, y.id ≠ t.id := fun y hy => by
      have := ok.fresh y (mem_mid.mpr (Or.inr hy)); omega
    have fx := ok.fresh x (mem_mid.mpr (Or.inl rfl))
    refine nodup_mid.mpr ⟨nodup_mid.mpr ⟨n1, fr⟩, fun y hy => ?_⟩
    rcases mem_mid.mp hy with rfl | hy
    · rw [hid]; omega
    · rw [hid]; exact n2 y hy
  fresh := by
    intro y hy
    show y.id < c.fresh + 1
    rcases mem_mid.mp hy with rfl | hy
    · have := ok.fresh x (mem_mid.mpr (Or.inl rfl)); omega
    · rcases mem_mid.mp hy with rfl | hy
      · omega
      · have := ok.fresh y (mem_mid.mpr (Or.inr hy)); omega
  hint := hint_ins hid hf ok.hint

/-- A block is well formed. -/
def BlkOk (u : BitVec 32) (M : Nat) (b : Blk) : Prop :=
  off u b.start < off u b.stop ∧ off u b.stop ≤ M

/-- Postcondition of applying a block to the holes `l0` (counters `c0`). -/
structure Post (u : BitVec 32) (F : Nat) (E : Env) (b : Blk) (l0 left0 : List Hole) (c0 : Ctl)
    (p : List Hole × List Hole × Ctl) : Prop where
  ok : Ok u F (p.1.reverse ++ p.2.1) p.2.2
  right : ∀ h ∈ p.2.1, off u b.stop ≤ off u h.start
  fails : c0.fails ≤ p.2.2.fails
  limit : c0.num ≤ E.limit → p.2.2.num ≤ E.limit
  old : ∀ x, InHoles (p.1.reverse ++ p.2.1) x → InHoles l0 x
  keep : ∀ x, InHoles l0 x → ¬ InR b.start b.stop x → InHoles (p.1.reverse ++ p.2.1) x
  done : (p.2.2.fails = c0.fails ∨ ∀ h ∈ left0, off u b.start ≤ off u h.start) →
    ∀ h ∈ p.1, off u h.stop ≤ off u b.start

theorem alloc_cases (E : Env) (c : Ctl) (a z : BitVec 32) :
    ((alloc E c a z).2 = none ∧ (alloc E c a z).1 = { c with
        fresh := c.fresh + 1
        fails := c.fails + 1 }) ∨
    ((alloc E c a z).2 = some ⟨c.fresh, a, z, a⟩ ∧ (alloc E c a z).1 = { c with
        num := c.num + 1
        fresh := c.fresh + 1 } ∧ c.num < E.limit) := by
  unfold alloc
  by_cases h : (c.num ≥ E.limit || !E.room c.fresh) = true
  · rw [if_pos h]; exact Or.inl ⟨rfl, rfl⟩
  · rw [if_neg h]
    refine Or.inr ⟨rfl, rfl, ?_⟩
    simp only [Bool.or_eq_true, decide_eq_true_eq, not_or] at h
    omega

theorem inHoles_mid {A B : List Hole} {h : Hole} {x : BitVec 32} :
    InHoles (A ++ h :: B) x ↔ InR h.start h.stop x ∨ InHoles (A ++ B) x := by
  rw [inHoles_append, inHoles_cons, inHoles_append]
  constructor
  · rintro (h | h | h) <;> simp [h]
  · rintro (h | h | h) <;> simp [h]

theorem sweepBlk_ok (hM : M < 2 ^ 31) (hF : F ≤ M) (E : Env) {b : Blk} (hb : BlkOk u M b)
    (left : List Hole) : ∀ (right : List Hole) (c : Ctl),
    Ok u F (left.reverse ++ right) c → (∀ h ∈ right, off u b.stop ≤ off u h.start) →
    Post u F E b (left.reverse ++ right) left c (sweepBlk E b left right c) := by
  induction left with
  | nil =>
    intro right c ok hr
    exact ⟨ok, hr, Nat.le_refl _, fun h => h, fun x h => h, fun x h _ => h, fun _ h hh => absurd hh (by simp [sweepBlk])⟩
  | cons cur left ih =>
    intro right c ok hr
    have hl : (cur :: left).reverse ++ right = left.reverse ++ cur :: right := by simp
    rw [hl] at ok ⊢
    have hc := ok.hole cur (mem_mid.mpr (Or.inl rfl))
    obtain ⟨n1, n2, n3, n4⟩ := hc
    obtain ⟨b1, b2⟩ := hb
    obtain ⟨p1, p2, p3⟩ := pw_mid.mp ok.ord
    have g1 := geq_iff (x := b.start) (y := cur.stop) hM (by omega) (by omega : off u cur.stop ≤ M)
    have g2 := leq_iff (x := b.stop) (y := cur.start) hM (by omega) (by omega : off u cur.start ≤ M)
    have g3 := leq_iff (x := b.start) (y := cur.start) hM (by omega) (by omega : off u cur.start ≤ M)
    have g4 := geq_iff (x := b.stop) (y := cur.stop) hM (by omega) (by omega : off u cur.stop ≤ M)
    have inB : ∀ x, InR b.start b.stop x ↔ off u b.start ≤ off u x ∧ off u x < off u b.stop :=
      fun x => inR_iff (by omega)
    have inC : ∀ x, InR cur.start cur.stop x ↔ off u cur.start ≤ off u x ∧ off u x < off u cur.stop :=
      fun x => inR_iff (by omega)
    -- continuing with the rest of the holes after the current one became `cur1`
    have cont : ∀ (cur1 : Hole) (right1 : List Hole) (c1 : Ctl),
        Ok u F (left.reverse ++ cur1 :: right1) c1 →
        (∀ h ∈ cur1 :: right1, off u b.stop ≤ off u h.start) → c.fails ≤ c1.fails →
        (c.num ≤ E.limit → c1.num ≤ E.limit) →
        (∀ x, InHoles (cur1 :: right1) x → InHoles (cur :: right) x) →
        (∀ x, InHoles (cur :: right) x → ¬ InR b.start b.stop x → InHoles (cur1 :: right1) x) →
        Post u F E b (left.reverse ++ cur :: right) (cur :: left) c
          (sweepBlk E b left (cur1 :: right1) c1) := by
      intro cur1 right1 c1 k1 k2 k3 k4 k5 k6
      have P := ih (cur1 :: right1) c1 k1 k2
      refine ⟨P.ok, P.right, Nat.le_trans k3 P.fails, fun h => P.limit (k4 h), ?_, ?_, ?_⟩
      · intro x hx
        have := P.old x hx
        rw [inHoles_append] at this ⊢
        rcases this with h | h
        · exact Or.inl h
        · exact Or.inr (k5 x h)
      · intro x hx hnb
        refine P.keep x ?_ hnb
        rw [inHoles_append] at hx ⊢
        rcases hx with h | h
        · exact Or.inl h
        · exact Or.inr (k6 x h hnb)
      · intro hd
        refine P.done ?_
        rcases hd with hd | hd
        · have := P.fails; exact Or.inl (by omega)
        · exact Or.inr fun h hh => hd h (by simp [hh])
    -- stopping with this block
    have stop : ∀ (cur1 : Hole) (right1 : List Hole) (c1 : Ctl),
        Ok u F (left.reverse ++ cur1 :: right1) c1 →
        (∀ h ∈ right1, off u b.stop ≤ off u h.start) → c.fails ≤ c1.fails →
        (c.num ≤ E.limit → c1.num ≤ E.limit) →
        (∀ x, InHoles (cur1 :: right1) x → InHoles (cur :: right) x) →
        (∀ x, InHoles (cur :: right) x → ¬ InR b.start b.stop x → InHoles (cur1 :: right1) x) →
        ((c1.fails = c.fails ∨ ∀ h ∈ cur :: left, off u b.start ≤ off u h.start) →
          off u cur1.stop ≤ off u b.start) →
        Post u F E b (left.reverse ++ cur :: right) (cur :: left) c (cur1 :: left, right1, c1) := by
      intro cur1 right1 c1 k1 k2 k3 k4 k5 k6 k7
      have hl1 : (cur1 :: left).reverse ++ right1 = left.reverse ++ cur1 :: right1 := by simp
      refine ⟨by rw [hl1]; exact k1, k2, k3, k4, ?_, ?_, ?_⟩
      · intro x hx
        rw [hl1] at hx
        rw [inHoles_append] at hx ⊢
        rcases hx with h | h
        · exact Or.inl h
        · exact Or.inr (k5 x h)
      · intro x hx hnb
        rw [hl1]
        rw [inHoles_append] at hx ⊢
        rcases hx with h | h
        · exact Or.inl h
        · exact Or.inr (k6 x h hnb)
      · intro hd h hh
        have hcs := k7 hd
        rcases List.mem_cons.mp hh with rfl | hh
        · exact hcs
        · have q := pw_mid.mp k1.ord
          have := q.2.1 h (by simp [hh])
          have := (k1.hole cur1 (mem_mid.mpr (Or.inl rfl))).ne
          omega
    unfold sweepBlk cut
    by_cases c1 : seqGEQ b.start cur.stop = true
    · simp only [c1, if_true]
      exact stop cur right c ok hr (Nat.le_refl _) (fun h => h) (fun x h => h) (fun x h _ => h)
        (fun _ => by rw [g1] at c1; exact c1)
    · rw [if_neg c1]
      rw [g1] at c1
      by_cases c2 : seqLEQ b.stop cur.start = true
      · simp only [c2, if_true]
        rw [g2] at c2
        refine cont cur right c ok ?_ (Nat.le_refl _) (fun h => h) (fun x h => h) (fun x h _ => h)
        intro h hh
        rcases List.mem_cons.mp hh with rfl | hh
        · exact c2
        · exact hr h hh
      · rw [if_neg c2]
        rw [g2] at c2
        by_cases c3 : seqLEQ b.start cur.start = true
        · simp only [c3, if_true]
          rw [g3] at c3
          by_cases c4 : seqGEQ b.stop cur.stop = true
          · simp only [c4, if_true]
            rw [g4] at c4
            have P := ih right _ (ok_rem hM hF ok) hr
            refine ⟨P.ok, P.right, P.fails, fun h => P.limit ?_, ?_, ?_, ?_⟩
            · show c.num - 1 ≤ _; omega
            · intro x hx
              exact inHoles_mid.mpr (Or.inr (P.old x hx))
            · intro x hx hnb
              refine P.keep x ?_ hnb
              rcases inHoles_mid.mp hx with h | h
              · exact absurd ((inB x).mpr (by have := (inC x).mp h; omega)) hnb
              · exact h
            · intro hd
              refine P.done ?_
              rcases hd with hd | hd
              · exact Or.inl hd
              · exact Or.inr fun h hh => hd h (by simp [hh])
          · simp only [c4, Bool.false_eq_true, if_false]
            rw [g4] at c4
            have hrm := off_max (u := u) (x := cur.rxmit) (y := b.stop) hM (by omega) (by omega)
            have q1 : HoleOk u F { cur with
                start := b.stop
                rxmit := seqMax cur.rxmit b.stop } := by
              refine ⟨by show off u b.stop < off u cur.stop; omega, ?_, ?_, n4⟩
              · show off u b.stop ≤ off u (seqMax _ _); omega
              · show off u (seqMax _ _) ≤ off u cur.stop; omega
            have q2 := ok_repl (x' := { cur with
                start := b.stop
                rxmit := seqMax cur.rxmit b.stop }) hM hF ok rfl q1
                (by show off u cur.start ≤ off u b.stop; omega)
                (Nat.le_refl _) (fun hf => by
                  show seqMax cur.rxmit b.stop = cur.stop
                  apply off_inj (u := u)
                  have : cur.rxmit = cur.stop := hf
                  rw [hrm, this]; omega)
            have g5 : seqLEQ b.start b.stop = true :=
              (leq_iff hM (by omega) b2).mpr (by omega)
            simp only [g5, if_true]
            refine cont _ right _ q2 ?_ (Nat.le_refl _) (fun h => h) ?_ ?_
            · intro h hh
              rcases List.mem_cons.mp hh with rfl | hh
              · exact Nat.le_refl _
              · exact hr h hh
            · intro x hx
              rcases inHoles_cons.mp hx with h | h
              · refine inHoles_cons.mpr (Or.inl ((inC x).mpr ?_))
                have := (inR_iff (u := u) (a := b.stop) (b := cur.stop) (by omega)).mp h
                omega
              · exact inHoles_cons.mpr (Or.inr h)
            · intro x hx hnb
              rcases inHoles_cons.mp hx with h | h
              · refine inHoles_cons.mpr (Or.inl ?_)
                refine (inR_iff (u := u) (a := b.stop) (b := cur.stop) (by omega)).mpr ?_
                rw [inB] at hnb
                have := (inC x).mp h
                omega
              · exact inHoles_cons.mpr (Or.inr h)
        · simp only [c3, Bool.false_eq_true, if_false]
          have g3' := c3
          rw [g3] at c3
          have hrm := off_min (u := u) (x := cur.rxmit) (y := b.start) hM (by omega) (by omega)
          have q1 : HoleOk u F { cur with
              stop := b.start
              rxmit := seqMin cur.rxmit b.start } := by
            refine ⟨by show off u cur.start < off u b.start; omega, ?_, ?_, ?_⟩
            · show off u cur.start ≤ off u (seqMin _ _); omega
            · show off u (seqMin _ _) ≤ off u b.start; omega
            · show off u b.start < F; omega
          have f1 : full cur → full { cur with
              stop := b.start
              rxmit := seqMin cur.rxmit b.start } := fun hf => by
            show seqMin cur.rxmit b.start = b.start
            apply off_inj (u := u)
            have : cur.rxmit = cur.stop := hf
            rw [hrm, this]; omega
          by_cases c4 : seqGEQ b.stop cur.stop = true
          · simp only [c4, if_true]
            rw [g4] at c4
            have q2 := ok_repl (x' := { cur with
                stop := b.start
                rxmit := seqMin cur.rxmit b.start }) hM hF ok rfl q1
                (Nat.le_refl _)
                (by show off u b.start ≤ off u cur.stop; omega) f1
            rw [if_neg g3']
            refine stop _ right _ q2 hr (Nat.le_refl _) (fun h => h) ?_ ?_ (fun _ => Nat.le_refl _)
            · intro x hx
              rcases inHoles_cons.mp hx with h | h
              · refine inHoles_cons.mpr (Or.inl ((inC x).mpr ?_))
                have := (inR_iff (u := u) (a := cur.start) (b := b.start) (by omega)).mp h
                omega
              · exact inHoles_cons.mpr (Or.inr h)
            · intro x hx hnb
              rcases inHoles_cons.mp hx with h | h
              · refine inHoles_cons.mpr (Or.inl ?_)
                refine (inR_iff (u := u) (a := cur.start) (b := b.start) (by omega)).mpr ?_
                rw [inB] at hnb
                have := (inC x).mp h
                omega
              · exact inHoles_cons.mpr (Or.inr h)
          · simp only [c4, Bool.false_eq_true, if_false]
            rw [g4] at c4
            unfold split
            rcases alloc_cases E { c with
              bytes := c.bytes - rex cur } b.stop cur.stop with ⟨e1, e2⟩ | ⟨e1, e2, e3⟩
            · simp only [e1, e2]
              rw [if_neg g3']
              refine stop cur right _ (ok_ctl ok rfl rfl ?_ (Nat.le_succ _)) hr (Nat.le_succ _)
                (fun h => h) (fun x h => h) (fun x h _ => h) ?_
              · show c.bytes - rex cur + rex cur = c.bytes; omega
              · rintro (h | h)
                · exact absurd h (by show ¬ (c.fails + 1 = c.fails); omega)
                · have := h cur (by simp); omega
            · simp only [e1, e2]
              have g6 := gt_iff (u := u) (x := cur.rxmit) (y := b.stop) hM (by omega) b2
              rw [if_neg g3']
              have key : ∀ (t : Hole), t.id = c.fresh → t.start = b.stop → t.stop = cur.stop →
                  HoleOk u F t → (full cur → full t) → ∀ c', c' = (⟨c.num + 1,
                    if c.hint.isNone then some t.id else c.hint,
                    c.bytes - rex cur + rex t + rex { cur with
                      stop := b.start
                      rxmit := seqMin cur.rxmit b.start }, c.fresh + 1, c.fails⟩ : Ctl) →
                  Post u F E b (left.reverse ++ cur :: right) (cur :: left) c
                    ({ cur with
                      stop := b.start
                      rxmit := seqMin cur.rxmit b.start } :: left, t :: right, c') := by
                intro t t1 t2 t3 t4 t5 c' hc'
                subst hc'
                refine stop _ (t :: right) _ (ok_split (x' := { cur with
                  stop := b.start
                  rxmit := seqMin cur.rxmit b.start }) hM hF ok rfl q1 t4 t1 (Nat.le_refl _) ?_ ?_
                  (fun hf => ⟨f1 hf, t5 hf⟩)) ?_ (Nat.le_refl _) ?_ ?_ ?_ (fun _ => Nat.le_refl _)
                · show off u b.start < off u t.start; rw [t2]; omega
                · rw [t3]; omega
                · intro h hh
                  rcases List.mem_cons.mp hh with rfl | hh
                  · rw [t2]; omega
                  · exact hr h hh
                · intro _; show c.num + 1 ≤ _; have : c.num < E.limit := e3; omega
                · intro x hx
                  rcases inHoles_cons.mp hx with h | h
                  · refine inHoles_cons.mpr (Or.inl ((inC x).mpr ?_))
                    have := (inR_iff (u := u) (a := cur.start) (b := b.start) (by omega)).mp h
                    omega
                  · rcases inHoles_cons.mp h with h | h
                    · refine inHoles_cons.mpr (Or.inl ((inC x).mpr ?_))
                      rw [t2, t3] at h
                      have := (inR_iff (u := u) (a := b.stop) (b := cur.stop) (by omega)).mp h
                      omega
                    · exact inHoles_cons.mpr (Or.inr h)
                · intro x hx hnb
                  rw [inB] at hnb
                  rcases inHoles_cons.mp hx with h | h
                  · have := (inC x).mp h
                    by_cases hlt : off u x < off u b.start
                    · refine inHoles_cons.mpr (Or.inl ?_)
                      exact (inR_iff (u := u) (a := cur.start) (b := b.start) (by omega)).mpr
                        (by omega)
                    · refine inHoles_cons.mpr (Or.inr (inHoles_cons.mpr (Or.inl ?_)))
                      rw [t2, t3]
                      exact (inR_iff (u := u) (a := b.stop) (b := cur.stop) (by omega)).mpr
                        (by omega)
                  · exact inHoles_cons.mpr (Or.inr (inHoles_cons.mpr (Or.inr h)))
              by_cases c6 : seqGT cur.rxmit b.stop = true
              · simp only [c6, if_true]
                rw [g6] at c6
                exact key ⟨c.fresh, b.stop, cur.stop, cur.rxmit⟩ rfl rfl rfl
                  ⟨by show off u b.stop < off u cur.stop; omega,
                   by show off u b.stop ≤ off u cur.rxmit; omega, n3, n4⟩ (fun hf => hf) _ rfl
              · simp only [c6, Bool.false_eq_true, if_false]
                rw [g6] at c6
                have hrx : rex (⟨c.fresh, b.stop, cur.stop, b.stop⟩ : Hole) = 0 := by
                  simp [rex, diff]
                refine key ⟨c.fresh, b.stop, cur.stop, b.stop⟩ rfl rfl rfl
                  ⟨by show off u b.stop < off u cur.stop; omega,
                   Nat.le_refl _, by show off u b.stop ≤ off u cur.stop; omega, n4⟩ ?_ _ ?_
                · intro hf
                  have : cur.rxmit = cur.stop := hf
                  rw [this] at c6; omega
                · rw [hrx]; simp only [hintIns, Ctl.mk.injEq, true_and, and_true]; omega

/-- The whole sweep, over blocks sorted by their end, highest first. -/
theorem sweep_ok (hM : M < 2 ^ 31) (hF : F ≤ M) (E : Env) (bs : List Blk) :
    ∀ (left right : List Hole) (c : Ctl), (∀ b ∈ bs, BlkOk u M b) →
    bs.Pairwise (fun a b => off u b.stop ≤ off u a.stop) →
    Ok u F (left.reverse ++ right) c → (∀ b ∈ bs, ∀ h ∈ right, off u b.stop ≤ off u h.start) →
    Ok u F (sweep E bs left right c).1 (sweep E bs left right c).2 ∧
    c.fails ≤ (sweep E bs left right c).2.fails ∧
    (c.num ≤ E.limit → (sweep E bs left right c).2.num ≤ E.limit) ∧
    (∀ x, InHoles (sweep E bs left right c).1 x → InHoles (left.reverse ++ right) x) ∧
    (∀ x, InHoles (left.reverse ++ right) x → ¬ InBlks bs x → InHoles (sweep E bs left right c).1 x) ∧
    ∀ b ∈ bs, ((sweep E bs left right c).2.fails = c.fails ∨ off u b.start = 0) →
      ∀ x, InR b.start b.stop x → ¬ InHoles (sweep E bs left right c).1 x := by
  induction bs with
  | nil =>
    intro left right c _ _ ok _
    exact ⟨ok, Nat.le_refl _, fun h => h, fun x h => h, fun x h _ => h, by simp⟩
  | cons b bs ih =>
    intro left right c hb hs ok hr
    obtain ⟨hs1, hs2⟩ := List.pairwise_cons.mp hs
    have hb0 := hb b (by simp)
    have P := sweepBlk_ok hM hF E hb0 left right c ok (hr b (by simp))
    have Q := ih (sweepBlk E b left right c).1 (sweepBlk E b left right c).2.1
      (sweepBlk E b left right c).2.2 (fun b' h => hb b' (by simp [h])) hs2 P.ok
      (fun b' h' h hh => Nat.le_trans (hs1 b' h') (P.right h hh))
    obtain ⟨Q1, Q2, Q3, Q4, Q5, Q6⟩ := Q
    refine ⟨Q1, Nat.le_trans P.fails Q2, fun h => Q3 (P.limit h), fun x h => P.old x (Q4 x h), ?_, ?_⟩
    · intro x hx hn
      refine Q5 x (P.keep x hx fun h => hn ⟨b, by simp, h⟩) ?_
      rintro ⟨b', h', hx'⟩
      exact hn ⟨b', by simp [h'], hx'⟩
    · intro b' hb' hcond x hx hin
      rcases List.mem_cons.mp hb' with rfl | hb'
      · have hd := P.done (by
          rcases hcond with h | h
          · have := P.fails
            have h' : (sweep E bs (sweepBlk E b' left right c).1 (sweepBlk E b' left right c).2.1
              (sweepBlk E b' left right c).2.2).2.fails = c.fails := h
            exact Or.inl (by omega)
          · exact Or.inr fun h' _ => by omega)
        have hin' := Q4 x hin
        obtain ⟨h, hm, hx2⟩ := hin'
        have hok := P.ok.hole h hm
        have n1 := hok.ne
        have := (inR_iff (u := u) (by omega)).mp hx2
        have hxb := (inR_iff (u := u) (Nat.le_of_lt hb0.1)).mp hx
        rcases List.mem_append.mp hm with hm | hm
        · have := hd h (List.mem_reverse.mp hm); omega
        · have := P.right h hm; omega
      · refine Q6 b' hb' ?_ x hx hin
        rcases hcond with h | h
        · have := P.fails
          have h' : (sweep E bs (sweepBlk E b left right c).1 (sweepBlk E b left right c).2.1
            (sweepBlk E b left right c).2.2).2.fails = c.fails := h
          exact Or.inl (by omega)
        · exact Or.inr h

end Verif.Sack

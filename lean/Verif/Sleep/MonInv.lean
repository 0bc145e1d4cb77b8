import Verif.Sleep.Monitor
/-! # The invariant of the waiting loops is preserved -/
namespace Verif.Sleep

variable {n : Nat} {cfg : Cfg} {m : M}

theorem recOf_none (s : S) (t : Nat) : (recOf s t).isNone = true ↔ ∀ d, (t, d) ∉ keys (abs s).inside := by
  unfold recOf keys abs
  rw [Option.isNone_iff_eq_none, List.find?_eq_none]
  simp only [List.map_map, List.mem_map, Function.comp, Prod.mk.injEq, not_exists, not_and, decide_eq_true_eq]
  constructor
  · intro h d r hr e _; exact h r hr e
  · intro h r hr e; exact h _ r hr e rfl

theorem chk_to {t : Nat} {x : Pc} (h : m.pc t ≠ .check) (hx : x ≠ .check) : chk (m.to t x) = chk m := by
  unfold chk M.to
  cases m.lock with
  | none => rfl
  | some u =>
    simp only
    by_cases e : u = t
    · simp [e, h, hx]
    · simp [e]

theorem to_self {t : Nat} {x : Pc} (h : m.pc t = x) : m.to t x = m := by
  unfold M.to
  have : (fun u => if u = t then x else m.pc u) = m.pc := by
    funext u; split
    · rename_i e; rw [e, h]
    · rfl
  rw [this]

theorem pc_to (t : Nat) (x : Pc) (u : Nat) : (m.to t x).pc u = if u = t then x else m.pc u := rfl

/-- Events of a thread that waits for something else. -/
theorem J.elsewhere (j : J n cfg m) {t : Nat} {x : Pc} {s' : S} (hi : Inv n s') (ht : ∀ x ∈ s'.timers, x.chan ≠ cfg.c)
    (hk : ∀ u, u ≠ t → ∀ d, (u, d) ∈ keys (abs s').inside ↔ (u, d) ∈ keys (abs m.s).inside) (hc : (t, cfg.c) ∉ keys (abs s').inside)
    (ha : SomeAsleep cfg.c (abs s').inside → SomeAsleep cfg.c (abs m.s).inside) (hw : wokenOn cfg.c (abs m.s).inside ≤ wokenOn cfg.c (abs s').inside)
    (hb : ∀ x ∈ (abs s').inside, x.chan = cfg.c → x.byTimer = false)
    (hp : m.pc t ≠ .check) (hx : x = .out ∨ x = .selSlp) : J n cfg ({ m with s := s' }.to t x) := by
  have x1 : x ≠ .check ∧ x ≠ .decided ∧ x ≠ .slp ∧ x ≠ .selDecided := by rcases hx with e | e <;> rw [e] <;> decide
  refine ⟨hi, ?_, ?_, ?_, ht, hb, ?_, fun h => j.wait (ha h), ?_, fun h k => j.cntr h (ha k)⟩
  · intro u
    rw [pc_to]
    by_cases e : u = t
    · rw [if_pos e, e]
      exact ⟨fun h => absurd h x1.2.2.1, fun h => absurd h hc⟩
    · rw [if_neg e]
      exact (j.slp u).trans (hk u e _).symm
  · intro u h
    rw [pc_to] at h
    by_cases e : u = t
    · rw [if_pos e] at h
      rcases h with h | h
      · exact absurd h x1.1
      · exact absurd h x1.2.1
    · rw [if_neg e] at h; exact j.has u h
  · intro u h d
    rw [pc_to] at h
    by_cases e : u = t
    · rw [if_pos e] at h
      rcases h with h | h | h
      · exact absurd h x1.1
      · exact absurd h x1.2.1
      · exact absurd h x1.2.2.2
    · rw [if_neg e] at h
      intro k
      exact j.noin u h d ((hk u e d).1 k)
  · intro u h
    rw [pc_to] at h
    by_cases e : u = t
    · rw [if_pos e] at h; exact absurd h x1.2.1
    · rw [if_neg e] at h; exact j.dec u h
  · intro h k
    have h1 := j.cntl h (ha k)
    have h2 : chk ({ m with s := s' }.to t x) = chk m := chk_to (m := { m with s := s' }) hp x1.1
    rw [h2]
    show m.q ≤ m.p + wokenOn cfg.c (abs s').inside + chk m
    omega

/-- A call of `ofp_msleep`. -/
theorem step_sleep {s : S} (h : Inv n s) (t d : Nat) (b : Bool) : Inv n (step s (.sleep t d b)).2 ∧
    (((step s (.sleep t d b)).1 = .sleeping ∧ (∀ e, (t, e) ∉ keys (abs s).inside) ∧
      (abs (step s (.sleep t d b)).2).inside = ⟨t, d, false, false, if b then some s.next else none⟩ :: (abs s).inside ∧
      (step s (.sleep t d b)).2.timers = if b then ⟨s.next, t, d⟩ :: s.timers else s.timers) ∨
     ((step s (.sleep t d b)).1 ≠ .sleeping ∧ (step s (.sleep t d b)).2 = s)) := by
  obtain ⟨a, r⟩ := step_refines h (.sleep t d b)
  refine ⟨a, ?_⟩
  have r1 : (step s (.sleep t d b)).1 = (spec n (abs s) (.sleep t d b)).1 := by rw [r]
  have r2 : abs (step s (.sleep t d b)).2 = (spec n (abs s) (.sleep t d b)).2 := by rw [r]
  cases hr : recOf s t with
  | some p =>
    right
    unfold step
    simp only [hr]
    exact ⟨by decide, trivial⟩
  | none =>
    cases hf : s.free with
    | nil =>
      right
      unfold step
      simp only [hr, hf]
      exact ⟨by decide, trivial⟩
    | cons p l =>
      left
      have e1 : (step s (.sleep t d b)).1 = .sleeping := by unfold step; simp only [hr, hf]
      refine ⟨e1, (recOf_none s t).1 (by rw [hr]; rfl), ?_, ?_⟩
      · rw [r2]
        rw [e1] at r1
        unfold spec at r1 ⊢
        simp only at r1 ⊢
        split at r1
        · cases r1
        · rename_i k1
          split at r1
          · cases r1
          · rename_i k2
            rw [if_neg k1, if_neg k2]
            rfl
      · unfold step; simp only [hr, hf]

/-- A return from `ofp_msleep`. -/
theorem step_ret {s : S} (h : Inv n s) (t : Nat) : Inv n (step s (.ret t)).2 ∧ (∀ x ∈ (step s (.ret t)).2.timers, x ∈ s.timers) ∧
    (((step s (.ret t)).1 = .blocked ∧ (step s (.ret t)).2 = s) ∨
     (∃ x ∈ (abs s).inside, x.thr = t ∧ x.go = true ∧ (step s (.ret t)).1 = .woke x.byTimer ∧
       (abs (step s (.ret t)).2).inside = (abs s).inside.eraseP (·.thr = t))) := by
  obtain ⟨a, r⟩ := step_refines h (.ret t)
  have r1 : (step s (.ret t)).1 = (spec n (abs s) (.ret t)).1 := by rw [r]
  have r2 : abs (step s (.ret t)).2 = (spec n (abs s) (.ret t)).2 := by rw [r]
  refine ⟨a, ?_, ?_⟩
  · intro x hx
    unfold step at hx
    simp only at hx
    split at hx
    · exact hx
    · split at hx
      · simp only at hx
        split at hx
        · exact hx
        · exact (List.mem_filter.1 hx).1
      · exact hx
  · cases hf : (abs s).inside.find? (·.thr = t) with
    | none =>
      left
      have : recOf s t = none := by
        have e : (abs s).inside.find? (·.thr = t) = (recOf s t).map s.mem := find_map _ _ _
        rw [hf] at e
        cases hr : recOf s t with
        | none => rfl
        | some p => rw [hr] at e; cases e
      unfold step
      simp only [this]
      exact ⟨trivial, trivial⟩
    | some x =>
      by_cases g : x.go = true
      · right
        refine ⟨x, List.mem_of_find?_eq_some hf, by simpa using List.find?_some hf, g, ?_, ?_⟩
        · rw [r1]; unfold spec; simp only [hf]; rw [if_pos g]
        · rw [r2]; unfold spec; simp only [hf]; rw [if_pos g]
      · left
        have e : (abs s).inside.find? (·.thr = t) = (recOf s t).map s.mem := find_map _ _ _
        rw [hf] at e
        cases hr : recOf s t with
        | none => rw [hr] at e; cases e
        | some p =>
          rw [hr] at e
          have e : x = s.mem p := by simpa using e
          rw [e] at g
          unfold step
          simp only [hr]
          rw [if_neg g]
          exact ⟨rfl, rfl⟩

theorem inv_thr {s : S} (h : Inv n s) : ((abs s).inside.map (·.thr)).Nodup := by
  have := h.thr
  unfold abs; rw [List.map_map]; exact this

/-- Removing a thread's entry. -/
theorem erase_facts {l : List Rec} (nd : (l.map (·.thr)).Nodup) {x : Rec} (hx : x ∈ l) :
    (∀ u d, (u, d) ∈ keys (l.eraseP (·.thr = x.thr)) ↔ (u, d) ∈ keys l ∧ u ≠ x.thr) ∧
    (∀ c, wokenOn c (l.eraseP (·.thr = x.thr)) + (if x.chan = c ∧ x.go = true then 1 else 0) = wokenOn c l) ∧
    (∀ y ∈ l.eraseP (·.thr = x.thr), y ∈ l) := by
  induction l with
  | nil => cases hx
  | cons a l ih =>
    rw [List.map_cons] at nd
    obtain ⟨na, nd⟩ := List.nodup_cons.1 nd
    by_cases e : a.thr = x.thr
    · have : a = x := by
        rcases List.mem_cons.1 hx with h | h
        · exact h.symm
        · exfalso; apply na; rw [e]; exact List.mem_map.2 ⟨x, h, rfl⟩
      rw [List.eraseP_cons_of_pos (by simpa using e)]
      refine ⟨?_, ?_, fun y hy => List.mem_cons_of_mem _ hy⟩
      · intro u d
        simp only [keys, List.map_cons, List.mem_cons, Prod.mk.injEq]
        constructor
        · intro h
          refine ⟨.inr h, fun k => na ?_⟩
          obtain ⟨y, y1, y2⟩ := List.mem_map.1 h
          rw [e, ← k]
          exact List.mem_map.2 ⟨y, y1, (Prod.mk.injEq _ _ _ _ ▸ y2).1⟩
        · rintro ⟨⟨h, _⟩ | h, k⟩
          · exact absurd (h.trans e) k
          · exact h
      · intro c
        rw [wokenOn_cons, this, Nat.add_comm]
    · rw [List.eraseP_cons_of_neg (by simpa using e)]
      have hx : x ∈ l := by
        rcases List.mem_cons.1 hx with h | h
        · exact absurd (by rw [h]) e
        · exact h
      obtain ⟨i1, i2, i3⟩ := ih nd hx
      refine ⟨?_, ?_, ?_⟩
      · intro u d
        have := i1 u d
        simp only [keys, List.map_cons, List.mem_cons, Prod.mk.injEq] at this ⊢
        rw [this]
        constructor
        · rintro (⟨h1, h2⟩ | ⟨h1, h2⟩)
          · exact ⟨.inl ⟨h1, h2⟩, by rw [h1]; exact e⟩
          · exact ⟨.inr h1, h2⟩
        · rintro ⟨h1 | h1, h2⟩
          · exact .inl h1
          · exact .inr ⟨h1, h2⟩
      · intro c
        rw [wokenOn_cons, wokenOn_cons, ← i2 c]
        omega
      · intro y hy
        rcases List.mem_cons.1 hy with h | h
        · rw [h]; exact List.mem_cons_self
        · exact List.mem_cons_of_mem _ (i3 y h)

/-- Sleeping elsewhere. -/
theorem J.foreign_sleep (j : J n cfg m) {t d : Nat} {b : Bool} {x : Pc} (hd : d ≠ cfg.c) (h1 : m.pc t ≠ .check) (h2 : m.pc t ≠ .slp)
    (hx : x = .out ∨ x = .selSlp) : J n cfg ({ m with s := (step m.s (.sleep t d b)).2 }.to t x) := by
  obtain ⟨a, r⟩ := step_sleep (b := b) (t := t) (d := d) j.inv
  have hc : (t, cfg.c) ∉ keys (abs m.s).inside := fun k => h2 ((j.slp t).2 k)
  rcases r with ⟨_, r1, r2, r3⟩ | ⟨_, r2⟩
  · refine j.elsewhere a ?_ ?_ ?_ ?_ ?_ ?_ h1 hx
    · rw [r3]; intro y hy
      cases b with
      | false => exact j.tm y hy
      | true =>
        rcases List.mem_cons.1 hy with e | e
        · rw [e]; exact hd
        · exact j.tm y e
    · intro u hu e
      rw [r2]
      simp [keys, hu]
    · rw [r2]
      simp only [keys, List.map_cons, List.mem_cons, Prod.mk.injEq, not_or]
      exact ⟨fun k => hd k.2.symm, hc⟩
    · rw [r2]
      rintro ⟨y, hy, k1, k2⟩
      rcases List.mem_cons.1 hy with e | e
      · rw [e] at k1; exact absurd k1 hd
      · exact ⟨y, e, k1, k2⟩
    · rw [r2, wokenOn_cons]; omega
    · rw [r2]
      intro y hy k
      rcases List.mem_cons.1 hy with e | e
      · rw [e]
      · exact j.bt y e k
  · rw [r2]
    exact j.elsewhere j.inv j.tm (fun _ _ _ => Iff.rfl) hc id (Nat.le_refl _) j.bt h1 hx

/-- Returning elsewhere. -/
theorem J.foreign_ret (j : J n cfg m) {t : Nat} {x : Pc} (h1 : m.pc t ≠ .check) (h2 : m.pc t ≠ .slp)
    (hx : x = .out ∨ x = .selSlp) : J n cfg ({ m with s := (step m.s (.ret t)).2 }.to t x) := by
  obtain ⟨a, at_, r⟩ := step_ret (t := t) j.inv
  have hc : (t, cfg.c) ∉ keys (abs m.s).inside := fun k => h2 ((j.slp t).2 k)
  rcases r with ⟨_, r2⟩ | ⟨y, y1, y2, y3, y4, y5⟩
  · rw [r2]
    exact j.elsewhere j.inv j.tm (fun _ _ _ => Iff.rfl) hc id (Nat.le_refl _) j.bt h1 hx
  · obtain ⟨f1, f2, f3⟩ := erase_facts (inv_thr j.inv) y1
    rw [y2] at f1 f2 f3
    have yc : y.chan ≠ cfg.c := fun k => hc (List.mem_map.2 ⟨y, y1, by rw [y2, k]⟩)
    refine j.elsewhere a (fun z hz => j.tm z (at_ z hz)) ?_ ?_ ?_ ?_ ?_ h1 hx
    · intro u hu d
      rw [y5, f1]
      exact ⟨fun k => k.1, fun k => ⟨k, hu⟩⟩
    · rw [y5, f1]; exact fun k => k.2 rfl
    · rw [y5]
      rintro ⟨z, z1, z2, z3⟩
      exact ⟨z, f3 z z1, z2, z3⟩
    · rw [y5]
      have := f2 cfg.c
      rw [if_neg (fun k => yc k.1)] at this
      omega
    · rw [y5]
      intro z hz; exact j.bt z (f3 z hz)

theorem J.other (j : J n cfg m) (ev : Ev) (hf : foreign cfg m ev = true) : J n cfg { m with s := (step m.s ev).2 } := by
  cases ev with
  | sleep t d b =>
    simp only [Verif.Sleep.foreign, Bool.and_eq_true, decide_eq_true_eq] at hf
    have := j.foreign_sleep (t := t) (d := d) (b := b) (x := .out) hf.2 (by rw [hf.1]; decide) (by rw [hf.1]; decide) (.inl rfl)
    rwa [to_self (m := { m with s := (step m.s (.sleep t d b)).2 }) (t := t) hf.1] at this
  | wake d one =>
    obtain ⟨a, b, c⟩ := step_wake j.inv d one
    refine j.wakes a (by rw [b]; exact fun x hx => hx) ?_
    rw [c]
    cases one with
    | true => exact wakes_first _ _ _ _ (fun _ => rfl)
    | false => exact (wakes_all _ _ _).1
  | fire h =>
    obtain ⟨a, r⟩ := step_refines j.inv (.fire h)
    have r2 : abs (step m.s (.fire h)).2 = (spec n (abs m.s) (.fire h)).2 := by rw [r]
    cases hx : m.s.timers.find? (·.handle = h) with
    | none =>
      have : (step m.s (.fire h)).2 = m.s := by unfold step; simp only [hx]
      rw [this]; exact j
    | some x =>
      have xm := List.mem_of_find?_eq_some hx
      refine j.wakes a ?_ ?_
      · intro y hy
        have : (step m.s (.fire h)).2.timers = (abs (step m.s (.fire h)).2).timers := rfl
        rw [this, r2] at hy
        unfold spec at hy
        simp only at hy
        have e : (abs m.s).timers = m.s.timers := rfl
        rw [e, hx] at hy
        exact (List.mem_filter.1 hy).1
      · rw [r2]
        unfold spec
        simp only
        have e : (abs m.s).timers = m.s.timers := rfl
        rw [e, hx]
        exact wakes_first _ _ _ _ (fun k => absurd k (j.tm x xm))
  | ret t =>
    simp only [Verif.Sleep.foreign, decide_eq_true_eq] at hf
    have := j.foreign_ret (t := t) (x := .out) (by rw [hf]; decide) (by rw [hf]; decide) (.inl rfl)
    rwa [to_self (m := { m with s := (step m.s (.ret t)).2 }) (t := t) hf] at this

theorem J.next (hc : cfg.c ≠ 0) (j : J n cfg m) (ev : MEv) : J n cfg (mstep cfg m ev) := by
  have two : ∀ one, Inv n (step (step m.s (.wake 0 false)).2 (.wake cfg.c one)).2 ∧
      (step (step m.s (.wake 0 false)).2 (.wake cfg.c one)).2.timers = m.s.timers ∧
      ∃ l, Wakes cfg.c (abs m.s).inside l ∧ (abs (step (step m.s (.wake 0 false)).2 (.wake cfg.c one)).2).inside = if one then wakeFirst cfg.c false l else wakeAll cfg.c false l := by
    intro one
    obtain ⟨a, b, c⟩ := step_wake j.inv 0 false
    obtain ⟨d, e, f⟩ := step_wake a cfg.c one
    refine ⟨d, by rw [e, b], _, ?_, f⟩
    rw [c]
    exact (wakes_all _ _ _).1
  cases ev with
  | enter t =>
    unfold mstep
    simp only
    split
    · rename_i h
      simp only [Bool.and_eq_true, decide_eq_true_eq] at h
      obtain ⟨⟨h1, h2⟩, h3⟩ := h
      have h3 := (recOf_none m.s t).1 h3
      have nolock : ∀ u, ¬ (m.pc u = .check ∨ m.pc u = .decided) := fun u k => by have := j.has u k; rw [h2] at this; cases this
      refine ⟨j.inv, ?_, ?_, ?_, j.tm, j.bt, ?_, j.wait, ?_, j.cntr⟩
      · intro u
        rw [pc_to]
        by_cases e : u = t
        · rw [if_pos e, e]
          exact ⟨fun k => (by cases k), fun k => absurd k (h3 _)⟩
        · rw [if_neg e]; exact j.slp u
      · intro u k
        rw [pc_to] at k
        by_cases e : u = t
        · rw [e]; rfl
        · rw [if_neg e] at k; exact absurd k (nolock u)
      · intro u k
        rw [pc_to] at k
        by_cases e : u = t
        · rw [e]; exact h3
        · rw [if_neg e] at k; exact j.noin u k
      · intro u k
        rw [pc_to] at k
        by_cases e : u = t
        · rw [if_pos e] at k; cases k
        · rw [if_neg e] at k; exact j.dec u k
      · intro h k
        have := j.cntl h k
        have e : chk m = 0 := by unfold chk; rw [h2]
        rw [e] at this
        show m.q ≤ m.p + wokenOn cfg.c (abs m.s).inside + _
        omega
    · exact j
  | check t k =>
    unfold mstep
    simp only
    split
    · rename_i h
      have hl := j.has t (.inl h)
      have me : ∀ u, (m.pc u = .check ∨ m.pc u = .decided) → u = t := fun u k => by
        have := j.has u k; rw [hl] at this; exact (Option.some.inj this).symm
      have ns : (t, cfg.c) ∉ keys (abs m.s).inside := fun k => by have := (j.slp t).2 k; rw [h] at this; cases this
      have hchk : chk m = 1 := by unfold chk; rw [hl]; simp [h]
      have slp' : ∀ x, x ≠ .slp → ∀ u, (if u = t then x else m.pc u) = .slp ↔ (u, cfg.c) ∈ keys (abs m.s).inside := by
        intro x hx u
        by_cases e : u = t
        · rw [if_pos e, e]; exact ⟨fun k => absurd k hx, fun k => absurd k ns⟩
        · rw [if_neg e]; exact j.slp u
      -- leaving
      have leave : ∀ q' : Nat, (q' + 1 ≤ m.q ∨ m.q = 0 ∧ q' = 0) → (cfg.listen = false → SomeAsleep cfg.c (abs m.s).inside → 0 < m.p) →
          J n cfg ({ m with q := q', lock := none }.to t .out) := by
        intro q' hq hr
        refine ⟨j.inv, slp' _ (by decide), ?_, ?_, j.tm, j.bt, ?_, j.wait, ?_, fun a b => .inr (hr a b)⟩
        · intro u k
          rw [pc_to] at k
          by_cases e : u = t
          · rw [if_pos e] at k; rcases k with k | k <;> cases k
          · rw [if_neg e] at k; exact absurd (me u k) e
        · intro u k
          rw [pc_to] at k
          by_cases e : u = t
          · rw [if_pos e] at k; rcases k with k | k | k <;> cases k
          · rw [if_neg e] at k; exact j.noin u k
        · intro u k
          rw [pc_to] at k
          by_cases e : u = t
          · rw [if_pos e] at k; cases k
          · rw [if_neg e] at k; exact absurd (me u (.inr k)) e
        · intro a b
          have := j.cntl a b
          rw [hchk] at this
          show q' ≤ m.p + wokenOn cfg.c (abs m.s).inside + _
          omega
      split
      · rename_i hq
        refine leave _ ?_ ?_
        · left; split <;> omega
        · intro a b
          rcases j.cntr a b with c | c
          · omega
          · exact c
      · rename_i hq
        split
        · rename_i hs
          have := leave m.q (.inr ⟨by omega, by omega⟩) (by
            intro a b
            rcases j.cntr a b with c | c
            · rw [hs] at c; exact absurd c.2 (by simp)
            · exact c)
          exact this
        · rename_i hs
          refine ⟨j.inv, slp' _ (by decide), ?_, ?_, j.tm, j.bt, ?_, j.wait, ?_, j.cntr⟩
          · intro u k
            rw [pc_to] at k
            by_cases e : u = t
            · rw [e]; exact hl
            · rw [if_neg e] at k; exact j.has u k
          · intro u k
            rw [pc_to] at k
            by_cases e : u = t
            · rw [e]; exact j.noin t (.inl h)
            · rw [if_neg e] at k; exact j.noin u k
          · intro u _
            exact ⟨by show m.q = 0; omega, fun _ => by show m.shut = false; simpa using hs⟩
          · intro _ _
            show m.q ≤ _
            omega
    · exact j
  | goSleep t =>
    unfold mstep
    simp only
    split
    · rename_i h
      have hl := j.has t (.inr h)
      obtain ⟨dq, ds⟩ := j.dec t h
      have me : ∀ u, (m.pc u = .check ∨ m.pc u = .decided) → u = t := fun u k => by
        have := j.has u k; rw [hl] at this; exact (Option.some.inj this).symm
      have ns : (t, cfg.c) ∉ keys (abs m.s).inside := fun k => by have := (j.slp t).2 k; rw [h] at this; cases this
      obtain ⟨a, r⟩ := step_sleep (t := t) (d := cfg.c) (b := false) j.inv
      rcases r with ⟨r0, r1, r2, r3⟩ | ⟨r0, r2⟩
      · rw [if_pos r0]
        refine ⟨a, ?_, ?_, ?_, ?_, ?_, ?_, fun _ => rfl, ?_, ?_⟩
        · intro u
          rw [pc_to]
          show _ ↔ (u, cfg.c) ∈ keys (abs (step m.s (.sleep t cfg.c false)).2).inside
          rw [r2]
          by_cases e : u = t
          · rw [if_pos e, e]; simp [keys]
          · rw [if_neg e]
            have := j.slp u
            simp only [keys, List.map_cons, List.mem_cons, Prod.mk.injEq, e, false_and, false_or] at this ⊢
            exact this
        · intro u k
          rw [pc_to] at k
          by_cases e : u = t
          · rw [if_pos e] at k; rcases k with k | k <;> cases k
          · rw [if_neg e] at k; exact j.has u k
        · intro u k d
          rw [pc_to] at k
          show (u, d) ∉ keys (abs (step m.s (.sleep t cfg.c false)).2).inside
          rw [r2]
          by_cases e : u = t
          · rw [if_pos e] at k; rcases k with k | k | k <;> cases k
          · rw [if_neg e] at k
            have := j.noin u k d
            simp only [keys, List.map_cons, List.mem_cons, Prod.mk.injEq, e, false_and, false_or] at this ⊢
            exact this
        · show ∀ x ∈ (step m.s (.sleep t cfg.c false)).2.timers, x.chan ≠ cfg.c
          rw [r3]; exact j.tm
        · show ∀ x ∈ (abs (step m.s (.sleep t cfg.c false)).2).inside, x.chan = cfg.c → x.byTimer = false
          rw [r2]
          intro x hx k
          rcases List.mem_cons.1 hx with e | e
          · rw [e]
          · exact j.bt x e k
        · intro u k
          exact ⟨dq, ds⟩
        · intro _ _
          show m.q ≤ _
          omega
        · intro c _
          exact .inl ⟨dq, ds c⟩
      · rw [if_neg r0]
        refine ⟨j.inv, ?_, ?_, ?_, j.tm, j.bt, fun u _ => ⟨dq, ds⟩, fun _ => rfl, ?_, fun c _ => .inl ⟨dq, ds c⟩⟩
        · intro u
          rw [pc_to]
          by_cases e : u = t
          · rw [if_pos e, e]; exact ⟨fun k => (by cases k), fun k => absurd k ns⟩
          · rw [if_neg e]; exact j.slp u
        · intro u k
          rw [pc_to] at k
          by_cases e : u = t
          · rw [if_pos e] at k; rcases k with k | k <;> cases k
          · rw [if_neg e] at k; exact absurd (me u k) e
        · intro u k
          rw [pc_to] at k
          by_cases e : u = t
          · rw [if_pos e] at k; rcases k with k | k | k <;> cases k
          · rw [if_neg e] at k; exact j.noin u k
        · intro _ _
          show m.q ≤ _
          omega
    · exact j
  | unlock t =>
    unfold mstep
    simp only
    split
    · rename_i h
      simp only [Bool.and_eq_true, decide_eq_true_eq] at h
      have no : ∀ u, ¬ (m.pc u = .check ∨ m.pc u = .decided) := fun u k => by
        have := j.has u k; rw [h.2] at this
        rw [← Option.some.inj this, h.1] at k
        rcases k with k | k <;> cases k
      have e : chk m = 0 := by unfold chk; rw [h.2]; simp [h.1]
      refine ⟨j.inv, j.slp, fun u k => absurd k (no u), j.noin, j.tm, j.bt, j.dec, j.wait, ?_, j.cntr⟩
      intro a b
      have := j.cntl a b
      rw [e] at this
      show m.q ≤ m.p + wokenOn cfg.c (abs m.s).inside + _
      omega
    · exact j
  | relock t =>
    unfold mstep
    simp only
    split
    · rename_i h
      simp only [Bool.and_eq_true, decide_eq_true_eq] at h
      have no : ∀ u, ¬ (m.pc u = .check ∨ m.pc u = .decided) := fun u k => by
        have := j.has u k; rw [h.2] at this; cases this
      have e : chk m = 0 := by unfold chk; rw [h.2]
      refine ⟨j.inv, j.slp, fun u k => absurd k (no u), j.noin, j.tm, j.bt, j.dec, j.wait, ?_, j.cntr⟩
      intro a b
      have := j.cntl a b
      rw [e] at this
      show m.q ≤ m.p + wokenOn cfg.c (abs m.s).inside + _
      omega
    · exact j
  | leave t =>
    unfold mstep
    simp only
    split
    · rename_i h
      simp only [Bool.and_eq_true, decide_eq_true_eq] at h
      have me : ∀ u, ¬ (m.pc u = .check ∨ m.pc u = .decided) := fun u k => by
        have := j.has u k; rw [h.2] at this
        rw [← Option.some.inj this, h.1] at k
        rcases k with k | k <;> cases k
      have e0 : chk m = 0 := by unfold chk; rw [h.2]; simp [h.1]
      obtain ⟨a, at_, r⟩ := step_ret (t := t) j.inv
      rcases r with ⟨r1, r2⟩ | ⟨y, y1, y2, y3, y4, y5⟩
      · rw [if_neg (by rw [r1]; decide), if_neg (by rw [r1]; decide)]; exact j
      · obtain ⟨f1, f2, f3⟩ := erase_facts (inv_thr j.inv) y1
        rw [y2] at f1 f2 f3
        have yk : (t, cfg.c) ∈ keys (abs m.s).inside := (j.slp t).1 h.1
        have yc : y.chan = cfg.c := by
          obtain ⟨z, z1, z2⟩ := List.mem_map.1 yk
          simp only [Prod.mk.injEq] at z2
          rw [nodup_inj (f := (·.thr)) (inv_thr j.inv) y1 z1 (by rw [y2, z2.1])]
          exact z2.2
        have yb := j.bt y y1 yc
        rw [if_pos (by rw [y4, yb])]
        have asl : SomeAsleep cfg.c (abs (step m.s (.ret t)).2).inside → SomeAsleep cfg.c (abs m.s).inside := by
          rw [y5]; rintro ⟨z, z1, z2⟩; exact ⟨z, f3 z z1, z2⟩
        refine ⟨a, ?_, ?_, ?_, fun x hx => j.tm x (at_ x hx), ?_, ?_, fun k => j.wait (asl k), ?_, fun c k => j.cntr c (asl k)⟩
        · intro u
          rw [pc_to]
          show _ ↔ (u, cfg.c) ∈ keys (abs (step m.s (.ret t)).2).inside
          rw [y5, f1]
          by_cases e : u = t
          · rw [if_pos e, e]; exact ⟨fun k => (by cases k), fun k => absurd rfl k.2⟩
          · rw [if_neg e]; exact ⟨fun k => ⟨(j.slp u).1 k, e⟩, fun k => (j.slp u).2 k.1⟩
        · intro u k
          rw [pc_to] at k
          by_cases e : u = t
          · rw [e]; exact h.2
          · rw [if_neg e] at k; exact absurd k (me u)
        · intro u k d
          rw [pc_to] at k
          show (u, d) ∉ keys (abs (step m.s (.ret t)).2).inside
          rw [y5, f1]
          by_cases e : u = t
          · exact fun k => k.2 e
          · rw [if_neg e] at k; exact fun q => j.noin u k d q.1
        · show ∀ x ∈ (abs (step m.s (.ret t)).2).inside, x.chan = cfg.c → x.byTimer = false
          rw [y5]; intro z hz; exact j.bt z (f3 z hz)
        · intro u k
          rw [pc_to] at k
          by_cases e : u = t
          · rw [if_pos e] at k; cases k
          · rw [if_neg e] at k; exact j.dec u k
        · intro c k
          have h1 := j.cntl c (asl k)
          rw [e0] at h1
          have h2 := f2 cfg.c
          rw [if_pos ⟨yc, y3⟩] at h2
          have h3 : chk ({ m with s := (Verif.Sleep.step m.s (.ret t)).2 }.to t .check) = 1 := by
            unfold chk; show (match m.lock with | some u => _ | none => _) = 1; rw [h.2]; simp [M.to]
          rw [h3]
          show m.q ≤ m.p + wokenOn cfg.c (abs (Verif.Sleep.step m.s (.ret t)).2).inside + 1
          rw [y5]
          omega
    · exact j
  | produce k =>
    unfold mstep
    simp only
    split
    · rename_i h
      have no : ∀ u, ¬ (m.pc u = .check ∨ m.pc u = .decided) := fun u k => by
        have := j.has u k; rw [h] at this; cases this
      refine ⟨j.inv, j.slp, j.has, j.noin, j.tm, j.bt, fun u k => absurd (.inr k) (no u), j.wait, ?_, fun _ _ => .inr (Nat.succ_pos _)⟩
      intro a b
      have := j.cntl a b
      have e : chk { m with q := m.q + (if cfg.listen then 1 else k + 1), p := m.p + 1 } = chk m := rfl
      rw [e]
      show m.q + (if cfg.listen then 1 else k + 1) ≤ m.p + 1 + wokenOn cfg.c (abs m.s).inside + chk m
      rw [if_pos a]
      omega
    · exact j
  | shut =>
    unfold mstep
    simp only
    split
    · rename_i h
      exact ⟨j.inv, j.slp, j.has, j.noin, j.tm, j.bt, fun u k => ⟨(j.dec u k).1, fun c => by rw [h] at c; cases c⟩, j.wait, j.cntl,
        fun c => by rw [h] at c; cases c⟩
    · split
      · rename_i h1 h
        have no : ∀ u, ¬ (m.pc u = .check ∨ m.pc u = .decided) := fun u k => by
          have := j.has u k; rw [h] at this; cases this
        refine ⟨j.inv, j.slp, j.has, j.noin, j.tm, j.bt, fun u k => absurd (.inr k) (no u), j.wait, fun c => absurd c h1, fun _ _ => .inr (Nat.succ_pos _)⟩
      · exact j
  | signal =>
    unfold mstep
    simp only
    split
    · rename_i hp
      by_cases hl : cfg.listen = true
      · rw [if_pos hl]
        obtain ⟨a, b, l, w, e⟩ := two true
        simp only [if_true] at e
        have w2 := w.trans (wakes_first cfg.c cfg.c false l (fun _ => rfl))
        rw [← e] at w2
        have j2 := j.wakes a (by rw [b]; exact fun x hx => hx) w2
        refine ⟨j2.inv, j2.slp, j2.has, j2.noin, j2.tm, j2.bt, j2.dec, j2.wait, ?_, fun c => by rw [hl] at c; cases c⟩
        intro _ k
        have h1 := j.cntl hl (w2.asl k)
        have h2 := w.wk
        have k : SomeAsleep cfg.c (abs (Verif.Sleep.step (Verif.Sleep.step m.s (.wake 0 false)).2 (.wake cfg.c true)).2).inside := k
        show m.q ≤ m.p - 1 + wokenOn cfg.c (abs (Verif.Sleep.step (Verif.Sleep.step m.s (.wake 0 false)).2 (.wake cfg.c true)).2).inside + chk m
        rw [e] at k ⊢
        rcases first_count cfg.c l with f | f
        · exact absurd k f
        · omega
      · rw [if_neg hl]
        by_cases hw : m.wait = true
        · rw [if_pos hw]
          obtain ⟨a, b, l, w, e⟩ := two false
          simp only [Bool.false_eq_true, if_false] at e
          have w2 := w.trans (wakes_all cfg.c cfg.c l).1
          rw [← e] at w2
          have j2 := j.wakes a (by rw [b]; exact fun x hx => hx) w2
          refine ⟨j2.inv, j2.slp, j2.has, j2.noin, j2.tm, j2.bt, j2.dec, j2.wait, fun c => absurd c hl, ?_⟩
          intro _ k
          have k : SomeAsleep cfg.c (abs (Verif.Sleep.step (Verif.Sleep.step m.s (.wake 0 false)).2 (.wake cfg.c false)).2).inside := k
          rw [e] at k
          exact absurd k ((wakes_all cfg.c cfg.c l).2 rfl)
        · rw [if_neg hw]
          refine ⟨j.inv, j.slp, j.has, j.noin, j.tm, j.bt, j.dec, j.wait, fun c => absurd c hl, ?_⟩
          intro _ k
          exact absurd (j.wait k) hw
    · exact j
  | shutSignal =>
    unfold mstep
    simp only
    split
    · obtain ⟨a, b, l, w, e⟩ := two false
      simp only [Bool.false_eq_true, if_false] at e
      have w2 := w.trans (wakes_all cfg.c cfg.c l).1
      rw [← e] at w2
      have j2 := j.wakes a (by rw [b]; exact fun x hx => hx) w2
      exact ⟨j2.inv, j2.slp, j2.has, j2.noin, j2.tm, j2.bt, j2.dec, j2.wait, j2.cntl, j2.cntr⟩
    · exact j
  | selCheck t =>
    unfold mstep
    simp only
    split
    · rename_i h
      simp only [Bool.and_eq_true, decide_eq_true_eq] at h
      obtain ⟨⟨⟨h1, _⟩, _⟩, h3⟩ := h
      have h3 := (recOf_none m.s t).1 h3
      refine ⟨j.inv, ?_, ?_, ?_, j.tm, j.bt, ?_, j.wait, ?_, j.cntr⟩
      · intro u
        rw [pc_to]
        by_cases e : u = t
        · rw [if_pos e, e]; exact ⟨fun k => (by cases k), fun k => absurd k (h3 _)⟩
        · rw [if_neg e]; exact j.slp u
      · intro u k
        rw [pc_to] at k
        by_cases e : u = t
        · rw [if_pos e] at k; rcases k with k | k <;> cases k
        · rw [if_neg e] at k; exact j.has u k
      · intro u k
        rw [pc_to] at k
        by_cases e : u = t
        · rw [e]; exact h3
        · rw [if_neg e] at k; exact j.noin u k
      · intro u k
        rw [pc_to] at k
        by_cases e : u = t
        · rw [if_pos e] at k; cases k
        · rw [if_neg e] at k; exact j.dec u k
      · intro c k
        rw [chk_to (by rw [h1]; decide) (by decide)]
        exact j.cntl c k
    · exact j
  | selSleep t =>
    unfold mstep
    simp only
    split
    · rename_i h
      have key := fun x (hx : x = Pc.out ∨ x = .selSlp) =>
        j.foreign_sleep (t := t) (d := 0) (b := false) (x := x) (fun e => hc e.symm) (by rw [h]; decide) (by rw [h]; decide) hx
      split
      · exact key _ (.inr rfl)
      · rename_i r0
        have := key .out (.inl rfl)
        obtain ⟨_, r⟩ := step_sleep (t := t) (d := 0) (b := false) j.inv
        rcases r with r | r
        · exact absurd r.1 r0
        · rw [r.2] at this; exact this
    · exact j
  | selRet t =>
    unfold mstep
    simp only
    split
    · rename_i h
      split
      · exact j
      · exact j.foreign_ret (by rw [h]; decide) (by rw [h]; decide) (.inl rfl)
    · exact j
  | other ev =>
    unfold mstep
    simp only
    split
    · rename_i h; exact j.other ev h
    · exact j

theorem MReach.j (hc : cfg.c ≠ 0) (h : MReach n cfg m) : J n cfg m := by
  induction h with
  | init => exact J.init n cfg
  | step ev _ ih => exact ih.next hc ev

end Verif.Sleep

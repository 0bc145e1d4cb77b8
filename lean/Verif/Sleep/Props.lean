import Verif.Sleep.Refine
/-! # Sleeping and waking: the properties -/
namespace Verif.Sleep

/-- A record of what happened, latest first. -/
abbrev Log := List (Ev × Res)

/-- Histories with `n` sleeper records. -/
inductive Hist (n : Nat) : Log → S → Prop where
  | nil : Hist n [] (init n)
  | cons {l : Log} {s : S} (ev : Ev) : Hist n l s → Hist n ((ev, (step s ev).1) :: l) (step s ev).2

/-- The threads inside `ofp_msleep`, latest first, according to the record. -/
def callers : Log → List Nat
  | [] => []
  | (.sleep t _ _, .sleeping) :: l => t :: callers l
  | (.ret t, .woke _) :: l => (callers l).erase t
  | _ :: l => callers l

theorem Hist.inv {n : Nat} {l : Log} {s : S} (h : Hist n l s) : Inv n s := by
  induction h with
  | nil => exact Inv.init n
  | cons ev _ ih => exact (step_refines ih ev).1

theorem hist_run {n : Nat} {l : Log} {s : S} (h : Hist n l s) (es : List Ev) : ∃ l', Hist n l' (run s es).2 := by
  induction es generalizing l s with
  | nil => exact ⟨l, h⟩
  | cons e es ih => exact ih (h.cons e)

theorem wakeFirst_thr (c : Nat) (b : Bool) (l : List Rec) : (wakeFirst c b l).map (·.thr) = l.map (·.thr) := by
  induction l with
  | nil => rfl
  | cons x l ih =>
    unfold wakeFirst
    split
    · simp [mark_thr]
    · simp [ih]

theorem wakeAll_thr (c : Nat) (b : Bool) (l : List Rec) : (wakeAll c b l).map (·.thr) = l.map (·.thr) := by
  unfold wakeAll
  rw [List.map_map]
  apply List.map_congr_left
  intro x _
  simp only [Function.comp]
  split
  · exact mark_thr _ _
  · rfl

theorem eraseP_thr (t : Nat) (l : List Rec) : (l.eraseP (·.thr = t)).map (·.thr) = (l.map (·.thr)).erase t := by
  induction l with
  | nil => rfl
  | cons x l ih =>
    by_cases c : x.thr = t
    · rw [List.eraseP_cons_of_pos (by simpa using c), List.map_cons, c, List.erase_cons_head]
    · rw [List.eraseP_cons_of_neg (by simpa using c), List.map_cons, List.map_cons, List.erase_cons_tail (by simpa using c), ih]

/-- The threads inside are those that called and did not return. -/
theorem inside_callers {n : Nat} {l : Log} {s : S} (h : Hist n l s) : (abs s).inside.map (·.thr) = callers l := by
  induction h with
  | nil => rfl
  | @cons l s ev h ih =>
    have r := (step_refines h.inv ev).2
    generalize step s ev = q at *
    obtain ⟨q1, q2⟩ := q
    have r1 : (spec n (abs s) ev).1 = q1 := by rw [r]
    have r2 : (spec n (abs s) ev).2 = abs q2 := by rw [r]
    simp only
    rw [← r2, ← r1]
    clear r r1 r2
    cases ev with
    | sleep t c b =>
      unfold spec
      simp only
      split
      · exact ih
      · split
        · exact ih
        · simp only [callers, List.map_cons, ih]
    | wake c one =>
      unfold spec
      simp only [callers]
      split
      · rw [wakeFirst_thr, ih]
      · rw [wakeAll_thr, ih]
    | fire hd =>
      unfold spec
      simp only
      split
      · exact ih
      · simp only [callers]; rw [wakeFirst_thr, ih]
    | ret t =>
      unfold spec
      simp only
      split
      · exact ih
      · split
        · simp only [callers]; rw [eraseP_thr, ih]
        · exact ih

/-! ## Records -/

/-- **C100.** Sleeper records are never shared or lost: at any time the threads inside `ofp_msleep` are distinct and each has its own
record; all other records are free.  So `ofp_msleep` fails only when `n` other threads are inside. -/
theorem records_conserved {n : Nat} {l : Log} {s : S} (h : Hist n l s) :
    (s.held ++ s.free).Perm (List.range n) ∧ (callers l).Nodup ∧ s.held.length = (callers l).length ∧
    (∀ t ∈ callers l, ∃ r ∈ s.held, (s.mem r).thr = t ∧ ∀ r' ∈ s.held, (s.mem r').thr = t → r' = r) ∧
    (∀ t c b, (step s (.sleep t c b)).1 = .nomem ↔ t ∉ callers l ∧ (callers l).length = n) := by
  have i := h.inv
  have hc := inside_callers h
  have hm : (abs s).inside.map (·.thr) = s.held.map fun r => (s.mem r).thr := by unfold abs; rw [List.map_map]; rfl
  rw [hm] at hc
  have nd := i.thr
  rw [hc] at nd
  refine ⟨i.perm, nd, by rw [← hc, List.length_map], ?_, ?_⟩
  · intro t ht
    rw [← hc] at ht
    obtain ⟨r, h1, h2⟩ := List.mem_map.1 ht
    refine ⟨r, h1, h2, fun r' h3 h4 => ?_⟩
    have key : ∀ L : List Nat, (L.map fun r => (s.mem r).thr).Nodup → r ∈ L → r' ∈ L → r' = r := by
      intro L
      induction L with
      | nil => intro _ h; cases h
      | cons a L ih =>
        intro nd m m'
        rw [List.map_cons] at nd
        obtain ⟨na, nd⟩ := List.nodup_cons.1 nd
        rcases List.mem_cons.1 m with m | m <;> rcases List.mem_cons.1 m' with m' | m'
        · rw [m, m']
        · exfalso; apply na; rw [← m, h2, ← h4]; exact List.mem_map.2 ⟨r', m', rfl⟩
        · exfalso; apply na; rw [← m', h4, ← h2]; exact List.mem_map.2 ⟨r, m, rfl⟩
        · exact ih nd m m'
    exact key s.held i.thr h1 h3
  · intro t c b
    have r := (step_refines i (.sleep t c b)).2
    have r1 : (step s (.sleep t c b)).1 = (spec n (abs s) (.sleep t c b)).1 := by rw [r]
    rw [r1]
    have hany : (abs s).inside.any (·.thr = t) = true ↔ t ∈ callers l := by
      rw [← inside_callers h, List.any_eq_true, List.mem_map]
      simp
    have hlen : (abs s).inside.length = (callers l).length := by rw [← inside_callers h, List.length_map]
    unfold spec
    simp only
    by_cases c1 : (abs s).inside.any (·.thr = t) = true
    · rw [if_pos c1]
      constructor
      · intro e; cases e
      · intro e; exact absurd (hany.1 c1) e.1
    · rw [if_neg c1, hlen]
      by_cases c2 : (callers l).length = n
      · rw [if_pos c2]; exact ⟨fun _ => ⟨fun m => c1 (hany.2 m), c2⟩, fun _ => rfl⟩
      · rw [if_neg c2]
        constructor
        · intro e; cases e
        · intro e; exact absurd e.2 c2

/-! ## Waking -/

theorem inside_nodup {n : Nat} {l : Log} {s : S} (h : Hist n l s) : ((abs s).inside.map (·.thr)).Nodup := by
  rw [inside_callers h]; exact (records_conserved h).2.1

/-- **C101.** A thread leaves `ofp_msleep` exactly when it was woken, with `OFP_EWOULDBLOCK` exactly when a timer did it. -/
theorem returns_when_woken {n : Nat} {l : Log} {s : S} (h : Hist n l s) (t : Nat) (b : Bool) :
    (step s (.ret t)).1 = .woke b ↔ Woken (abs s) t b := by
  have r := (step_refines h.inv (.ret t)).2
  have r1 : (step s (.ret t)).1 = (spec n (abs s) (.ret t)).1 := by rw [r]
  rw [r1]
  unfold spec Woken
  simp only
  have nd := inside_nodup h
  generalize (abs s).inside = L at *
  have key : ∀ x, L.find? (·.thr = t) = some x → ∀ y ∈ L, y.thr = t → y = x := by
    intro x hx y hy ht
    induction L with
    | nil => cases hy
    | cons a L ih =>
      rw [List.map_cons] at nd
      obtain ⟨na, nd⟩ := List.nodup_cons.1 nd
      by_cases c : a.thr = t
      · rw [List.find?_cons_of_pos (by simpa using c)] at hx
        cases hx
        rcases List.mem_cons.1 hy with e | e
        · exact e
        · exfalso; apply na; rw [c, ← ht]; exact List.mem_map.2 ⟨y, e, rfl⟩
      · rw [List.find?_cons_of_neg (by simpa using c)] at hx
        rcases List.mem_cons.1 hy with e | e
        · exact absurd ht (by rw [e]; exact c)
        · exact ih nd hx e
  cases hx : L.find? (·.thr = t) with
  | none =>
    simp only [reduceCtorEq, false_iff]
    rintro ⟨x, h1, h2, _⟩
    have := List.find?_eq_none.1 hx x h1
    exact this (by simpa using h2)
  | some x =>
    simp only
    have hxm := List.mem_of_find?_eq_some hx
    have hxt : x.thr = t := by simpa using List.find?_some hx
    by_cases g : x.go = true
    · rw [if_pos g]
      simp only [Res.woke.injEq]
      constructor
      · intro e; exact ⟨x, hxm, hxt, g, e⟩
      · rintro ⟨y, h1, h2, h3, h4⟩
        rw [key x hx y h1 h2] at h4; exact h4
    · rw [if_neg g]
      simp only [reduceCtorEq, false_iff]
      rintro ⟨y, h1, h2, h3, h4⟩
      rw [key x hx y h1 h2] at h3; exact g h3

theorem abs_wake {n : Nat} {l : Log} {s : S} (h : Hist n l s) (c : Nat) (one : Bool) :
    (abs (step s (.wake c one)).2).inside = if one then wakeFirst c false (abs s).inside else wakeAll c false (abs s).inside := by
  have r := (step_refines h.inv (.wake c one)).2
  have : abs (step s (.wake c one)).2 = (spec n (abs s) (.wake c one)).2 := by rw [r]
  rw [this]; rfl

/-- **C101.** Waking a channel wakes exactly the threads asleep on it: nobody sleeps on it any more, all others sleep on, and the
threads woken are those that slept on it (besides those already woken). -/
theorem wake_exact {n : Nat} {l : Log} {s : S} (h : Hist n l s) (c : Nat) (t d : Nat) (b : Bool) :
    (Asleep (abs (step s (.wake c false)).2) t d ↔ Asleep (abs s) t d ∧ d ≠ c) ∧
    (Woken (abs (step s (.wake c false)).2) t b ↔ Woken (abs s) t b ∨ (∃ x ∈ (abs s).inside, x.thr = t ∧ x.chan = c ∧ x.go = false ∧ x.byTimer = b)) := by
  unfold Asleep Woken
  rw [abs_wake h c false]
  simp only [Bool.false_eq_true, if_false, wakeAll, List.mem_map]
  have e : ∀ x : Rec, mark false x = { x with go := true } := fun x => rfl
  constructor
  · constructor
    · rintro ⟨y, ⟨x, hx, rfl⟩, h1, h2, h3⟩
      split at h3
      · rw [mark_go] at h3; cases h3
      · rename_i k
        rw [if_neg k] at h1 h2
        exact ⟨⟨x, hx, h1, h2, h3⟩, fun q => k ⟨by rw [h2, q], h3⟩⟩
    · rintro ⟨⟨x, hx, h1, h2, h3⟩, hne⟩
      refine ⟨x, ⟨x, hx, ?_⟩, h1, h2, h3⟩
      rw [if_neg (fun q => hne (by rw [← h2, q.1]))]
  · constructor
    · rintro ⟨y, ⟨x, hx, rfl⟩, h1, h2, h3⟩
      by_cases k : x.chan = c ∧ x.go = false
      · rw [if_pos k] at h1 h3
        exact .inr ⟨x, hx, h1, k.1, k.2, h3⟩
      · rw [if_neg k] at h1 h2 h3
        exact .inl ⟨x, hx, h1, h2, h3⟩
    · rintro (⟨x, hx, h1, h2, h3⟩ | ⟨x, hx, h1, h2, h3, h4⟩)
      · refine ⟨x, ⟨x, hx, ?_⟩, h1, h2, h3⟩
        rw [if_neg (fun q => by rw [h2] at q; exact absurd q.2 (by simp))]
      · exact ⟨mark false x, ⟨x, hx, by rw [if_pos ⟨h2, h3⟩]⟩, h1, rfl, h4⟩

theorem wakeFirst_cases (c : Nat) (b : Bool) (l : List Rec) :
    ((∀ x ∈ l, ¬ (x.chan = c ∧ x.go = false)) ∧ wakeFirst c b l = l) ∨
    (∃ l1 x l2, l = l1 ++ x :: l2 ∧ (∀ y ∈ l1, ¬ (y.chan = c ∧ y.go = false)) ∧ x.chan = c ∧ x.go = false ∧ wakeFirst c b l = l1 ++ mark b x :: l2) := by
  induction l with
  | nil => exact .inl ⟨(fun _ h => by cases h), rfl⟩
  | cons a l ih =>
    by_cases k : a.chan = c ∧ a.go = false
    · right
      exact ⟨[], a, l, rfl, (fun _ h => by cases h), k.1, k.2, by unfold wakeFirst; rw [if_pos k]; rfl⟩
    · rcases ih with ⟨i1, i2⟩ | ⟨l1, x, l2, i1, i2, i3, i4, i5⟩
      · left
        refine ⟨fun y hy => ?_, by unfold wakeFirst; rw [if_neg k, i2]⟩
        rcases List.mem_cons.1 hy with e | e
        · rw [e]; exact k
        · exact i1 y e
      · right
        refine ⟨a :: l1, x, l2, by rw [i1]; rfl, fun y hy => ?_, i3, i4, by unfold wakeFirst; rw [if_neg k, i5]; rfl⟩
        rcases List.mem_cons.1 hy with e | e
        · rw [e]; exact k
        · exact i2 y e

/-- **C101.** `ofp_wakeup_one`: when nobody sleeps on the channel nothing changes; otherwise exactly one thread is woken, the one
that went to sleep on it last. -/
theorem wake_one_exact {n : Nat} {l : Log} {s : S} (h : Hist n l s) (c : Nat) :
    ((∀ t, ¬ Asleep (abs s) t c) ∧ (abs (step s (.wake c true)).2).inside = (abs s).inside) ∨
    (∃ l1 x l2, (abs s).inside = l1 ++ x :: l2 ∧ (∀ y ∈ l1, ¬ (y.chan = c ∧ y.go = false)) ∧ x.chan = c ∧ x.go = false ∧
      (abs (step s (.wake c true)).2).inside = l1 ++ { x with go := true } :: l2) := by
  rw [abs_wake h c true]
  simp only [if_true]
  rcases wakeFirst_cases c false (abs s).inside with ⟨a, b⟩ | ⟨l1, x, l2, a1, a2, a3, a4, a5⟩
  · refine .inl ⟨?_, b⟩
    rintro t ⟨x, h1, _, h2, h3⟩
    exact a x h1 ⟨h2, h3⟩
  · exact .inr ⟨l1, x, l2, a1, a2, a3, a4, a5⟩

/-- **C101.** A complete call of `ofp_wakeup(c)` wakes exactly the threads asleep on `c` and those in select or epoll (channel 0). -/
theorem wakeup_call {n : Nat} {l : Log} {s : S} (h : Hist n l s) (c t d : Nat) :
    Asleep (abs (run s (wakeupCall c false)).2) t d ↔ Asleep (abs s) t d ∧ d ≠ c ∧ d ≠ 0 := by
  unfold wakeupCall
  by_cases k : c = 0
  · rw [if_pos k, k]
    show Asleep (abs (step s (.wake 0 false)).2) t d ↔ _
    rw [(wake_exact h 0 t d false).1]
    constructor
    · rintro ⟨a, b⟩; exact ⟨a, b, b⟩
    · rintro ⟨a, b, _⟩; exact ⟨a, b⟩
  · rw [if_neg k]
    show Asleep (abs (step (step s (.wake 0 false)).2 (.wake c false)).2) t d ↔ _
    rw [(wake_exact (h.cons (.wake 0 false)) c t d false).1, (wake_exact h 0 t d false).1]
    constructor
    · rintro ⟨⟨a, b⟩, e⟩; exact ⟨a, e, b⟩
    · rintro ⟨a, e, b⟩; exact ⟨⟨a, b⟩, e⟩

example : (run (init 4) [.sleep 1 7 false, .sleep 2 0 true, .sleep 3 8 false, .sleep 4 7 false, .wake 0 false, .wake 7 true, .ret 4, .ret 1, .ret 2, .ret 3]).1 =
    [.sleeping, .sleeping, .sleeping, .sleeping, .none, .none, .woke false, .blocked, .woke false, .blocked] := by decide

/-! ## Timeouts -/

/-- No two threads are ever inside `ofp_msleep` on the same channel. -/
def Exclusive (a : Abs) : Prop := (a.inside.map (·.chan)).Nodup

/-- Histories in which that holds all the time. -/
inductive ExHist (n : Nat) : S → Prop where
  | nil : ExHist n (init n)
  | cons {s : S} (ev : Ev) : ExHist n s → Exclusive (abs (step s ev).2) → ExHist n (step s ev).2

/-- Timers belong to threads inside. -/
structure TInv (a : Abs) : Prop where
  own : ∀ m ∈ a.timers, ∃ x ∈ a.inside, x.thr = m.owner ∧ x.chan = m.chan ∧ x.tmo = some m.handle
  run : ∀ x ∈ a.inside, ∀ h, x.tmo = some h → x.go = false → ⟨h, x.thr, x.chan⟩ ∈ a.timers
  lt : ∀ m ∈ a.timers, m.handle < a.next
  ltx : ∀ x ∈ a.inside, ∀ h, x.tmo = some h → h < a.next
  inj : ∀ x ∈ a.inside, ∀ y ∈ a.inside, ∀ h, x.tmo = some h → y.tmo = some h → x = y
  uniq : ∀ m ∈ a.timers, ∀ m' ∈ a.timers, m.handle = m'.handle → m = m'

theorem nodup_inj {f : Rec → Nat} {l : List Rec} (h : (l.map f).Nodup) {x y : Rec} (hx : x ∈ l) (hy : y ∈ l) (e : f x = f y) : x = y := by
  induction l with
  | nil => cases hx
  | cons a l ih =>
    rw [List.map_cons] at h
    obtain ⟨na, nd⟩ := List.nodup_cons.1 h
    rcases List.mem_cons.1 hx with m | m <;> rcases List.mem_cons.1 hy with m' | m'
    · rw [m, m']
    · exfalso; apply na; rw [← m, e]; exact List.mem_map.2 ⟨y, m', rfl⟩
    · exfalso; apply na; rw [← m', ← e]; exact List.mem_map.2 ⟨x, m, rfl⟩
    · exact ih nd m m'

/-- Members after waking the first: unchanged ones and the one woken. -/
theorem mem_wakeFirst {c : Nat} {b : Bool} {l : List Rec} (nd : (l.map (·.chan)).Nodup) (x : Rec) :
    x ∈ wakeFirst c b l ↔ (x ∈ l ∧ ¬ (x.chan = c ∧ x.go = false)) ∨ (∃ y ∈ l, y.chan = c ∧ y.go = false ∧ x = mark b y) := by
  rcases wakeFirst_cases c b l with ⟨h1, h2⟩ | ⟨l1, y, l2, h1, h2, h3, h4, h5⟩
  · rw [h2]
    constructor
    · intro m; exact .inl ⟨m, h1 x m⟩
    · rintro (m | ⟨y, m, k1, k2, _⟩)
      · exact m.1
      · exact absurd ⟨k1, k2⟩ (h1 y m)
  · rw [h5]
    have yl : y ∈ l := by rw [h1]; simp
    constructor
    · intro m
      rcases List.mem_append.1 m with m | m
      · exact .inl ⟨by rw [h1]; exact List.mem_append.2 (.inl m), h2 x m⟩
      · rcases List.mem_cons.1 m with m | m
        · exact .inr ⟨y, yl, h3, h4, m⟩
        · left
          have xl : x ∈ l := by rw [h1]; simp [m]
          refine ⟨xl, fun k => ?_⟩
          rw [h1, List.map_append, List.map_cons] at nd
          have := (List.nodup_append.1 nd).2.1
          apply (List.nodup_cons.1 this).1
          rw [h3, ← k.1]; exact List.mem_map.2 ⟨x, m, rfl⟩
    · rintro (⟨m, k⟩ | ⟨z, m, k1, k2, k3⟩)
      · rw [h1] at m
        rcases List.mem_append.1 m with m | m
        · exact List.mem_append.2 (.inl m)
        · rcases List.mem_cons.1 m with m | m
          · rw [m] at k; exact absurd ⟨h3, h4⟩ k
          · exact List.mem_append.2 (.inr (List.mem_cons_of_mem _ m))
      · have : z = y := nodup_inj nd m yl (by rw [k1, h3])
        rw [k3, this]; simp

theorem mark_tmo (x : Rec) : (mark false x).tmo = x.tmo ∧ (mark true x).tmo = none := ⟨rfl, rfl⟩

/-- A map that keeps threads, channels and handles, and wakes some, keeps the invariant. -/
theorem TInv.map {a : Abs} (h : TInv a) (l : List Rec) (hl : ∀ y, y ∈ l → ∃ x ∈ a.inside, y.thr = x.thr ∧ y.chan = x.chan ∧ y.tmo = x.tmo ∧ (y.go = false → x.go = false))
    (hr : ∀ x ∈ a.inside, ∃ y ∈ l, y.thr = x.thr ∧ y.chan = x.chan ∧ y.tmo = x.tmo) (nd : (l.map (·.thr)).Nodup) : TInv { a with inside := l } := by
  refine ⟨?_, ?_, h.lt, ?_, ?_, h.uniq⟩
  · intro m hm
    obtain ⟨x, h1, h2, h3, h4⟩ := h.own m hm
    obtain ⟨y, k1, k2, k3, k4⟩ := hr x h1
    exact ⟨y, k1, by rw [k2, h2], by rw [k3, h3], by rw [k4, h4]⟩
  · intro y hy hd ht hg
    obtain ⟨x, h1, h2, h3, h4, h5⟩ := hl y hy
    rw [h2, h3]
    exact h.run x h1 hd (by rw [← h4]; exact ht) (h5 hg)
  · intro y hy hd ht
    obtain ⟨x, h1, h2, h3, h4, h5⟩ := hl y hy
    exact h.ltx x h1 hd (by rw [← h4]; exact ht)
  · intro y hy z hz hd ht ht'
    obtain ⟨x, h1, h2, _, h4, _⟩ := hl y hy
    obtain ⟨x', h1', h2', _, h4', _⟩ := hl z hz
    have := h.inj x h1 x' h1' hd (by rw [← h4]; exact ht) (by rw [← h4']; exact ht')
    exact nodup_inj nd hy hz (by rw [h2, h2', this])

theorem tinv_step {n : Nat} {a : Abs} (h : TInv a) (nt : (a.inside.map (·.thr)).Nodup) (ex : Exclusive a) (ev : Ev) : TInv (spec n a ev).2 := by
  cases ev with
  | sleep t c b =>
    unfold spec
    simp only
    split
    · exact h
    · split
      · exact h
      · cases b with
        | false =>
          refine ⟨?_, ?_, ?_, ?_, ?_, h.uniq⟩
          · intro m hm
            obtain ⟨x, h1, h2⟩ := h.own m hm
            exact ⟨x, List.mem_cons_of_mem _ h1, h2⟩
          · intro x hx hd ht hg
            rcases List.mem_cons.1 hx with e | e
            · rw [e] at ht; cases ht
            · exact h.run x e hd ht hg
          · intro m hm; exact Nat.lt_succ_of_lt (h.lt m hm)
          · intro x hx hd ht
            rcases List.mem_cons.1 hx with e | e
            · rw [e] at ht; cases ht
            · exact Nat.lt_succ_of_lt (h.ltx x e hd ht)
          · intro x hx y hy hd h1 h2
            rcases List.mem_cons.1 hx with e | e
            · rw [e] at h1; cases h1
            · rcases List.mem_cons.1 hy with e' | e'
              · rw [e'] at h2; cases h2
              · exact h.inj x e y e' hd h1 h2
        | true =>
          simp only [if_true]
          refine ⟨?_, ?_, ?_, ?_, ?_, ?_⟩
          · intro m hm
            rcases List.mem_cons.1 hm with e | e
            · exact ⟨_, List.mem_cons_self, by rw [e], by rw [e], by rw [e]⟩
            · obtain ⟨x, h1, h2⟩ := h.own m e
              exact ⟨x, List.mem_cons_of_mem _ h1, h2⟩
          · intro x hx hd ht hg
            rcases List.mem_cons.1 hx with e | e
            · rw [e] at ht ⊢; cases ht; exact List.mem_cons_self
            · exact List.mem_cons_of_mem _ (h.run x e hd ht hg)
          · intro m hm
            rcases List.mem_cons.1 hm with e | e
            · rw [e]; exact Nat.lt_succ_self _
            · exact Nat.lt_succ_of_lt (h.lt m e)
          · intro x hx hd ht
            rcases List.mem_cons.1 hx with e | e
            · rw [e] at ht; cases ht; exact Nat.lt_succ_self _
            · exact Nat.lt_succ_of_lt (h.ltx x e hd ht)
          · intro x hx y hy hd h1 h2
            rcases List.mem_cons.1 hx with e | e <;> rcases List.mem_cons.1 hy with e' | e'
            · rw [e, e']
            · rw [e] at h1; cases h1; exact absurd (h.ltx y e' _ h2) (Nat.lt_irrefl _)
            · rw [e'] at h2; cases h2; exact absurd (h.ltx x e _ h1) (Nat.lt_irrefl _)
            · exact h.inj x e y e' hd h1 h2
          · intro m hm m' hm' e0
            rcases List.mem_cons.1 hm with e | e <;> rcases List.mem_cons.1 hm' with e' | e'
            · rw [e, e']
            · have := h.lt m' e'; rw [← e0, e] at this; exact absurd this (Nat.lt_irrefl _)
            · have := h.lt m e; rw [e0, e'] at this; exact absurd this (Nat.lt_irrefl _)
            · exact h.uniq m e m' e' e0
  | wake c one =>
    unfold spec
    simp only
    cases one with
    | true =>
      simp only [if_true]
      refine h.map _ ?_ ?_ (by rw [wakeFirst_thr]; exact nt)
      · intro y hy
        rcases (mem_wakeFirst ex y).1 hy with ⟨m, _⟩ | ⟨x, m, _, k2, k3⟩
        · exact ⟨y, m, rfl, rfl, rfl, id⟩
        · exact ⟨x, m, by rw [k3, mark_thr], by rw [k3, mark_chan], by rw [k3]; rfl, fun _ => k2⟩
      · intro x hx
        by_cases k : x.chan = c ∧ x.go = false
        · exact ⟨mark false x, (mem_wakeFirst ex _).2 (.inr ⟨x, hx, k.1, k.2, rfl⟩), mark_thr _ _, mark_chan _ _, rfl⟩
        · exact ⟨x, (mem_wakeFirst ex _).2 (.inl ⟨hx, k⟩), rfl, rfl, rfl⟩
    | false =>
      simp only [Bool.false_eq_true, if_false]
      refine h.map _ ?_ ?_ (by rw [wakeAll_thr]; exact nt)
      · intro y hy
        obtain ⟨x, hx, rfl⟩ := List.mem_map.1 hy
        refine ⟨x, hx, ?_⟩
        split
        · rename_i k; exact ⟨mark_thr _ _, mark_chan _ _, rfl, fun _ => k.2⟩
        · exact ⟨rfl, rfl, rfl, id⟩
      · intro x hx
        refine ⟨_, List.mem_map.2 ⟨x, hx, rfl⟩, ?_⟩
        split
        · exact ⟨mark_thr _ _, mark_chan _ _, rfl⟩
        · exact ⟨rfl, rfl, rfl⟩
  | fire hd =>
    unfold spec
    simp only
    cases hf : a.timers.find? (·.handle = hd) with
    | none => exact h
    | some m =>
      have hm := List.mem_of_find?_eq_some hf
      have hh : m.handle = hd := by simpa using List.find?_some hf
      obtain ⟨w, w1, w2, w3, w4⟩ := h.own m hm
      have only : ∀ x ∈ a.inside, x.chan = m.chan → x = w := fun x hx e => nodup_inj (f := (·.chan)) ex hx w1 (by rw [e, w3])
      refine ⟨?_, ?_, ?_, ?_, ?_, ?_⟩
      · intro m' hm'
        obtain ⟨k1, k2⟩ := List.mem_filter.1 hm'
        have k2 : m'.handle ≠ hd := by simpa using k2
        obtain ⟨x, x1, x2, x3, x4⟩ := h.own m' k1
        refine ⟨x, (mem_wakeFirst ex x).2 (.inl ⟨x1, fun k => ?_⟩), x2, x3, x4⟩
        have := only x x1 k.1
        rw [this, w4, hh] at x4
        exact k2 (by simpa using x4.symm)
      · intro x hx h' ht hg
        rcases (mem_wakeFirst ex x).1 hx with ⟨k1, k2⟩ | ⟨y, _, _, _, k⟩
        · refine List.mem_filter.2 ⟨h.run x k1 h' ht hg, ?_⟩
          have : h' ≠ hd := by
            intro e
            have := h.inj x k1 w w1 h' ht (by rw [w4, hh, e])
            exact k2 ⟨by rw [this, w3], hg⟩
          simpa using this
        · rw [k] at hg; rw [mark_go] at hg; cases hg
      · intro m' hm'; exact h.lt m' (List.mem_filter.1 hm').1
      · intro x hx h' ht
        rcases (mem_wakeFirst ex x).1 hx with ⟨k1, _⟩ | ⟨y, _, _, _, k⟩
        · exact h.ltx x k1 h' ht
        · rw [k] at ht; cases ht
      · intro x hx y hy h' h1 h2
        rcases (mem_wakeFirst ex x).1 hx with ⟨k1, _⟩ | ⟨_, _, _, _, k⟩
        · rcases (mem_wakeFirst ex y).1 hy with ⟨k1', _⟩ | ⟨_, _, _, _, k⟩
          · exact h.inj x k1 y k1' h' h1 h2
          · rw [k] at h2; cases h2
        · rw [k] at h1; cases h1
      · intro m1 hm1 m2 hm2
        exact h.uniq m1 (List.mem_filter.1 hm1).1 m2 (List.mem_filter.1 hm2).1
  | ret t =>
    unfold spec
    simp only
    cases hf : a.inside.find? (·.thr = t) with
    | none => exact h
    | some x =>
      simp only
      by_cases g : x.go = true
      · rw [if_pos g]
        have xm := List.mem_of_find?_eq_some hf
        have xt : x.thr = t := by simpa using List.find?_some hf
        have sub : ∀ y, y ∈ a.inside.eraseP (·.thr = t) → y ∈ a.inside := fun y hy => List.mem_of_mem_eraseP hy
        have keep : ∀ y ∈ a.inside, y ≠ x → y ∈ a.inside.eraseP (·.thr = t) := by
          intro y hy hne
          refine (List.mem_eraseP_of_neg ?_).2 hy
          intro e
          exact hne (nodup_inj (f := (·.thr)) nt hy xm (by rw [xt]; simpa using e))
        have gone : x ∉ a.inside.eraseP (·.thr = t) := by
          intro m
          have : (a.inside.eraseP (·.thr = t)).map (·.thr) = (a.inside.map (·.thr)).erase t := eraseP_thr t _
          have m2 : t ∈ (a.inside.map (·.thr)).erase t := by rw [← this]; exact List.mem_map.2 ⟨x, m, xt⟩
          rw [nt.mem_erase_iff] at m2
          exact m2.1 rfl
        have tf : ∀ m, m ∈ (match x.tmo with | none => a.timers | some h => a.timers.filter (·.handle ≠ h)) ↔ m ∈ a.timers ∧ x.tmo ≠ some m.handle := by
          intro m
          cases x.tmo with
          | none => simp
          | some h' =>
            rw [List.mem_filter]
            simp [eq_comm (a := h')]
        refine ⟨?_, ?_, ?_, ?_, ?_, ?_⟩
        · intro m hm
          obtain ⟨k1, k2⟩ := (tf m).1 hm
          obtain ⟨y, y1, y2, y3, y4⟩ := h.own m k1
          refine ⟨y, keep y y1 (fun e => k2 (by rw [← e, y4])), y2, y3, y4⟩
        · intro y hy h' ht hg
          refine (tf _).2 ⟨h.run y (sub y hy) h' ht hg, fun e => ?_⟩
          have := h.inj y (sub y hy) x xm h' ht e
          exact gone (this ▸ hy)
        · intro m hm; exact h.lt m ((tf m).1 hm).1
        · intro y hy; exact h.ltx y (sub y hy)
        · intro y hy z hz; exact h.inj y (sub y hy) z (sub z hz)
        · intro m1 h1 m2 h2; exact h.uniq m1 ((tf m1).1 h1).1 m2 ((tf m2).1 h2).1
      · rw [if_neg g]; exact h

theorem ExHist.hist {n : Nat} {s : S} (h : ExHist n s) : ∃ l, Hist n l s := by
  induction h with
  | nil => exact ⟨[], .nil⟩
  | cons ev _ _ ih => exact ⟨_, ih.choose_spec.cons ev⟩

theorem ExHist.tinv {n : Nat} {s : S} (h : ExHist n s) : TInv (abs s) ∧ Exclusive (abs s) := by
  induction h with
  | nil =>
    refine ⟨⟨?_, ?_, ?_, ?_, ?_, ?_⟩, List.nodup_nil⟩ <;> (intro m hm; cases hm)
  | @cons s ev h ex ih =>
    obtain ⟨l, hl⟩ := h.hist
    refine ⟨?_, ex⟩
    have r := (step_refines hl.inv ev).2
    have : abs (step s ev).2 = (spec n (abs s) ev).2 := by rw [r]
    rw [this]
    exact tinv_step ih.1 (inside_nodup hl) ih.2 ev

/-- **C102**, as long as no two threads are inside `ofp_msleep` on the same channel: a thread asleep with a timeout has its timer
running; when a timer fires it wakes the thread that started it, with the timeout error, if that thread is asleep, and nobody else.
Missing for the full claim: channels shared by several threads (`timeout_violated`). -/
theorem timeout_exact_partial {n : Nat} {s : S} (h : ExHist n s) :
    (∀ x ∈ (abs s).inside, ∀ hd, x.tmo = some hd → x.go = false → ⟨hd, x.thr, x.chan⟩ ∈ s.timers) ∧
    (∀ m ∈ s.timers, ∀ x, x ∈ (abs (step s (.fire m.handle)).2).inside ↔
      (x ∈ (abs s).inside ∧ ¬ (x.thr = m.owner ∧ x.go = false)) ∨
      (∃ y ∈ (abs s).inside, y.thr = m.owner ∧ y.go = false ∧ x = { y with go := true, byTimer := true, tmo := none })) := by
  obtain ⟨ti, ex⟩ := h.tinv
  obtain ⟨l, hl⟩ := h.hist
  have nt := inside_nodup hl
  refine ⟨ti.run, ?_⟩
  intro m hm x
  have r := (step_refines hl.inv (.fire m.handle)).2
  have e : abs (step s (.fire m.handle)).2 = (spec n (abs s) (.fire m.handle)).2 := by rw [r]
  rw [e]
  unfold spec
  simp only
  cases hf : (abs s).timers.find? (·.handle = m.handle) with
  | none => exact absurd (List.find?_eq_none.1 hf m hm) (by simp)
  | some m' =>
    have em : m' = m := ti.uniq m' (List.mem_of_find?_eq_some hf) m hm (by simpa using List.find?_some hf)
    obtain ⟨w, w1, w2, w3, w4⟩ := ti.own m hm
    simp only [em]
    rw [mem_wakeFirst ex x]
    have same : ∀ y ∈ (abs s).inside, (y.chan = m.chan ↔ y.thr = m.owner) := by
      intro y hy
      constructor
      · intro k; rw [nodup_inj (f := (·.chan)) ex hy w1 (by rw [k, w3])]; exact w2
      · intro k; rw [nodup_inj (f := (·.thr)) nt hy w1 (by rw [k, w2])]; exact w3
    constructor
    · rintro (⟨k1, k2⟩ | ⟨y, k1, k2, k3, k4⟩)
      · exact .inl ⟨k1, fun k => k2 ⟨(same x k1).2 k.1, k.2⟩⟩
      · exact .inr ⟨y, k1, (same y k1).1 k2, k3, k4⟩
    · rintro (⟨k1, k2⟩ | ⟨y, k1, k2, k3, k4⟩)
      · exact .inl ⟨k1, fun k => k2 ⟨(same x k1).1 k.1, k.2⟩⟩
      · exact .inr ⟨y, k1, (same y k1).2 k2, k3, k4⟩

/-- Two threads on different channels, one with a timeout. -/
example : ExHist 4 (run (init 4) [.sleep 1 7 true, .sleep 2 8 false]).2 :=
  .cons _ (.cons _ .nil (by unfold Exclusive; decide)) (by unfold Exclusive; decide)

/-- An event that wakes nobody on channel `c`. -/
def Quiet (s : S) (c : Nat) : Ev → Prop
  | .wake d _ => d ≠ c
  | .fire h => ∀ m ∈ s.timers, m.handle = h → m.chan ≠ c
  | _ => True

/-- A run of such events. -/
def QuietRun : S → Nat → List Ev → Prop
  | _, _, [] => True
  | s, c, e :: l => Quiet s c e ∧ QuietRun (step s e).2 c l

theorem quiet_asleep {n : Nat} {l : Log} {s : S} (h : Hist n l s) {t c : Nat} (ha : Asleep (abs s) t c) (ev : Ev) (hq : Quiet s c ev) :
    Asleep (abs (step s ev).2) t c := by
  have r := (step_refines h.inv ev).2
  have e : abs (step s ev).2 = (spec n (abs s) ev).2 := by rw [r]
  rw [e]
  obtain ⟨x, x1, x2, x3, x4⟩ := ha
  have first : ∀ (d : Nat) (b : Bool), d ≠ c → x ∈ wakeFirst d b (abs s).inside := by
    intro d b hd
    rcases wakeFirst_cases d b (abs s).inside with ⟨_, k⟩ | ⟨l1, y, l2, k1, k2, k3, k4, k5⟩
    · rw [k]; exact x1
    · rw [k5]
      rw [k1] at x1
      rcases List.mem_append.1 x1 with m | m
      · exact List.mem_append.2 (.inl m)
      · rcases List.mem_cons.1 m with m | m
        · exact absurd (by rw [← k3, ← m, x3]) hd
        · exact List.mem_append.2 (.inr (List.mem_cons_of_mem _ m))
  cases ev with
  | sleep t' c' b =>
    unfold spec
    simp only
    split
    · exact ⟨x, x1, x2, x3, x4⟩
    · split
      · exact ⟨x, x1, x2, x3, x4⟩
      · exact ⟨x, List.mem_cons_of_mem _ x1, x2, x3, x4⟩
  | wake d one =>
    have hq : d ≠ c := hq
    unfold spec
    simp only
    cases one with
    | true => exact ⟨x, first d false hq, x2, x3, x4⟩
    | false =>
      refine ⟨x, ?_, x2, x3, x4⟩
      simp only [Bool.false_eq_true, if_false]
      refine List.mem_map.2 ⟨x, x1, ?_⟩
      rw [if_neg (fun k => hq (by rw [← k.1, x3]))]
  | fire hd =>
    unfold spec
    simp only
    cases hf : (abs s).timers.find? (·.handle = hd) with
    | none => exact ⟨x, x1, x2, x3, x4⟩
    | some m =>
      have := hq m (List.mem_of_find?_eq_some hf) (by simpa using List.find?_some hf)
      exact ⟨x, first m.chan true this, x2, x3, x4⟩
  | ret t' =>
    unfold spec
    simp only
    cases hf : (abs s).inside.find? (·.thr = t') with
    | none => exact ⟨x, x1, x2, x3, x4⟩
    | some y =>
      simp only
      by_cases g : y.go = true
      · rw [if_pos g]
        have ym := List.mem_of_find?_eq_some hf
        have yt : y.thr = t' := by simpa using List.find?_some hf
        refine ⟨x, (List.mem_eraseP_of_neg ?_).2 x1, x2, x3, x4⟩
        intro k
        have : x = y := nodup_inj (f := (·.thr)) (inside_nodup h) x1 ym (by rw [yt]; simpa using k)
        rw [this, g] at x4; cases x4
      · rw [if_neg g]; exact ⟨x, x1, x2, x3, x4⟩

theorem quiet_run {n : Nat} {l : Log} {s : S} (h : Hist n l s) {t c : Nat} (ha : Asleep (abs s) t c) (es : List Ev) (hq : QuietRun s c es) :
    Asleep (abs (run s es).2) t c := by
  induction es generalizing l s with
  | nil => exact ha
  | cons e es ih => exact ih (h.cons e) (quiet_asleep h ha e hq.1) hq.2

/-- **C102 violated** on shared channels (all calls of `ofp_select` and `ofp_epoll_wait` share channel 0; several threads reading
one socket share its channel): when the timer of thread `t` fires and another thread `u` went to sleep on the channel after `t`,
then `u` returns with a timeout it may not have asked for, `t` sleeps on, its timer is gone, and `t` is not woken by anything but
another wakeup or timer of the channel. -/
theorem timeout_violated {n : Nat} {l : Log} {s : S} (h : Hist n l s) {l1 l2 : List Rec} {x y : Rec} {m : Tmr}
    (hm : s.timers.find? (·.handle = m.handle) = some m) (hi : (abs s).inside = l1 ++ x :: l2)
    (h1 : ∀ z ∈ l1, ¬ (z.chan = m.chan ∧ z.go = false)) (hx : x.chan = m.chan ∧ x.go = false) (hy : y ∈ l2)
    (ho : y.thr = m.owner ∧ y.chan = m.chan ∧ y.go = false) (es : List Ev) (hq : QuietRun (step s (.fire m.handle)).2 m.chan es) :
    Woken (abs (step s (.fire m.handle)).2) x.thr true ∧ (∀ m' ∈ (step s (.fire m.handle)).2.timers, m'.handle ≠ m.handle) ∧
    Asleep (abs (run (step s (.fire m.handle)).2 es).2) m.owner m.chan ∧
    (step (run (step s (.fire m.handle)).2 es).2 (.ret m.owner)).1 = .blocked := by
  have r := (step_refines h.inv (.fire m.handle)).2
  have e : abs (step s (.fire m.handle)).2 = (spec n (abs s) (.fire m.handle)).2 := by rw [r]
  have e2 : (spec n (abs s) (.fire m.handle)).2 = { abs s with inside := wakeFirst m.chan true (abs s).inside, timers := s.timers.filter (·.handle ≠ m.handle) } := by
    unfold spec
    simp only
    have : (abs s).timers = s.timers := rfl
    rw [this, hm]
  have e3 : wakeFirst m.chan true (abs s).inside = l1 ++ mark true x :: l2 := by
    rw [hi]
    clear e e2 r hi
    induction l1 with
    | nil => simp only [List.nil_append, wakeFirst]; rw [if_pos hx]
    | cons a l1 ih =>
      simp only [List.cons_append, wakeFirst]
      rw [if_neg (h1 a List.mem_cons_self), ih (fun z hz => h1 z (List.mem_cons_of_mem _ hz))]
  rw [e2, e3] at e
  have ha : Asleep (abs (step s (.fire m.handle)).2) m.owner m.chan := by
    rw [e]; exact ⟨y, by simp [hy], ho.1, ho.2⟩
  have hs := h.cons (.fire m.handle)
  have hb := quiet_run hs ha es hq
  obtain ⟨l', hl'⟩ := hist_run hs es
  refine ⟨?_, ?_, hb, ?_⟩
  · rw [e]; exact ⟨mark true x, by simp, mark_thr _ _, mark_go _ _, rfl⟩
  · intro m' hm'
    have : (step s (.fire m.handle)).2.timers = (abs (step s (.fire m.handle)).2).timers := rfl
    rw [this, e] at hm'
    simpa using (List.mem_filter.1 hm').2
  · generalize (run (step s (.fire m.handle)).2 es).2 = q at *
    have r := (step_refines hl'.inv (.ret m.owner)).2
    have r1 : (step q (.ret m.owner)).1 = (spec n (abs q) (.ret m.owner)).1 := by rw [r]
    rw [r1]
    unfold spec
    simp only
    obtain ⟨z, z1, z2, z3, z4⟩ := hb
    cases hf : (abs q).inside.find? (·.thr = m.owner) with
    | none => rfl
    | some w =>
      have : w = z := nodup_inj (f := (·.thr)) (inside_nodup hl') (List.mem_of_find?_eq_some hf) z1 (by rw [z2]; simpa using List.find?_some hf)
      simp only
      rw [this, if_neg (by rw [z4]; simp)]

/-- Thread 1 in `ofp_select` with a timeout, thread 2 in `ofp_select` without one: the timer of 1 wakes 2. -/
example : (run (init 4) [.sleep 1 0 true, .sleep 2 0 false, .fire 0, .ret 1, .ret 2, .fire 0, .ret 1]).1 =
    [.sleeping, .sleeping, .none, .blocked, .woke true, .blocked, .blocked] := by decide

/-- **C102 violated**: thread 1 is woken in time, but before it returns its timer fires: thread 2, which sleeps without a timeout on
the same channel, returns with a timeout error. -/
theorem late_timer_violated : (run (init 4) [.sleep 1 7 true, .wake 7 false, .sleep 2 7 false, .fire 0, .ret 1, .ret 2]).1 =
    [.sleeping, .none, .sleeping, .none, .woke false, .woke true] := by decide

end Verif.Sleep

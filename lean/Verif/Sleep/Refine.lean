import Verif.Sleep.Spec
/-! # The code refines the specification -/
namespace Verif.Sleep

/-- What a state means. -/
def abs (s : S) : Abs := ⟨s.held.map s.mem, s.timers, s.next⟩

/-- Invariant: the records are in use or free, each once; `sleep_list` has the records in use whose flag is not set. -/
structure Inv (n : Nat) (s : S) : Prop where
  perm : (s.held ++ s.free).Perm (List.range n)
  list : s.list = s.held.filter fun r => !(s.mem r).go
  thr : (s.held.map fun r => (s.mem r).thr).Nodup

theorem Inv.nodup {n : Nat} {s : S} (h : Inv n s) : (s.held ++ s.free).Nodup := h.perm.symm.nodup List.nodup_range

theorem Inv.init (n : Nat) : Inv n (init n) := ⟨List.Perm.refl _, rfl, List.nodup_nil⟩

theorem put_same (mem : Nat → Rec) (i : Nat) (x : Rec) : put mem i x i = x := by simp [put]
theorem put_other (mem : Nat → Rec) (i : Nat) (x : Rec) {j : Nat} (h : j ≠ i) : put mem i x j = mem j := by simp [put, h]

theorem mark_go (t : Bool) (x : Rec) : (mark t x).go = true := by unfold mark; split <;> rfl
theorem mark_thr (t : Bool) (x : Rec) : (mark t x).thr = x.thr := by unfold mark; split <;> rfl
theorem mark_chan (t : Bool) (x : Rec) : (mark t x).chan = x.chan := by unfold mark; split <;> rfl

theorem map_put {mem : Nat → Rec} {i : Nat} {x : Rec} {l : List Nat} (h : i ∉ l) : l.map (put mem i x) = l.map mem := by
  apply List.map_congr_left
  intro a ha
  exact put_other _ _ _ (fun e => h (e ▸ ha))

theorem filter_put {mem : Nat → Rec} {i : Nat} {x : Rec} {l : List Nat} (h : i ∉ l) :
    (l.filter fun r => !(put mem i x r).go) = l.filter fun r => !(mem r).go := by
  apply List.filter_congr
  intro a ha
  have : a ≠ i := fun e => h (e ▸ ha)
  rw [put_other _ _ _ this]

/-- The loop does not touch records outside the list. -/
theorem wakeLoop_other (c : Nat) (one tmo : Bool) (l : List Nat) : ∀ (mem : Nat → Rec) (j : Nat), j ∉ l → (wakeLoop c one tmo mem l).1 j = mem j := by
  induction l with
  | nil => intro mem j _; rfl
  | cons p r ih =>
    intro mem j hj
    simp only [List.mem_cons, not_or] at hj
    unfold wakeLoop
    simp only
    split
    · split
      · exact put_other _ _ _ hj.1
      · rw [ih _ _ hj.2, put_other _ _ _ hj.1]
    · exact ih _ _ hj.2

theorem wakeLoop_thr (c : Nat) (one tmo : Bool) (l : List Nat) : ∀ (mem : Nat → Rec) (j : Nat), ((wakeLoop c one tmo mem l).1 j).thr = (mem j).thr := by
  induction l with
  | nil => intro mem j; rfl
  | cons p r ih =>
    intro mem j
    have hp : (put mem p (mark tmo (mem p)) j).thr = (mem j).thr := by
      unfold put; split
      · rename_i e; rw [mark_thr, e]
      · rfl
    unfold wakeLoop
    simp only
    split
    · split
      · exact hp
      · rw [ih, hp]
    · exact ih _ _

/-- The loop on the list of those asleep does what the specification says to all those inside. -/
theorem wakeLoop_spec (c : Nat) (one tmo : Bool) (h : List Nat) : ∀ (mem : Nat → Rec), h.Nodup →
    h.map (wakeLoop c one tmo mem (h.filter fun r => !(mem r).go)).1 =
      (if one then wakeFirst c tmo (h.map mem) else wakeAll c tmo (h.map mem)) ∧
    (wakeLoop c one tmo mem (h.filter fun r => !(mem r).go)).2 =
      h.filter fun r => !((wakeLoop c one tmo mem (h.filter fun r => !(mem r).go)).1 r).go := by
  induction h with
  | nil => intro mem _; cases one <;> exact ⟨rfl, rfl⟩
  | cons p r ih =>
    intro mem nd
    obtain ⟨np, nd⟩ := List.nodup_cons.1 nd
    by_cases g : (mem p).go = true
    · rw [List.filter_cons_of_neg (by simp [g])]
      obtain ⟨i1, i2⟩ := ih mem nd
      have hp : (wakeLoop c one tmo mem (r.filter fun r => !(mem r).go)).1 p = mem p :=
        wakeLoop_other _ _ _ _ _ _ (fun m => np (List.mem_filter.1 m).1)
      rw [List.map_cons, hp, i1, List.filter_cons_of_neg (by simp [hp, g]), ← i2]
      refine ⟨?_, rfl⟩
      cases one
      · simp [wakeAll, g]
      · simp [wakeFirst, g]
    · have g : (mem p).go = false := by simpa using g
      rw [List.filter_cons_of_pos (by simp [g])]
      unfold wakeLoop
      by_cases hc : (mem p).chan = c
      · simp only [hc, if_true]
        cases one
        · simp only [Bool.false_eq_true, if_false]
          rw [← filter_put (mem := mem) (x := mark tmo (mem p)) np]
          obtain ⟨i1, i2⟩ := ih (put mem p (mark tmo (mem p))) nd
          have hp : (wakeLoop c false tmo (put mem p (mark tmo (mem p))) (r.filter fun r => !(put mem p (mark tmo (mem p)) r).go)).1 p = mark tmo (mem p) := by
            rw [wakeLoop_other _ _ _ _ _ _ (fun m => np (List.mem_filter.1 m).1), put_same]
          rw [List.map_cons, hp, i1, List.filter_cons_of_neg (by simp [hp, mark_go]), ← i2, map_put np]
          simp [wakeAll, hc, g]
        · simp only [if_true]
          rw [List.map_cons, put_same, map_put np, List.filter_cons_of_neg (by simp [put_same, mark_go]), filter_put np]
          simp [wakeFirst, hc, g]
      · simp only [hc, if_false]
        obtain ⟨i1, i2⟩ := ih mem nd
        have hp : (wakeLoop c one tmo mem (r.filter fun r => !(mem r).go)).1 p = mem p :=
          wakeLoop_other _ _ _ _ _ _ (fun m => np (List.mem_filter.1 m).1)
        rw [List.map_cons, hp, i1, List.filter_cons_of_pos (by simp [hp, g]), ← i2]
        refine ⟨?_, rfl⟩
        cases one
        · simp [wakeAll, hc]
        · simp [wakeFirst, hc]

theorem wake_ok {n : Nat} {s : S} (h : Inv n s) (c : Nat) (one tmo : Bool) :
    Inv n (wake s c one tmo) ∧ abs (wake s c one tmo) = { abs s with inside := if one then wakeFirst c tmo (abs s).inside else wakeAll c tmo (abs s).inside } := by
  have nd : s.held.Nodup := (List.nodup_append.1 h.nodup).1
  obtain ⟨a, b⟩ := wakeLoop_spec c one tmo s.held s.mem nd
  rw [← h.list] at a b
  refine ⟨⟨h.perm, b, ?_⟩, ?_⟩
  · show (s.held.map fun r => ((wakeLoop c one tmo s.mem s.list).1 r).thr).Nodup
    have : (fun r => ((wakeLoop c one tmo s.mem s.list).1 r).thr) = fun r => (s.mem r).thr := funext (wakeLoop_thr _ _ _ _ _)
    rw [this]; exact h.thr
  · unfold wake abs
    simp only
    rw [a]

theorem find_map (mem : Nat → Rec) (t : Nat) (l : List Nat) :
    (l.map mem).find? (·.thr = t) = (l.find? fun r => (mem r).thr = t).map mem := by
  rw [List.find?_map]; rfl

theorem erase_map (mem : Nat → Rec) (t : Nat) (l : List Nat) (nd : (l.map fun r => (mem r).thr).Nodup) (p : Nat)
    (hp : (l.find? fun r => (mem r).thr = t) = some p) : (l.erase p).map mem = (l.map mem).eraseP (·.thr = t) := by
  induction l with
  | nil => cases hp
  | cons a l ih =>
    simp only [List.map_cons] at nd ⊢
    obtain ⟨na, nd⟩ := List.nodup_cons.1 nd
    by_cases c : (mem a).thr = t
    · rw [List.find?_cons_of_pos (by simpa using c)] at hp
      cases hp
      rw [List.erase_cons_head, List.eraseP_cons_of_pos (by simpa using c)]
    · rw [List.find?_cons_of_neg (by simpa using c)] at hp
      have hpt := List.find?_some hp
      have hpm := List.mem_of_find?_eq_some hp
      have : a ≠ p := by
        intro e; subst e
        exact c (by simpa using hpt)
      rw [List.erase_cons_tail (by simpa using this), List.eraseP_cons_of_neg (by simpa using c), List.map_cons, ih nd hp]

/-- **Refinement**: every event has the same result in the code and in the specification, and leads to related states. -/
theorem step_refines {n : Nat} {s : S} (h : Inv n s) (ev : Ev) :
    Inv n (step s ev).2 ∧ spec n (abs s) ev = ((step s ev).1, abs (step s ev).2) := by
  have hl : s.held.length + s.free.length = n := by
    have := h.perm.length_eq
    simpa using this
  have nd := h.nodup
  obtain ⟨ndh, ndf, ndx⟩ := List.nodup_append.1 nd
  cases ev with
  | sleep t c timed =>
    have ha : (abs s).inside.any (·.thr = t) = (recOf s t).isSome := by
      unfold abs recOf
      rw [List.any_map, Bool.eq_iff_iff, List.find?_isSome, List.any_eq_true]
      simp
    unfold step spec
    simp only [ha]
    cases hr : recOf s t with
    | some p => exact ⟨h, rfl⟩
    | none =>
      simp only [Option.isSome_none, Bool.false_eq_true, if_false]
      cases hf : s.free with
      | nil =>
        rw [hf] at hl
        have he : (abs s).inside.length = n := by simpa [abs] using hl
        refine ⟨h, ?_⟩
        rw [if_pos he]
      | cons p r =>
        rw [hf] at hl nd
        have hne : (abs s).inside.length ≠ n := by simp [abs] at hl ⊢; omega
        rw [if_neg hne]
        have ph : p ∉ s.held := fun m => ndx p m p (by rw [hf]; exact List.mem_cons_self) rfl
        refine ⟨⟨?_, ?_, ?_⟩, ?_⟩
        · have := h.perm
          rw [hf] at this
          refine List.Perm.trans ?_ this
          show (p :: s.held ++ r).Perm (s.held ++ p :: r)
          exact List.perm_middle.symm
        · show p :: s.list = (p :: s.held).filter _
          rw [List.filter_cons_of_pos (by simp [put_same]), filter_put ph, h.list]
        · show (((p :: s.held).map fun r => (put s.mem p _ r).thr)).Nodup
          rw [List.map_cons, put_same]
          have e : (s.held.map fun r => (put s.mem p ⟨t, c, false, false, if timed then some s.next else none⟩ r).thr) = s.held.map fun r => (s.mem r).thr := by
            apply List.map_congr_left
            intro a ha
            have : a ≠ p := fun e => ph (e ▸ ha)
            rw [put_other _ _ _ this]
          rw [e]
          refine List.nodup_cons.2 ⟨?_, h.thr⟩
          intro m
          obtain ⟨r', m1, m2⟩ := List.mem_map.1 m
          have := List.find?_eq_none.1 hr r' m1
          exact this (by simpa using m2)
        · unfold abs
          simp only
          rw [List.map_cons, put_same, map_put ph]
  | wake c one =>
    obtain ⟨a, b⟩ := wake_ok h c one false
    refine ⟨a, ?_⟩
    show (Res.none, _) = (Res.none, abs (wake s c one false))
    rw [b]
  | fire hd =>
    unfold step spec
    simp only
    have ht : (abs s).timers = s.timers := rfl
    rw [ht]
    cases s.timers.find? (·.handle = hd) with
    | none => exact ⟨h, rfl⟩
    | some m =>
      have h1 : Inv n { s with timers := s.timers.filter (·.handle ≠ hd) } := ⟨h.perm, h.list, h.thr⟩
      obtain ⟨a, b⟩ := wake_ok h1 m.chan true true
      exact ⟨a, by rw [b]; rfl⟩
  | ret t =>
    unfold step spec
    simp only
    have hfm : (abs s).inside.find? (·.thr = t) = (recOf s t).map s.mem := find_map _ _ _
    rw [hfm]
    cases hr : recOf s t with
    | none => exact ⟨h, rfl⟩
    | some p =>
      simp only [Option.map_some]
      by_cases g : (s.mem p).go = true
      · rw [if_pos g, if_pos g]
        have pm : p ∈ s.held := List.mem_of_find?_eq_some hr
        refine ⟨⟨?_, ?_, ?_⟩, ?_⟩
        · show (s.held.erase p ++ p :: s.free).Perm _
          refine List.Perm.trans ?_ h.perm
          refine List.Perm.trans List.perm_middle ?_
          exact List.Perm.append_right _ (List.perm_cons_erase pm).symm
        · show s.list = (s.held.erase p).filter _
          rw [h.list]
          have : ∀ l : List Nat, l.Nodup → (l.filter fun r => !(s.mem r).go) = (l.erase p).filter fun r => !(s.mem r).go := by
            intro l hl
            rw [hl.erase_eq_filter, List.filter_filter]
            apply List.filter_congr
            intro a ha
            by_cases e : a = p
            · rw [e, g]; simp
            · simp [e]
          exact this _ ndh
        · exact h.thr.sublist (List.Sublist.map _ List.erase_sublist)
        · unfold abs
          simp only
          rw [erase_map s.mem t s.held h.thr p hr]
          rfl
      · rw [if_neg g, if_neg g]
        exact ⟨h, rfl⟩

/-- Every history of the code has the results the specification gives. -/
theorem run_refines {n : Nat} (l : List Ev) : ∀ {s : S}, Inv n s → Inv n (run s l).2 ∧ runSpec n (abs s) l = ((run s l).1, abs (run s l).2) := by
  induction l with
  | nil => intro s h; exact ⟨h, rfl⟩
  | cons e l ih =>
    intro s h
    obtain ⟨a, b⟩ := step_refines h e
    obtain ⟨c, d⟩ := ih a
    refine ⟨c, ?_⟩
    unfold runSpec run
    simp only
    rw [b]
    simp only
    rw [d]

end Verif.Sleep

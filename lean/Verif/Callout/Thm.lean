import Verif.Callout.Model

/-!
# Theorems about the timers of TCP connections
-/

namespace Verif.Callout

variable {delack : Nat → Bool}

/-- Runs of callout `c` in a log. -/
def runsOf (c : Nat) (l : List Run) : List Run := l.filter (fun r => r.c = c)

/-- Armings of callout `c` in a history. -/
def armings (c : Nat) (ops : List Op) : Nat :=
  (ops.filter (fun o => match o with | .reset c' _ _ => c' = c | _ => false)).length

theorem upd_same {α : Type} (f : Nat → α) (i : Nat) (v : α) : upd f i v i = v := by simp [upd]
theorem upd_ne {α : Type} (f : Nat → α) {i j : Nat} (v : α) (h : j ≠ i) : upd f i v j = f j := by simp [upd, h]

theorem cancel_eq (tim : Nat → TSt) (o : Option Nat) (h : Nat) :
    cancel tim o h = tim h ∨ (cancel tim o h = .free ∧ o = some h ∧ ∃ t c, tim h = .armed t c) := by
  unfold cancel
  match o with
  | none => exact .inl rfl
  | some k =>
    dsimp only
    match e : tim k with
    | .armed t c =>
      dsimp only
      by_cases hk : h = k
      · subst hk; rw [upd_same]; exact .inr ⟨rfl, rfl, t, c, e⟩
      · rw [upd_ne _ _ hk]; exact .inl rfl
    | .free => exact .inl rfl
    | .queued _ => exact .inl rfl
    | .running _ => exact .inl rfl

/-- After a cancel the handle is not running any more. -/
theorem cancel_self (tim : Nat → TSt) (h : Nat) (t c : Nat) : cancel tim (some h) h ≠ .armed t c := by
  unfold cancel
  dsimp only
  match e : tim h with
  | .armed _ _ => dsimp only; rw [upd_same]; intro x; cases x
  | .free => dsimp only; rw [e]; intro x; cases x
  | .queued _ => dsimp only; rw [e]; intro x; cases x
  | .running _ => dsimp only; rw [e]; intro x; cases x

/-! ## Cases of one step -/

theorem step_expire (s : St) (h : Nat) : step delack s (.expire h) = s ∨
    ∃ t c, s.tim h = .armed t c ∧ t ≤ s.now ∧ step delack s (.expire h) = { s with tim := upd s.tim h (.queued c) } := by
  show (match s.tim h with | .armed t c => if t ≤ s.now then { s with tim := upd s.tim h (.queued c) } else s | _ => s) = s ∨ ∃ t c, s.tim h = .armed t c ∧ t ≤ s.now ∧ (match s.tim h with | .armed t c => if t ≤ s.now then { s with tim := upd s.tim h (.queued c) } else s | _ => s) = { s with tim := upd s.tim h (.queued c) }
  match e : s.tim h with
  | .armed t c =>
    dsimp only
    by_cases ht : t ≤ s.now
    · rw [if_pos ht]; exact .inr ⟨t, c, rfl, ht, rfl⟩
    · rw [if_neg ht]; exact .inl rfl
  | .free => exact .inl rfl
  | .queued _ => exact .inl rfl
  | .running _ => exact .inl rfl

theorem step_handle (s : St) (h : Nat) : step delack s (.handle h) = s ∨
    ∃ c tmo, s.tim h = .queued c ∧ (tmo = (s.co c).tmo ∨ tmo = none) ∧
      (((s.co c).act = true ∧ step delack s (.handle h) =
          { s with tim := upd s.tim h (.running c), co := upd s.co c ⟨tmo, false, none⟩, log := ⟨c, s.now, (s.co c).due⟩ :: s.log }) ∨
       ((s.co c).act = false ∧ step delack s (.handle h) =
          { s with tim := upd s.tim h (.running c), co := upd s.co c ⟨tmo, false, (s.co c).due⟩ })) := by
  unfold step
  dsimp only
  match e : s.tim h with
  | .queued c =>
    right
    dsimp only
    cases hd : delack c <;> cases ha : (s.co c).act
    · refine ⟨c, _, rfl, .inl rfl, .inr ⟨ha, ?_⟩⟩
      have he : (⟨(s.co c).tmo, false, (s.co c).due⟩ : Co) = s.co c := by rw [← ha]
      rw [he]
      simp [ha]
    · refine ⟨c, _, rfl, .inl rfl, .inl ⟨ha, ?_⟩⟩
      simp [ha]
    · refine ⟨c, none, rfl, .inr rfl, .inr ⟨ha, ?_⟩⟩
      simp
    · refine ⟨c, none, rfl, .inr rfl, .inl ⟨ha, ?_⟩⟩
      simp
  | .free => exact .inl rfl
  | .armed _ _ => exact .inl rfl
  | .running _ => exact .inl rfl

theorem step_finish (s : St) (h : Nat) : step delack s (.finish h) = s ∨
    ∃ c, s.tim h = .running c ∧ step delack s (.finish h) = { s with tim := upd s.tim h .free } := by
  unfold step
  dsimp only
  match e : s.tim h with
  | .running c => exact .inr ⟨c, rfl, rfl⟩
  | .free => exact .inl rfl
  | .armed _ _ => exact .inl rfl
  | .queued _ => exact .inl rfl

theorem step_reset (s : St) (c d : Nat) (oh : Option Nat) :
    (∃ h, oh = some h ∧ cancel s.tim (s.co c).tmo h = .free ∧ step delack s (.reset c d oh) =
      { s with tim := upd (cancel s.tim (s.co c).tmo) h (.armed (s.now + d) c), co := upd s.co c ⟨some h, true, some (s.now + d)⟩ }) ∨
    ((∀ h, oh = some h → cancel s.tim (s.co c).tmo h ≠ .free) ∧ step delack s (.reset c d oh) =
      { s with tim := cancel s.tim (s.co c).tmo, co := upd s.co c ⟨none, true, some (s.now + d)⟩ }) := by
  unfold step
  dsimp only
  match oh with
  | none => exact .inr ⟨fun h e => (by cases e), rfl⟩
  | some h =>
    by_cases hf : cancel s.tim (s.co c).tmo h = .free
    · dsimp only; rw [if_pos hf]; exact .inl ⟨h, rfl, hf, rfl⟩
    · dsimp only; rw [if_neg hf]; exact .inr ⟨fun h' e => (by cases e; exact hf), rfl⟩

theorem run_cons (s : St) (o : Op) (ops : List Op) : run delack s (o :: ops) = run delack (step delack s o) ops := rfl

theorem run_append (s : St) (a b : List Op) : run delack s (a ++ b) = run delack (run delack s a) b := by
  unfold run; rw [List.foldl_append]

/-! ## Stopped timers do not run (C139) -/

/-- **C139.**  From the moment a timer is stopped, whatever events of it are still under way and
whatever all the other timers do, its function does nothing until it is armed again. -/
theorem stopped_does_not_run (s : St) (c : Nat) (ops : List Op) (hno : ∀ o ∈ ops, ∀ d h, o ≠ .reset c d h) :
    runsOf c (run delack (step delack s (.stop c)) ops).log = runsOf c s.log := by
  have key : ∀ ops : List Op, (∀ o ∈ ops, ∀ d h, o ≠ .reset c d h) → ∀ s : St, (s.co c).act = false →
      runsOf c (run delack s ops).log = runsOf c s.log := by
    intro ops
    induction ops with
    | nil => intro _ s _; rfl
    | cons o ops ih =>
      intro hno s ha
      rw [run_cons]
      have h1 := hno o List.mem_cons_self
      have h2 : ∀ o ∈ ops, ∀ d h, o ≠ .reset c d h := fun o' h' => hno o' (List.mem_cons_of_mem _ h')
      suffices hs : ((step delack s o).co c).act = false ∧ runsOf c (step delack s o).log = runsOf c s.log by
        rw [ih h2 _ hs.1, hs.2]
      cases o with
      | pass d => exact ⟨ha, rfl⟩
      | expire h =>
        rcases step_expire (delack := delack) s h with e | ⟨t, k, _, _, e⟩
        · rw [e]; exact ⟨ha, rfl⟩
        · rw [e]; exact ⟨ha, rfl⟩
      | handle h =>
        rcases step_handle (delack := delack) s h with e | ⟨k, tmo, _, _, ⟨hk, e⟩ | ⟨hk, e⟩⟩
        · rw [e]; exact ⟨ha, rfl⟩
        · rw [e]
          have hck : c ≠ k := by intro x; subst x; rw [ha] at hk; cases hk
          refine ⟨?_, ?_⟩
          · show (upd s.co k _ c).act = false
            rw [upd_ne _ _ hck]; exact ha
          · unfold runsOf
            rw [List.filter_cons_of_neg]
            simp only [decide_eq_true_eq]
            exact fun x => hck x.symm
        · rw [e]
          refine ⟨?_, rfl⟩
          show (upd s.co k _ c).act = false
          by_cases hck : c = k
          · subst hck; rw [upd_same]
          · rw [upd_ne _ _ hck]; exact ha
      | finish h =>
        rcases step_finish (delack := delack) s h with e | ⟨k, _, e⟩
        · rw [e]; exact ⟨ha, rfl⟩
        · rw [e]; exact ⟨ha, rfl⟩
      | reset k d oh =>
        have hck : c ≠ k := by intro x; subst x; exact h1 d oh rfl
        rcases step_reset (delack := delack) s k d oh with ⟨h, _, _, e⟩ | ⟨_, e⟩ <;>
        · rw [e]
          refine ⟨?_, rfl⟩
          show (upd s.co k _ c).act = false
          rw [upd_ne _ _ hck]; exact ha
      | stop k =>
        refine ⟨?_, rfl⟩
        show (upd s.co k _ c).act = false
        by_cases hck : c = k
        · subst hck; rw [upd_same]
        · rw [upd_ne _ _ hck]; exact ha
  refine key ops hno _ ?_
  show (upd s.co c _ c).act = false
  rw [upd_same]

/-- An event is waiting for the stopped timer, which would otherwise have run. -/
example : (run (fun _ => false) init [.reset 7 5 (some 0), .pass 5, .expire 0]).tim 0 = .queued 7 ∧
    (run (fun _ => false) init [.reset 7 5 (some 0), .pass 5, .expire 0, .handle 0]).log = [⟨7, 5, some 5⟩] ∧
    (run (fun _ => false) init [.reset 7 5 (some 0), .pass 5, .expire 0, .stop 7, .handle 0]).log = [] := by decide

/-- **C139.**  A timer runs at most once for each time it is armed, whatever happens. -/
theorem at_most_once (ops : List Op) (c : Nat) : (runsOf c (run delack init ops).log).length ≤ armings c ops := by
  have key : ∀ ops : List Op, ∀ s : St,
      (runsOf c (run delack s ops).log).length + (if ((run delack s ops).co c).act then 1 else 0) ≤
      (runsOf c s.log).length + (if (s.co c).act then 1 else 0) + armings c ops := by
    intro ops
    induction ops with
    | nil => intro s; show _ ≤ _ + 0; exact Nat.le_refl _
    | cons o ops ih =>
      intro s
      rw [run_cons]
      have h0 := ih (step delack s o)
      have hadd : armings c (o :: ops) = armings c [o] + armings c ops := by
        unfold armings
        rw [show o :: ops = [o] ++ ops from rfl, List.filter_append, List.length_append]
      suffices hs : (runsOf c (step delack s o).log).length + (if ((step delack s o).co c).act then 1 else 0) ≤
          (runsOf c s.log).length + (if (s.co c).act then 1 else 0) + armings c [o] by omega
      have same : ∀ s' : St, s'.log = s.log → ((s'.co c).act = true → (s.co c).act = true) →
          (runsOf c s'.log).length + (if (s'.co c).act then 1 else 0) ≤ (runsOf c s.log).length + (if (s.co c).act then 1 else 0) + armings c [o] := by
        intro s' hl hc
        rw [hl]
        by_cases h1 : (s'.co c).act = true
        · rw [if_pos h1, if_pos (hc h1)]; omega
        · rw [if_neg h1]; omega
      cases o with
      | pass d => exact same _ rfl (fun h => h)
      | expire h =>
        rcases step_expire (delack := delack) s h with e | ⟨t, k, _, _, e⟩ <;>
        · rw [e]; exact same _ rfl (fun h => h)
      | handle h =>
        rcases step_handle (delack := delack) s h with e | ⟨k, tmo, _, _, ⟨hk, e⟩ | ⟨hk, e⟩⟩
        · rw [e]; exact same _ rfl (fun h => h)
        · rw [e]
          by_cases hck : c = k
          · subst hck
            show (runsOf c (_ :: s.log)).length + (if (upd s.co c _ c).act then 1 else 0) ≤ _
            rw [upd_same, if_pos hk]
            unfold runsOf
            rw [List.filter_cons_of_pos (by simp)]
            simp only [List.length_cons, Bool.false_eq_true, if_false]
            omega
          · show (runsOf c (_ :: s.log)).length + (if (upd s.co k _ c).act then 1 else 0) ≤ _
            rw [upd_ne _ _ hck]
            unfold runsOf
            rw [List.filter_cons_of_neg (by simp only [decide_eq_true_eq]; exact fun x => hck x.symm)]
            omega
        · rw [e]
          refine same _ rfl ?_
          show (upd s.co k _ c).act = true → _
          by_cases hck : c = k
          · subst hck; rw [upd_same]; intro x; cases x
          · rw [upd_ne _ _ hck]; exact fun h => h
      | finish h =>
        rcases step_finish (delack := delack) s h with e | ⟨k, _, e⟩ <;>
        · rw [e]; exact same _ rfl (fun h => h)
      | reset k d oh =>
        by_cases hck : c = k
        · subst hck
          have ha : armings c [.reset c d oh] = 1 := by simp [armings]
          rw [ha]
          rcases step_reset (delack := delack) s c d oh with ⟨h, _, _, e⟩ | ⟨_, e⟩ <;>
          · rw [e]
            show (runsOf c s.log).length + (if (upd s.co c _ c).act then 1 else 0) ≤ _
            rw [upd_same]
            simp only [if_true]
            omega
        · rcases step_reset (delack := delack) s k d oh with ⟨h, _, _, e⟩ | ⟨_, e⟩ <;>
          · rw [e]
            refine same _ rfl ?_
            show (upd s.co k _ c).act = true → _
            rw [upd_ne _ _ hck]; exact fun h => h
      | stop k =>
        refine same _ rfl ?_
        show (upd s.co k _ c).act = true → _
        by_cases hck : c = k
        · subst hck; rw [upd_same]; intro x; cases x
        · rw [upd_ne _ _ hck]; exact fun h => h
  have := key ops init
  simp only [init, runsOf, List.filter_nil, List.length_nil] at this
  have h2 : (runsOf c (run delack init ops).log).length ≤ armings c ops := by
    have h3 : (runsOf c (run delack init ops).log).length + (if ((run delack init ops).co c).act then 1 else 0) ≤ 0 + 0 + armings c ops := this
    omega
  exact h2

/-- The bound is met: two armings, two runs; re-armed before it ran: one run. -/
example : armings 1 [.reset 1 5 (some 0), .pass 5, .expire 0, .handle 0, .finish 0, .reset 1 5 (some 0), .pass 5, .expire 0, .handle 0] = 2 ∧
    (runsOf 1 (run (fun _ => false) init [.reset 1 5 (some 0), .pass 5, .expire 0, .handle 0, .finish 0, .reset 1 5 (some 0), .pass 5, .expire 0, .handle 0]).log).length = 2 ∧
    (runsOf 1 (run (fun _ => false) init [.reset 1 5 (some 0), .pass 3, .reset 1 5 (some 0), .pass 5, .expire 0, .handle 0]).log).length = 1 := by decide

end Verif.Callout

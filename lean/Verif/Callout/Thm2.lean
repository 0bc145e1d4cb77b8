import Verif.Callout.Thm

/-!
# Timers run on time, and are not lost
-/

namespace Verif.Callout

variable {delack : Nat → Bool}

/-- Callout `c` is never armed or stopped while an event of it is waiting in the queue. -/
def Calm (delack : Nat → Bool) (c : Nat) : St → List Op → Prop
  | _, [] => True
  | s, o :: ops =>
    ((∀ d h, o = .reset c d h → ∀ k, s.tim k ≠ .queued c) ∧ (o = .stop c → ∀ k, s.tim k ≠ .queued c)) ∧
    Calm delack c (step delack s o) ops

/-- Whenever an ODP timer is released after its callback, the callout it belonged to has been armed
again or stopped in the meantime: no callout remembers the handle. -/
def Renewed (delack : Nat → Bool) : St → List Op → Prop
  | _, [] => True
  | s, o :: ops => (∀ h k, o = .finish h → s.tim h = .running k → ∀ c, (s.co c).tmo ≠ some h) ∧
    Renewed delack (step delack s o) ops

/-- The pool of timers is never found empty when `c` is armed. -/
def PoolOk (delack : Nat → Bool) (c : Nat) : St → List Op → Prop
  | _, [] => True
  | s, o :: ops => (∀ d oh, o = .reset c d oh → ∃ h, oh = some h ∧ s.tim h = .free) ∧ PoolOk delack c (step delack s o) ops

/-! ## On time -/

/-- What a calm callout looks like. -/
structure CalmInv (c : Nat) (s : St) : Prop where
  armed : ∀ h t, s.tim h = .armed t c → (s.co c).tmo = some h ∧ (∀ d, (s.co c).due = some d → d ≤ t) ∧ ∀ k, s.tim k ≠ .queued c
  queued : ∀ h, s.tim h = .queued c → (∀ d, (s.co c).due = some d → d ≤ s.now) ∧ ∀ k, s.tim k = .queued c → k = h
  log : ∀ r ∈ s.log, r.c = c → ∃ d, r.due = some d ∧ d ≤ r.at_
  act : (s.co c).act = true → ∃ d, (s.co c).due = some d

theorem calm_step {c : Nat} {s : St} (o : Op) (hi : CalmInv c s)
    (h1 : ∀ d h, o = .reset c d h → ∀ k, s.tim k ≠ .queued c) (h2 : o = .stop c → ∀ k, s.tim k ≠ .queued c) :
    CalmInv c (step delack s o) := by
  cases o with
  | pass d =>
    refine ⟨hi.armed, fun h hq => ⟨fun x hx => ?_, (hi.queued h hq).2⟩, hi.log, hi.act⟩
    exact Nat.le_trans ((hi.queued h hq).1 x hx) (Nat.le_add_right _ _)
  | expire h =>
    rcases step_expire (delack := delack) s h with e | ⟨t, k, ht, hn, e⟩
    · rw [e]; exact hi
    · rw [e]
      refine ⟨fun h' t' hq => ?_, fun h' hq => ?_, hi.log, hi.act⟩
      · dsimp only at hq ⊢
        have hne : h' ≠ h := by intro x; subst x; rw [upd_same] at hq; cases hq
        rw [upd_ne _ _ hne] at hq
        have ha := hi.armed h' t' hq
        refine ⟨ha.1, ha.2.1, fun j hj => ?_⟩
        by_cases hjh : j = h
        · subst hjh
          rw [upd_same] at hj
          cases hj
          have hb := hi.armed j t ht
          rw [ha.1] at hb
          exact hne (by have := hb.1; injection this)
        · rw [upd_ne _ _ hjh] at hj; exact ha.2.2 j hj
      · dsimp only at hq ⊢
        by_cases hjh : h' = h
        · subst hjh
          rw [upd_same] at hq
          cases hq
          have hb := hi.armed h' t ht
          refine ⟨fun d hd => Nat.le_trans (hb.2.1 d hd) hn, fun j hj => ?_⟩
          by_cases hjh : j = h'
          · exact hjh
          · rw [upd_ne _ _ hjh] at hj; exact absurd hj (hb.2.2 j)
        · rw [upd_ne _ _ hjh] at hq
          have hb := hi.queued h' hq
          refine ⟨hb.1, fun j hj => ?_⟩
          by_cases hjj : j = h
          · subst hjj
            rw [upd_same] at hj
            cases hj
            exact absurd hq ((hi.armed j t ht).2.2 h')
          · rw [upd_ne _ _ hjj] at hj; exact hb.2 j hj
  | handle h =>
    have tim : ∀ k, s.tim h = .queued k → ∀ j v, upd s.tim h (.running k) j = v → (v = .queued c ∨ ∃ t, v = .armed t c) → s.tim j = v ∧ j ≠ h := by
      intro k _ j v hj hv
      by_cases hjh : j = h
      · subst hjh
        rw [upd_same] at hj
        rcases hv with hv | ⟨t, hv⟩ <;> · rw [← hj] at hv; cases hv
      · rw [upd_ne _ _ hjh] at hj; exact ⟨hj, hjh⟩
    rcases step_handle (delack := delack) s h with e | ⟨k, tmo, hq, htmo, ⟨hk, e⟩ | ⟨hk, e⟩⟩
    · rw [e]; exact hi
    · rw [e]
      by_cases hck : c = k
      · subst hck
        have hb := hi.queued h hq
        refine ⟨fun j t hj => ?_, fun j hj => ?_, fun r hr hrc => ?_, fun ha => ?_⟩
        · exact absurd hq ((hi.armed j t (tim c hq j _ hj (.inr ⟨t, rfl⟩)).1).2.2 h)
        · have := tim c hq j _ hj (.inl rfl)
          exact absurd (hb.2 j this.1) this.2
        · rcases List.mem_cons.mp hr with hr | hr
          · subst hr
            obtain ⟨d, hd⟩ := hi.act hk
            exact ⟨d, hd, hb.1 d hd⟩
          · exact hi.log r hr hrc
        · dsimp only at ha; rw [upd_same] at ha; cases ha
      · refine ⟨fun j t hj => ?_, fun j hj => ?_, fun r hr hrc => ?_, fun ha => ?_⟩
        · dsimp only at hj ⊢
          rw [upd_ne _ _ hck]
          have hb := hi.armed j t (tim k hq j _ hj (.inr ⟨t, rfl⟩)).1
          exact ⟨hb.1, hb.2.1, fun i hx => hb.2.2 i (tim k hq i _ hx (.inl rfl)).1⟩
        · dsimp only at hj ⊢
          rw [upd_ne _ _ hck]
          have hb := hi.queued j (tim k hq j _ hj (.inl rfl)).1
          exact ⟨hb.1, fun i hx => hb.2 i (tim k hq i _ hx (.inl rfl)).1⟩
        · rcases List.mem_cons.mp hr with hr | hr
          · subst hr; exact absurd hrc.symm hck
          · exact hi.log r hr hrc
        · dsimp only at ha ⊢; rw [upd_ne _ _ hck] at ha ⊢; exact hi.act ha
    · rw [e]
      by_cases hck : c = k
      · subst hck
        have hb := hi.queued h hq
        refine ⟨fun j t hj => ?_, fun j hj => ?_, hi.log, fun ha => ?_⟩
        · exact absurd hq ((hi.armed j t (tim c hq j _ hj (.inr ⟨t, rfl⟩)).1).2.2 h)
        · have := tim c hq j _ hj (.inl rfl)
          exact absurd (hb.2 j this.1) this.2
        · dsimp only at ha; rw [upd_same] at ha; cases ha
      · refine ⟨fun j t hj => ?_, fun j hj => ?_, hi.log, fun ha => ?_⟩
        · dsimp only at hj ⊢
          rw [upd_ne _ _ hck]
          have hb := hi.armed j t (tim k hq j _ hj (.inr ⟨t, rfl⟩)).1
          exact ⟨hb.1, hb.2.1, fun i hx => hb.2.2 i (tim k hq i _ hx (.inl rfl)).1⟩
        · dsimp only at hj ⊢
          rw [upd_ne _ _ hck]
          have hb := hi.queued j (tim k hq j _ hj (.inl rfl)).1
          exact ⟨hb.1, fun i hx => hb.2 i (tim k hq i _ hx (.inl rfl)).1⟩
        · dsimp only at ha ⊢; rw [upd_ne _ _ hck] at ha ⊢; exact hi.act ha
  | finish h =>
    rcases step_finish (delack := delack) s h with e | ⟨k, hk, e⟩
    · rw [e]; exact hi
    · rw [e]
      have tim : ∀ j v, upd s.tim h .free j = v → v ≠ .free → s.tim j = v := by
        intro j v hj hv
        by_cases hjh : j = h
        · subst hjh; rw [upd_same] at hj; exact absurd hj.symm hv
        · rw [upd_ne _ _ hjh] at hj; exact hj
      refine ⟨fun j t hj => ?_, fun j hj => ?_, hi.log, hi.act⟩
      · have hb := hi.armed j t (tim j _ hj (by intro x; cases x))
        exact ⟨hb.1, hb.2.1, fun i hx => hb.2.2 i (tim i _ hx (by intro x; cases x))⟩
      · have hb := hi.queued j (tim j _ hj (by intro x; cases x))
        exact ⟨hb.1, fun i hx => hb.2 i (tim i _ hx (by intro x; cases x))⟩
  | reset k d oh =>
    have can : ∀ j v, cancel s.tim (s.co k).tmo j = v → v ≠ .free → s.tim j = v := by
      intro j v hj hv
      rcases cancel_eq s.tim (s.co k).tmo j with hc | ⟨hc, _⟩
      · rw [← hc]; exact hj
      · rw [hc] at hj; exact absurd hj.symm hv
    have na : ∀ t, (TSt.armed t c) ≠ .free := fun t x => by cases x
    have nq : (TSt.queued c) ≠ .free := fun x => by cases x
    by_cases hck : c = k
    · subst hck
      have hq := h1 d oh rfl
      -- nothing of `c` is left running after the cancel
      have none_armed : ∀ j t, cancel s.tim (s.co c).tmo j ≠ .armed t c := by
        intro j t hj
        have hb := hi.armed j t (can j _ hj (na t))
        rw [hb.1] at hj
        exact cancel_self s.tim j t c hj
      rcases step_reset (delack := delack) s c d oh with ⟨h, _, hf, e⟩ | ⟨_, e⟩
      · rw [e]
        refine ⟨fun j t hj => ?_, fun j hj => ?_, hi.log, fun _ => ?_⟩
        · dsimp only at hj ⊢
          rw [upd_same]
          by_cases hjh : j = h
          · subst hjh
            rw [upd_same] at hj
            cases hj
            refine ⟨rfl, fun x hx => by cases hx; exact Nat.le_refl _, fun i hx => ?_⟩
            by_cases hij : i = j
            · subst hij; rw [upd_same] at hx; cases hx
            · rw [upd_ne _ _ hij] at hx; exact hq i (can i _ hx nq)
          · rw [upd_ne _ _ hjh] at hj; exact absurd hj (none_armed j t)
        · dsimp only at hj
          by_cases hjh : j = h
          · subst hjh; rw [upd_same] at hj; cases hj
          · rw [upd_ne _ _ hjh] at hj; exact absurd (can j _ hj nq) (hq j)
        · dsimp only; rw [upd_same]; exact ⟨_, rfl⟩
      · rw [e]
        refine ⟨fun j t hj => absurd hj (none_armed j t), fun j hj => absurd (can j _ hj nq) (hq j), hi.log, fun _ => ?_⟩
        dsimp only; rw [upd_same]; exact ⟨_, rfl⟩
    · rcases step_reset (delack := delack) s k d oh with ⟨h, _, hf, e⟩ | ⟨_, e⟩
      · rw [e]
        have up : ∀ j v, upd (cancel s.tim (s.co k).tmo) h (.armed (s.now + d) k) j = v → (v = .queued c ∨ ∃ t, v = .armed t c) → s.tim j = v := by
          intro j v hj hv
          by_cases hjh : j = h
          · subst hjh
            rw [upd_same] at hj
            rcases hv with hv | ⟨t, hv⟩
            · rw [← hj] at hv; cases hv
            · rw [← hj] at hv; injection hv with _ hv; exact absurd hv.symm hck
          · rw [upd_ne _ _ hjh] at hj
            refine can j v hj ?_
            rcases hv with hv | ⟨t, hv⟩ <;> · rw [hv]; intro x; cases x
        refine ⟨fun j t hj => ?_, fun j hj => ?_, hi.log, fun ha => ?_⟩
        · dsimp only at hj ⊢
          rw [upd_ne _ _ hck]
          have hb := hi.armed j t (up j _ hj (.inr ⟨t, rfl⟩))
          exact ⟨hb.1, hb.2.1, fun i hx => hb.2.2 i (up i _ hx (.inl rfl))⟩
        · dsimp only at hj ⊢
          rw [upd_ne _ _ hck]
          have hb := hi.queued j (up j _ hj (.inl rfl))
          exact ⟨hb.1, fun i hx => hb.2 i (up i _ hx (.inl rfl))⟩
        · dsimp only at ha ⊢; rw [upd_ne _ _ hck] at ha ⊢; exact hi.act ha
      · rw [e]
        refine ⟨fun j t hj => ?_, fun j hj => ?_, hi.log, fun ha => ?_⟩
        · dsimp only at hj ⊢
          rw [upd_ne _ _ hck]
          have hb := hi.armed j t (can j _ hj (na t))
          exact ⟨hb.1, hb.2.1, fun i hx => hb.2.2 i (can i _ hx nq)⟩
        · dsimp only at hj ⊢
          rw [upd_ne _ _ hck]
          have hb := hi.queued j (can j _ hj nq)
          exact ⟨hb.1, fun i hx => hb.2 i (can i _ hx nq)⟩
        · dsimp only at ha ⊢; rw [upd_ne _ _ hck] at ha ⊢; exact hi.act ha
  | stop k =>
    have can : ∀ j v, cancel s.tim (s.co k).tmo j = v → v ≠ .free → s.tim j = v := by
      intro j v hj hv
      rcases cancel_eq s.tim (s.co k).tmo j with hc | ⟨hc, _⟩
      · rw [← hc]; exact hj
      · rw [hc] at hj; exact absurd hj.symm hv
    have na : ∀ t, (TSt.armed t c) ≠ .free := fun t x => by cases x
    have nq : (TSt.queued c) ≠ .free := fun x => by cases x
    by_cases hck : c = k
    · subst hck
      have hq := h2 rfl
      refine ⟨fun j t hj => ?_, fun j hj => absurd (can j _ hj nq) (hq j), hi.log, fun ha => ?_⟩
      · exfalso
        replace hj : cancel s.tim (s.co c).tmo j = .armed t c := hj
        have hb := hi.armed j t (can j _ hj (na t))
        rw [hb.1] at hj
        exact cancel_self s.tim j t c hj
      · replace ha : (upd s.co c ⟨none, false, none⟩ c).act = true := ha
        rw [upd_same] at ha; cases ha
    · refine ⟨fun j t hj => ?_, fun j hj => ?_, hi.log, fun ha => ?_⟩
      · have hb := hi.armed j t (can j _ hj (na t))
        show (upd s.co k _ c).tmo = some j ∧ (∀ d, (upd s.co k _ c).due = some d → d ≤ t) ∧ _
        rw [upd_ne _ _ hck]
        exact ⟨hb.1, hb.2.1, fun i hx => hb.2.2 i (can i _ hx nq)⟩
      · have hb := hi.queued j (can j _ hj nq)
        show (∀ d, (upd s.co k _ c).due = some d → d ≤ s.now) ∧ _
        rw [upd_ne _ _ hck]
        exact ⟨hb.1, fun i hx => hb.2 i (can i _ hx nq)⟩
      · replace ha : (upd s.co k _ c).act = true := ha
        show ∃ d, (upd s.co k _ c).due = some d
        rw [upd_ne _ _ hck] at ha ⊢; exact hi.act ha

/-- **C140** (part).  A timer never runs before the time it was last armed for, in any history in
which it is not armed or stopped at a moment when its event is already waiting to be served; the
other timers are arbitrary. -/
theorem on_time_partial (ops : List Op) (c : Nat) (hc : Calm delack c init ops) :
    ∀ r ∈ (run delack init ops).log, r.c = c → ∃ d, r.due = some d ∧ d ≤ r.at_ := by
  have key : ∀ ops : List Op, ∀ s : St, CalmInv c s → Calm delack c s ops → CalmInv c (run delack s ops) := by
    intro ops
    induction ops with
    | nil => intro s h _; exact h
    | cons o ops ih =>
      intro s h hc
      rw [run_cons]
      exact ih _ (calm_step o h hc.1.1 hc.1.2) hc.2
  refine (key ops init ⟨fun h t x => ?_, fun h x => ?_, fun r hr => ?_, fun x => ?_⟩ hc).log
  · cases x
  · cases x
  · cases hr
  · cases x

/-- A calm history with two timers, one re-armed, one run. -/
example : Calm (fun _ => false) 1 init [.reset 1 5 (some 0), .reset 2 3 (some 1), .pass 3, .expire 1, .reset 1 9 (some 0), .handle 1, .pass 9, .expire 0, .handle 0] ∧
    (run (fun _ => false) init [.reset 1 5 (some 0), .reset 2 3 (some 1), .pass 3, .expire 1, .reset 1 9 (some 0), .handle 1, .pass 9, .expire 0, .handle 0]).log = [⟨1, 12, some 12⟩, ⟨2, 3, some 3⟩] := by
  refine ⟨?_, by decide⟩
  refine ⟨⟨fun _ _ _ k hk => (by cases hk), fun h => (by cases h)⟩, ⟨fun _ _ h => (by cases h), fun h => (by cases h)⟩, ⟨fun _ _ h => (by cases h), fun h => (by cases h)⟩, ⟨fun _ _ h => (by cases h), fun h => (by cases h)⟩, ⟨fun _ _ _ k hk => ?_, fun h => (by cases h)⟩, ⟨fun _ _ h => (by cases h), fun h => (by cases h)⟩, ⟨fun _ _ h => (by cases h), fun h => (by cases h)⟩, ⟨fun _ _ h => (by cases h), fun h => (by cases h)⟩, ⟨fun _ _ h => (by cases h), fun h => (by cases h)⟩, trivial⟩
  match k with
  | 0 => exact absurd hk (by decide)
  | 1 => exact absurd hk (by decide)
  | n + 2 => cases hk

/-- **C140, violated.**  A timer is armed again for a later moment while its event waits in the
queue; the event is then served and the function runs at once, 100 ticks early.  (For the
retransmission timer: an acknowledgement restarts it, and the data is retransmitted and the
backoff increased immediately.) -/
theorem early_run_violated : ∃ ops : List Op,
    ops = [.reset 1 5 (some 0), .pass 5, .expire 0, .reset 1 100 (some 1), .handle 0] ∧
    (run (fun _ => false) init ops).log = [⟨1, 5, some 105⟩] := ⟨_, rfl, by decide⟩

/-- **C140, violated.**  The same across connections: the first connection is closed (its timers
are stopped) while an event is waiting, its control block is given to a second one, which arms
its timer; the event of the dead connection runs it. -/
theorem other_connection_violated : ∃ ops : List Op,
    ops = [.reset 1 5 (some 0), .pass 5, .expire 0, .stop 1, .reset 1 100 (some 1), .handle 0] ∧
    (run (fun _ => false) init ops).log = [⟨1, 5, some 105⟩] := ⟨_, rfl, by decide⟩

/-- **C140, violated** for delayed acknowledgements even without any event waiting at the moment
of arming or stopping: a late event makes the callout forget the handle of the timer armed since;
that timer can no longer be cancelled, outlives the connection's `callout_stop`, and runs the
timer of the next owner of the control block 90 ticks early. -/
theorem delack_orphan_violated : ∃ pre ops : List Op,
    pre = [.reset 1 5 (some 0), .pass 5, .expire 0, .reset 1 10 (some 1), .handle 0, .finish 0] ∧
    ops = [.stop 1, .reset 1 100 (some 0), .pass 10, .expire 1, .handle 1] ∧
    (∀ k, (run (fun _ => true) init pre).tim k ≠ .queued 1) ∧
    Calm (fun _ => true) 1 (run (fun _ => true) init pre) ops ∧
    (run (fun _ => true) init (pre ++ ops)).log = [⟨1, 15, some 105⟩, ⟨1, 5, some 15⟩] := by
  have hk : ∀ k, (run (fun _ => true) init [.reset 1 5 (some 0), .pass 5, .expire 0, .reset 1 10 (some 1), .handle 0, .finish 0]).tim k ≠ .queued 1 := by
    intro k hk
    match k with
    | 0 => exact absurd hk (by decide)
    | 1 => exact absurd hk (by decide)
    | n + 2 => cases hk
  refine ⟨_, _, rfl, rfl, hk, ?_, by decide⟩
  refine ⟨⟨fun _ _ h => (by cases h), fun _ => hk⟩, ⟨fun _ _ _ => ?_, fun h => (by cases h)⟩, ⟨fun _ _ h => (by cases h), fun h => (by cases h)⟩, ⟨fun _ _ h => (by cases h), fun h => (by cases h)⟩, ⟨fun _ _ h => (by cases h), fun h => (by cases h)⟩, trivial⟩
  intro k hk
  match k with
  | 0 => exact absurd hk (by decide)
  | 1 => exact absurd hk (by decide)
  | n + 2 => cases hk

/-! ## Not lost -/

structure KeptInv (s : St) : Prop where
  own : ∀ c h, (s.co c).tmo = some h → (∃ t, s.tim h = .armed t c) ∨ s.tim h = .queued c ∨ s.tim h = .running c

/-- The timer an arming asked for exists. -/
def Scheduled (s : St) (c d : Nat) : Prop := ∃ h, s.tim h = .armed d c ∨ s.tim h = .queued c

theorem kept_step {s : St} (o : Op) (hi : KeptInv s) (h1 : ∀ h k, o = .finish h → s.tim h = .running k → ∀ c, (s.co c).tmo ≠ some h) :
    KeptInv (step delack s o) := by
  cases o with
  | pass d => exact ⟨hi.own⟩
  | expire h =>
    rcases step_expire (delack := delack) s h with e | ⟨t, k, ht, hn, e⟩
    · rw [e]; exact hi
    · rw [e]
      refine ⟨fun c j hj => ?_⟩
      have hb := hi.own c j hj
      dsimp only at hj ⊢
      by_cases hjh : j = h
      · subst hjh
        rw [upd_same]
        rcases hb with ⟨t', hb⟩ | hb | hb
        · rw [ht] at hb; injection hb with _ hb; subst hb; exact .inr (.inl rfl)
        · rw [ht] at hb; cases hb
        · rw [ht] at hb; cases hb
      · rw [upd_ne _ _ hjh]; exact hb
  | handle h =>
    have main : ∀ k tmo a d, s.tim h = .queued k → (tmo = (s.co k).tmo ∨ tmo = none) → ∀ l,
        KeptInv { s with tim := upd s.tim h (.running k), co := upd s.co k ⟨tmo, a, d⟩, log := l } := by
      intro k tmo a d hq htmo l
      refine ⟨fun c j hj => ?_⟩
      dsimp only at hj ⊢
      have hj' : (s.co c).tmo = some j := by
        by_cases hck : c = k
        · subst hck
          rw [upd_same] at hj
          dsimp only at hj
          rcases htmo with x | x
          · rw [← x]; exact hj
          · rw [x] at hj; cases hj
        · rw [upd_ne _ _ hck] at hj; exact hj
      have hb := hi.own c j hj'
      by_cases hjh : j = h
      · subst hjh
        rw [upd_same]
        rcases hb with ⟨t', hb⟩ | hb | hb
        · rw [hq] at hb; cases hb
        · rw [hq] at hb; injection hb with hb; subst hb; exact .inr (.inr rfl)
        · rw [hq] at hb; cases hb
      · rw [upd_ne _ _ hjh]; exact hb
    rcases step_handle (delack := delack) s h with e | ⟨k, tmo, hq, htmo, ⟨hk, e⟩ | ⟨hk, e⟩⟩
    · rw [e]; exact hi
    · rw [e]; exact main k tmo _ _ hq htmo _
    · rw [e]; exact main k tmo _ _ hq htmo _
  | finish h =>
    rcases step_finish (delack := delack) s h with e | ⟨k, hk, e⟩
    · rw [e]; exact hi
    · rw [e]
      refine ⟨fun c j hj => ?_⟩
      have hb := hi.own c j hj
      dsimp only at hj ⊢
      have hjh : j ≠ h := by intro x; subst x; exact h1 j k rfl hk c hj
      rw [upd_ne _ _ hjh]; exact hb
  | reset k d oh =>
    have can : ∀ c j, c ≠ k → (s.co c).tmo = some j → cancel s.tim (s.co k).tmo j = s.tim j := by
      intro c j hck hj
      rcases cancel_eq s.tim (s.co k).tmo j with hc | ⟨_, ho, t, k', hc⟩
      · exact hc
      · exfalso
        rcases hi.own k j ho with ⟨t', hb⟩ | hb | hb
        · rcases hi.own c j hj with ⟨t'', hb'⟩ | hb' | hb'
          · rw [hb] at hb'; injection hb' with _ hb'; exact hck hb'.symm
          · rw [hb] at hb'; cases hb'
          · rw [hb] at hb'; cases hb'
        · rw [hc] at hb; cases hb
        · rw [hc] at hb; cases hb
    rcases step_reset (delack := delack) s k d oh with ⟨h, _, hf, e⟩ | ⟨_, e⟩
    · rw [e]
      refine ⟨fun c j hj => ?_⟩
      dsimp only at hj ⊢
      by_cases hck : c = k
      · subst hck
        rw [upd_same] at hj
        cases hj
        rw [upd_same]; exact .inl ⟨_, rfl⟩
      · rw [upd_ne _ _ hck] at hj
        have hb := hi.own c j hj
        have hc := can c j hck hj
        have hjh : j ≠ h := by
          intro x; subst x
          rw [hc] at hf
          rcases hb with ⟨t, hb⟩ | hb | hb <;> · rw [hf] at hb; cases hb
        rw [upd_ne _ _ hjh, hc]; exact hb
    · rw [e]
      refine ⟨fun c j hj => ?_⟩
      dsimp only at hj ⊢
      by_cases hck : c = k
      · subst hck; rw [upd_same] at hj; cases hj
      · rw [upd_ne _ _ hck] at hj
        rw [can c j hck hj]; exact hi.own c j hj
  | stop k =>
    refine ⟨fun c j hj => ?_⟩
    replace hj : (upd s.co k ⟨none, false, none⟩ c).tmo = some j := hj
    show (∃ t, cancel s.tim (s.co k).tmo j = .armed t c) ∨ cancel s.tim (s.co k).tmo j = .queued c ∨ cancel s.tim (s.co k).tmo j = .running c
    by_cases hck : c = k
    · subst hck; rw [upd_same] at hj; cases hj
    · rw [upd_ne _ _ hck] at hj
      have hb := hi.own c j hj
      have hc : cancel s.tim (s.co k).tmo j = s.tim j := by
        rcases cancel_eq s.tim (s.co k).tmo j with hc | ⟨_, ho, t, k', hc⟩
        · exact hc
        · exfalso
          rcases hi.own k j ho with ⟨t', hb'⟩ | hb' | hb'
          · rcases hb with ⟨t'', hb⟩ | hb | hb
            · rw [hb] at hb'; injection hb' with _ hb'; exact hck hb'
            · rw [hb] at hb'; cases hb'
            · rw [hb] at hb'; cases hb'
          · rw [hc] at hb'; cases hb'
          · rw [hc] at hb'; cases hb'
      rw [hc]; exact hb

theorem sched_step {s : St} (o : Op) (c : Nat) (hi : KeptInv s) (hs : ∀ d, (s.co c).due = some d → Scheduled s c d)
    (hact : (s.co c).act = false → (s.co c).due = none)
    (h2 : ∀ d oh, o = .reset c d oh → ∃ h, oh = some h ∧ s.tim h = .free) :
    ∀ d, ((step delack s o).co c).due = some d → Scheduled (step delack s o) c d := by
  intro d hd
  -- cancelling the timer of another callout does not touch this one's
  have can : ∀ k j, k ≠ c → (∃ t, s.tim j = .armed t c) → cancel s.tim (s.co k).tmo j = s.tim j := by
    intro k j hck ⟨t, hj⟩
    rcases cancel_eq s.tim (s.co k).tmo j with hc | ⟨_, ho, _, _, _⟩
    · exact hc
    · exfalso
      rcases hi.own k j ho with ⟨t', hb⟩ | hb | hb
      · rw [hj] at hb; injection hb with _ hb; exact hck hb.symm
      · rw [hj] at hb; cases hb
      · rw [hj] at hb; cases hb
  have canq : ∀ k j, s.tim j = .queued c → cancel s.tim (s.co k).tmo j = .queued c := by
    intro k j hj
    rcases cancel_eq s.tim (s.co k).tmo j with hc | ⟨_, _, t, k', hc⟩
    · rw [hc]; exact hj
    · rw [hj] at hc; cases hc
  cases o with
  | pass x => exact hs d hd
  | expire h =>
    rcases step_expire (delack := delack) s h with e | ⟨t, k, ht, hn, e⟩
    · rw [e] at hd ⊢; exact hs d hd
    · rw [e] at hd ⊢
      obtain ⟨j, hj⟩ := hs d hd
      by_cases hjh : j = h
      · subst hjh
        refine ⟨j, .inr ?_⟩
        show upd s.tim j _ j = _
        rw [upd_same]
        rcases hj with hj | hj
        · rw [ht] at hj; injection hj with _ hj; rw [hj]
        · rw [ht] at hj; cases hj
      · refine ⟨j, ?_⟩
        show upd s.tim h _ j = _ ∨ upd s.tim h _ j = _
        rw [upd_ne _ _ hjh]; exact hj
  | handle h =>
    have other : ∀ k l co', s.tim h = .queued k → k ≠ c → (s.co c).due = some d → Scheduled { s with tim := upd s.tim h (.running k), co := co', log := l } c d := by
      intro k l co' hq hkc hd
      obtain ⟨j, hj⟩ := hs d hd
      refine ⟨j, ?_⟩
      show upd s.tim h _ j = _ ∨ upd s.tim h _ j = _
      have hjh : j ≠ h := by
        intro x; subst x
        rcases hj with hj | hj
        · rw [hq] at hj; cases hj
        · rw [hq] at hj; injection hj with hj; exact hkc hj
      rw [upd_ne _ _ hjh]; exact hj
    rcases step_handle (delack := delack) s h with e | ⟨k, tmo, hq, htmo, ⟨hk, e⟩ | ⟨hk, e⟩⟩
    · rw [e] at hd ⊢; exact hs d hd
    · rw [e] at hd ⊢
      by_cases hck : c = k
      · subst hck; dsimp only at hd; rw [upd_same] at hd; cases hd
      · dsimp only at hd; rw [upd_ne _ _ hck] at hd; exact other k _ _ hq (fun x => hck x.symm) hd
    · rw [e] at hd ⊢
      by_cases hck : c = k
      · subst hck; dsimp only at hd; rw [upd_same] at hd; dsimp only at hd; rw [hact hk] at hd; cases hd
      · dsimp only at hd; rw [upd_ne _ _ hck] at hd; exact other k _ _ hq (fun x => hck x.symm) hd
  | finish h =>
    rcases step_finish (delack := delack) s h with e | ⟨k, hk, e⟩
    · rw [e] at hd ⊢; exact hs d hd
    · rw [e] at hd ⊢
      obtain ⟨j, hj⟩ := hs d hd
      refine ⟨j, ?_⟩
      show upd s.tim h _ j = _ ∨ upd s.tim h _ j = _
      have hjh : j ≠ h := by
        intro x; subst x
        rcases hj with hj | hj <;> · rw [hk] at hj; cases hj
      rw [upd_ne _ _ hjh]; exact hj
  | reset k x oh =>
    by_cases hck : k = c
    · subst hck
      obtain ⟨h, ho, hf⟩ := h2 x oh rfl
      rcases step_reset (delack := delack) s k x oh with ⟨h', ho', _, e⟩ | ⟨hn, e⟩
      · rw [e] at hd ⊢
        dsimp only at hd
        rw [upd_same] at hd
        cases hd
        exact ⟨h', .inl (upd_same _ _ _)⟩
      · exfalso
        refine hn h ho ?_
        rcases cancel_eq s.tim (s.co k).tmo h with hc | ⟨hc, _⟩
        · rw [hc]; exact hf
        · exact hc
    · rcases step_reset (delack := delack) s k x oh with ⟨h, _, hf, e⟩ | ⟨_, e⟩
      · rw [e] at hd ⊢
        dsimp only at hd
        rw [upd_ne _ _ (fun y => hck y.symm)] at hd
        obtain ⟨j, hj⟩ := hs d hd
        have hc : cancel s.tim (s.co k).tmo j = s.tim j := by
          rcases hj with hj | hj
          · exact can k j hck ⟨d, hj⟩
          · rw [canq k j hj, hj]
        have hjh : j ≠ h := by
          intro y; subst y
          rw [hc] at hf
          rcases hj with hj | hj <;> · rw [hf] at hj; cases hj
        refine ⟨j, ?_⟩
        show upd _ h _ j = _ ∨ upd _ h _ j = _
        rw [upd_ne _ _ hjh, hc]; exact hj
      · rw [e] at hd ⊢
        dsimp only at hd
        rw [upd_ne _ _ (fun y => hck y.symm)] at hd
        obtain ⟨j, hj⟩ := hs d hd
        refine ⟨j, ?_⟩
        show cancel s.tim (s.co k).tmo j = _ ∨ cancel s.tim (s.co k).tmo j = _
        rcases hj with hj | hj
        · rw [can k j hck ⟨d, hj⟩]; exact .inl hj
        · exact .inr (canq k j hj)
  | stop k =>
    replace hd : (upd s.co k ⟨none, false, none⟩ c).due = some d := hd
    by_cases hck : c = k
    · subst hck; rw [upd_same] at hd; cases hd
    · rw [upd_ne _ _ hck] at hd
      obtain ⟨j, hj⟩ := hs d hd
      refine ⟨j, ?_⟩
      show cancel s.tim (s.co k).tmo j = _ ∨ cancel s.tim (s.co k).tmo j = _
      rcases hj with hj | hj
      · rw [can k j (fun x => hck x.symm) ⟨d, hj⟩]; exact .inl hj
      · exact .inr (canq k j hj)

theorem act_step {s : St} (o : Op) (c : Nat) (h : (s.co c).act = false → (s.co c).due = none) :
    ((step delack s o).co c).act = false → ((step delack s o).co c).due = none := by
  cases o with
  | pass x => exact h
  | expire k =>
    rcases step_expire (delack := delack) s k with e | ⟨_, _, _, _, e⟩ <;> · rw [e]; exact h
  | handle k =>
    rcases step_handle (delack := delack) s k with e | ⟨j, tmo, _, _, ⟨_, e⟩ | ⟨hk, e⟩⟩
    · rw [e]; exact h
    · rw [e]
      dsimp only
      by_cases hcj : c = j
      · subst hcj; rw [upd_same]; exact fun _ => rfl
      · rw [upd_ne _ _ hcj]; exact h
    · rw [e]
      dsimp only
      by_cases hcj : c = j
      · subst hcj; rw [upd_same]; exact fun _ => h hk
      · rw [upd_ne _ _ hcj]; exact h
  | finish k =>
    rcases step_finish (delack := delack) s k with e | ⟨_, _, e⟩ <;> · rw [e]; exact h
  | reset k x oh =>
    rcases step_reset (delack := delack) s k x oh with ⟨_, _, _, e⟩ | ⟨_, e⟩ <;>
    · rw [e]
      dsimp only
      by_cases hck : c = k
      · subst hck; rw [upd_same]; intro y; cases y
      · rw [upd_ne _ _ hck]; exact h
  | stop k =>
    show (upd s.co k _ c).act = false → (upd s.co k _ c).due = none
    by_cases hck : c = k
    · subst hck; rw [upd_same]; exact fun _ => rfl
    · rw [upd_ne _ _ hck]; exact h

/-- **C141** (part).  As long as a timer is armed and has neither run nor been stopped, a timer
for exactly the time asked for is running for it, or its event is waiting to be served: in every
history in which the pool of timers is not found empty when it is armed, and in which every
function that ran has armed or stopped its own callout again before the ODP timer is released. -/
theorem not_lost_partial (ops : List Op) (c : Nat) (hr : Renewed delack init ops) (hp : PoolOk delack c init ops) :
    ∀ d, ((run delack init ops).co c).due = some d → Scheduled (run delack init ops) c d := by
  have key : ∀ ops : List Op, ∀ s : St, KeptInv s → ((s.co c).act = false → (s.co c).due = none) →
      (∀ d, (s.co c).due = some d → Scheduled s c d) → Renewed delack s ops → PoolOk delack c s ops →
      ∀ d, ((run delack s ops).co c).due = some d → Scheduled (run delack s ops) c d := by
    intro ops
    induction ops with
    | nil => intro s _ _ h _ _; exact h
    | cons o ops ih =>
      intro s hk ha hs hr hp
      rw [run_cons]
      exact ih _ (kept_step o hk hr.1) (act_step o c ha) (sched_step o c hk hs ha hp.1) hr.2 hp.2
  refine key ops init ⟨fun c h x => ?_⟩ (fun _ => rfl) (fun d x => ?_) hr hp
  · cases x
  · cases x

/-- Two timers; the second runs and is armed again before its ODP timer is released, so the
hypotheses hold, and both are scheduled at the end. -/
example : ∃ ops : List Op, ops = [.reset 1 9 (some 0), .reset 2 3 (some 1), .pass 3, .expire 1, .handle 1, .reset 2 6 (some 2), .finish 1] ∧
    Renewed (fun _ => false) init ops ∧ PoolOk (fun _ => false) 1 init ops ∧
    (run (fun _ => false) init ops).tim 0 = .armed 9 1 ∧ (run (fun _ => false) init ops).tim 2 = .armed 9 2 ∧
    (run (fun _ => false) init ops).log = [⟨2, 3, some 3⟩] := by
  refine ⟨_, rfl, ?_, ?_, by decide, by decide, by decide⟩
  · refine ⟨fun _ _ h => (by cases h), fun _ _ h => (by cases h), fun _ _ h => (by cases h), fun _ _ h => (by cases h), fun _ _ h => (by cases h), fun _ _ h => (by cases h), ?_, trivial⟩
    intro h k he _ c hc
    cases he
    match c with
    | 0 => cases hc
    | 1 => exact absurd hc (by decide)
    | 2 => exact absurd hc (by decide)
    | n + 3 => cases hc
  · exact ⟨fun d oh h => (by cases h; exact ⟨0, rfl, rfl⟩), fun d oh h => (by cases h), fun d oh h => (by cases h), fun d oh h => (by cases h), fun d oh h => (by cases h), fun d oh h => (by cases h), fun d oh h => (by cases h), trivial⟩

/-- **C141, violated.**  A function runs and does not arm its callout again (the retransmission
timer does so when `ofp_tcp_output` finds no packet buffer, src/ofp_tcp_output.c:845-848, 897-900); the
ODP timer is released and handed out again for another connection.  When the first connection
next arms or stops its timer, it cancels the timer of the other one, which stays marked active
and will never run: nothing is running or waiting for it. -/
theorem stale_handle_violated : ∃ ops : List Op,
    ops = [.reset 1 5 (some 0), .pass 5, .expire 0, .handle 0, .finish 0, .reset 2 100 (some 0), .reset 1 50 (some 1)] ∧
    ((run (fun _ => false) init ops).co 2) = ⟨some 0, true, some 105⟩ ∧
    ∀ d, ¬ Scheduled (run (fun _ => false) init ops) 2 d := by
  refine ⟨_, rfl, by decide, ?_⟩
  rintro d ⟨h, hh | hh⟩
  · match h with
    | 0 => cases hh
    | 1 => cases hh
    | n + 2 => cases hh
  · match h with
    | 0 => cases hh
    | 1 => cases hh
    | n + 2 => cases hh

/-- **C141, violated.**  When the pool is empty the callout is marked active although no timer was
started: `ofp_tcp_timer_active` says that it is running, and nobody arms it again. -/
theorem empty_pool_violated (s : St) (c d : Nat) :
    ((step delack s (.reset c d none)).co c).act = true ∧ ((step delack s (.reset c d none)).co c).tmo = none ∧
    ((∀ h t, s.tim h = .armed t c → (s.co c).tmo = some h) → (∀ h, s.tim h ≠ .queued c) →
      ∀ x, ¬ Scheduled (step delack s (.reset c d none)) c x) := by
  refine ⟨?_, ?_, fun h1 h2 x hx => ?_⟩
  · show (upd s.co c _ c).act = true; rw [upd_same]
  · show (upd s.co c _ c).tmo = none; rw [upd_same]
  · obtain ⟨h, hh⟩ := hx
    replace hh : cancel s.tim (s.co c).tmo h = .armed x c ∨ cancel s.tim (s.co c).tmo h = .queued c := hh
    rcases cancel_eq s.tim (s.co c).tmo h with hc | ⟨hc, _⟩
    · rw [hc] at hh
      rcases hh with hh | hh
      · have hk := h1 h x hh
        rw [hk] at hc
        exact cancel_self s.tim h x c (by rw [hc]; exact hh)
      · exact h2 h hh
    · rw [hc] at hh
      rcases hh with hh | hh <;> cases hh

/-- The second part is not vacuous. -/
example : (∀ h t, init.tim h = .armed t 3 → (init.co 3).tmo = some h) ∧ (∀ h, init.tim h ≠ .queued 3) :=
  ⟨fun _ _ h => (by cases h), fun _ h => (by cases h)⟩

end Verif.Callout

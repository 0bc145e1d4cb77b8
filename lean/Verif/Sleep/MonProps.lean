import Verif.Sleep.MonInv
/-! # No lost wakeups: the properties -/
namespace Verif.Sleep

variable {n : Nat} {cfg : Cfg} {m : M}

/-- Run events, earliest first. -/
def mrun (cfg : Cfg) (m : M) (es : List MEv) : M := es.foldl (mstep cfg) m

theorem MReach.run (h : MReach n cfg m) (es : List MEv) : MReach n cfg (mrun cfg m es) := by
  induction es generalizing m with
  | nil => exact h
  | cons e es ih => exact ih (h.step e)

/-- A thread in a waiting loop is asleep on the channel unless it has been woken. -/
theorem slp_asleep (j : J n cfg m) {t : Nat} (h : m.pc t = .slp) (hw : ∀ b, ¬ Woken (abs m.s) t b) : Asleep (abs m.s) t cfg.c := by
  obtain ⟨x, x1, x2⟩ := List.mem_map.1 ((j.slp t).1 h)
  simp only [Prod.mk.injEq] at x2
  refine ⟨x, x1, x2.1, x2.2, ?_⟩
  cases g : x.go with
  | false => rfl
  | true => exact absurd ⟨x, x1, x2.1, g, rfl⟩ (hw _)

theorem chk_le (m : M) : chk m ≤ 1 := by
  unfold chk; split
  · split <;> omega
  · omega

theorem chk_zero (h : ∀ t, m.pc t ≠ .check) : chk m = 0 := by
  unfold chk; split
  · rename_i t _; rw [if_neg (h t)]
  · rfl

/-- **C103** for `ofp_accept`, any number of threads, connections and schedules: while a thread is blocked in `ofp_accept` on a
listening socket, there are no more completed connections than wakeups still to be given by those who completed one, threads already
woken, and at most one thread that looks at the queue. -/
theorem accept_no_lost_wakeup (hc : cfg.c ≠ 0) (hl : cfg.listen = true) (h : MReach n cfg m) {t : Nat} (ht : Asleep (abs m.s) t cfg.c) :
    m.q ≤ m.p + wokenOn cfg.c (abs m.s).inside + chk m := by
  obtain ⟨x, x1, _, x3⟩ := ht
  exact (h.j hc).cntl hl ⟨x, x1, x3⟩

/-- **C103** the same at rest: when no one who completed a connection has still to call the wakeup, no thread is at the queue and no
thread blocked in `ofp_accept` has been woken, then a thread blocked in `ofp_accept` means there is no connection to accept. -/
theorem accept_at_rest (hc : cfg.c ≠ 0) (hl : cfg.listen = true) (h : MReach n cfg m) (hp : m.p = 0) (hn : ∀ u, m.pc u ≠ .check)
    (hw : ∀ u, m.pc u = .slp → ∀ b, ¬ Woken (abs m.s) u b) {t : Nat} (ht : m.pc t = .slp) : m.q = 0 := by
  have j := h.j hc
  have a := slp_asleep j ht (hw t ht)
  have q := accept_no_lost_wakeup hc hl h a
  have w : wokenOn cfg.c (abs m.s).inside = 0 := by
    unfold wokenOn
    rw [List.length_eq_zero_iff, List.filter_eq_nil_iff]
    intro x hx k
    simp only [Bool.and_eq_true, decide_eq_true_eq] at k
    exact hw x.thr ((j.slp _).2 (List.mem_map.2 ⟨x, hx, by rw [k.1]⟩)) _ ⟨x, hx, rfl, k.2, rfl⟩
  rw [hp, w, chk_zero hn] at q
  omega

/-- **C103** for receiving: a thread that is blocked in a receive call on a socket while data is in its buffer or the stream has
ended has been woken, unless whoever put it there has still to call the wakeup. -/
theorem read_no_lost_wakeup (hc : cfg.c ≠ 0) (hl : cfg.listen = false) (h : MReach n cfg m) (hp : m.p = 0) (hq : 0 < m.q ∨ m.shut = true)
    {t : Nat} (ht : m.pc t = .slp) : Woken (abs m.s) t false := by
  have j := h.j hc
  obtain ⟨x, x1, x2⟩ := List.mem_map.1 ((j.slp t).1 ht)
  simp only [Prod.mk.injEq] at x2
  cases g : x.go with
  | true => exact ⟨x, x1, x2.1, g, j.bt x x1 x2.2⟩
  | false =>
    rcases j.cntr hl ⟨x, x1, x2.2, g⟩ with k | k
    · rcases hq with q | q
      · omega
      · rw [k.2] at q; cases q
    · omega

/-- **C103**: at most one thread at a time takes from the queue or decides to sleep. -/
theorem lock_exclusive (hc : cfg.c ≠ 0) (h : MReach n cfg m) {t u : Nat} (ht : m.pc t = .check ∨ m.pc t = .decided)
    (hu : m.pc u = .check ∨ m.pc u = .decided) : t = u := by
  have j := h.j hc
  have a := j.has t ht
  rw [j.has u hu] at a
  exact (Option.some.inj a).symm

/-- Two threads wait in `ofp_accept`; two connections complete, the first wakeup wakes one of them. -/
example : let m := mrun ⟨7, true⟩ (M.init 4) [.enter 1, .check 1 0, .goSleep 1, .unlock 1, .enter 2, .check 2 0, .goSleep 2, .unlock 2, .produce 0, .produce 0, .signal]
    m.q = 2 ∧ m.p = 1 ∧ wokenOn 7 (abs m.s).inside = 1 ∧ m.pc 1 = .slp ∧ (∃ x ∈ (abs m.s).inside, x.thr = 1 ∧ x.chan = 7 ∧ x.go = false) := by decide +kernel

/-- A thread waits for data and is woken by it. -/
example : let m := mrun ⟨7, false⟩ (M.init 4) [.enter 1, .check 1 0, .goSleep 1, .unlock 1, .produce 9, .signal]
    m.q = 10 ∧ m.p = 0 ∧ m.pc 1 = .slp ∧ (∃ x ∈ (abs m.s).inside, x.thr = 1 ∧ x.go = true ∧ x.byTimer = false) := by decide +kernel

/-- The woken thread takes it. -/
example : let m := mrun ⟨7, false⟩ (M.init 4) [.enter 1, .check 1 0, .goSleep 1, .unlock 1, .produce 9, .signal, .relock 1, .leave 1, .check 1 9]
    m.q = 0 ∧ m.pc 1 = .out ∧ m.lock = none := by decide +kernel

/-! ## Violations -/

/-- Any reachable state of the sleeper records in the waiting loops is a history of sleeping and waking. -/
theorem MReach.hist (h : MReach n cfg m) : ∃ l, Hist n l m.s := by
  have one : ∀ {s : S} (ev : Ev), (∃ l, Hist n l s) → ∃ l, Hist n l (Verif.Sleep.step s ev).2 := fun ev ⟨_, k⟩ => ⟨_, k.cons ev⟩
  induction h with
  | init => exact ⟨[], .nil⟩
  | @step m ev _ ih =>
    cases ev <;> unfold mstep <;> simp only
    case enter t => split <;> exact ih
    case check t k => split; (split; exact ih; split <;> exact ih); exact ih
    case goSleep t => split; (split; exact one _ ih; exact ih); exact ih
    case unlock t => split <;> exact ih
    case relock t => split <;> exact ih
    case leave t => split; (split; exact one _ ih; split; exact one _ ih; exact ih); exact ih
    case produce k => split <;> exact ih
    case shut => split; exact ih; split <;> exact ih
    case signal =>
      split
      · show ∃ l, Hist n l (if cfg.listen then _ else if m.wait then _ else _)
        split
        · exact one _ (one _ ih)
        · split
          · exact one _ (one _ ih)
          · exact ih
      · exact ih
    case shutSignal => split; exact one _ (one _ ih); exact ih
    case selCheck t => split <;> exact ih
    case selSleep t => split; (split; exact one _ ih; exact ih); exact ih
    case selRet t => split; (split; exact ih; exact one _ ih); exact ih
    case other ev => split; exact one _ ih; exact ih

/-- **C103 violated** for `ofp_select` and `ofp_epoll_wait`, in any state of the system: a thread found nothing readable and has not
gone to sleep yet; now data arrives and the wakeup is given; then the thread goes to sleep, with the data there.  Nothing but a later
wakeup of channel 0 or a timer of that channel, caused by something else, wakes it. -/
theorem select_lost_wakeup_violated (h : MReach n cfg m) {t k : Nat} (ht : m.pc t = .selDecided) (hl : m.lock = none)
    (hs : (mrun cfg m [.produce k, .signal, .selSleep t]).pc t = .selSlp) (es : List Ev)
    (hq : QuietRun (mrun cfg m [.produce k, .signal, .selSleep t]).s 0 es) :
    0 < (mrun cfg m [.produce k, .signal, .selSleep t]).q ∧
    Asleep (abs (Verif.Sleep.run (mrun cfg m [.produce k, .signal, .selSleep t]).s es).2) t 0 := by
  obtain ⟨l, hh⟩ := (h.run [.produce k, .signal, .selSleep t]).hist
  have h2 := h.run [.produce k, .signal]
  obtain ⟨l2, hh2⟩ := h2.hist
  have e : mrun cfg m [.produce k, .signal, .selSleep t] = mstep cfg (mrun cfg m [.produce k, .signal]) (.selSleep t) := rfl
  have q2 : 0 < (mrun cfg m [.produce k, .signal]).q ∧ (mrun cfg m [.produce k, .signal]).pc t = .selDecided := by
    show 0 < (mstep cfg (mstep cfg m (.produce k)) .signal).q ∧ (mstep cfg (mstep cfg m (.produce k)) .signal).pc t = .selDecided
    unfold mstep
    simp only [hl, if_true]
    rw [if_pos (by show 0 < m.p + 1; omega)]
    refine ⟨?_, ht⟩
    show 0 < m.q + _
    split <;> omega
  generalize mrun cfg m [.produce k, .signal] = m2 at *
  have a : Asleep (abs (mrun cfg m [.produce k, .signal, .selSleep t]).s) t 0 ∧ 0 < (mrun cfg m [.produce k, .signal, .selSleep t]).q := by
    rw [e] at hs ⊢
    unfold mstep at hs ⊢
    simp only [q2.2, if_true] at hs ⊢
    by_cases r0 : (step m2.s (.sleep t 0 false)).1 = .sleeping
    · rw [if_pos r0]
      refine ⟨?_, q2.1⟩
      obtain ⟨_, r⟩ := step_sleep hh2.inv t 0 false
      rcases r with ⟨_, _, r2, _⟩ | ⟨r, _⟩
      · show Asleep (abs (step m2.s (.sleep t 0 false)).2) t 0
        unfold Asleep; rw [r2]; exact ⟨_, List.mem_cons_self, rfl, rfl, rfl⟩
      · exact absurd r0 r
    · rw [if_neg r0] at hs
      rw [pc_to] at hs; simp at hs
  exact ⟨a.2, quiet_run hh a.1 es hq⟩

/-- From the start: thread 1 calls `ofp_select`, data arrives between its check and its sleep, even though another thread once
waited for data (so that the wakeup is given). -/
example : let m := mrun ⟨7, false⟩ (M.init 4) [.enter 2, .check 2 0, .goSleep 2, .unlock 2, .selCheck 1]
    m.pc 1 = .selDecided ∧ m.lock = none ∧ (mrun ⟨7, false⟩ m [.produce 0, .signal, .selSleep 1]).pc 1 = .selSlp := by decide +kernel

/-- **C103 violated** for `ofp_select` and `ofp_epoll_wait`: data arriving at a buffer on which no thread was ever blocked in a
receive call wakes nobody: threads that sleep in `ofp_select` or `ofp_epoll_wait` sleep on, whatever the state. -/
theorem select_data_violated (hl : cfg.listen = false) (hw : m.wait = false) (k : Nat) :
    (mrun cfg m [.produce k, .signal]).s = m.s := by
  show (mstep cfg (mstep cfg m (.produce k)) .signal).s = m.s
  by_cases h : m.lock = none
  · unfold mstep
    simp only [h, if_true, hl, Bool.false_eq_true, if_false]
    rw [if_pos (by show 0 < m.p + 1; omega)]
    rw [if_neg (by show ¬ m.wait = true; rw [hw]; simp)]
  · have e : mstep cfg m (.produce k) = m := by unfold mstep; simp only [h, if_false]
    rw [e]
    unfold mstep
    simp only [hl, Bool.false_eq_true, if_false, hw]
    split <;> rfl

/-- Thread 1 sleeps in `ofp_select`, data arrives: it sleeps on. -/
example : let m := mrun ⟨7, false⟩ (M.init 4) [.selCheck 1, .selSleep 1, .produce 0, .signal]
    m.q = 1 ∧ m.p = 0 ∧ m.wait = false ∧ m.pc 1 = .selSlp ∧ (∃ x ∈ (abs m.s).inside, x.thr = 1 ∧ x.chan = 0 ∧ x.go = false) := by decide +kernel

/-- **C103 violated** for `ofp_accept` when the listening socket is disconnected: the disconnect takes the lock of the buffer, not
the accept lock, so it can come between the check and the sleep: all of its wakeup is given, and the thread goes to sleep on a socket
that will never complete a connection. -/
theorem accept_close_violated : let m := mrun ⟨7, true⟩ (M.init 4) [.enter 1, .check 1 0, .shut, .shutSignal, .goSleep 1, .unlock 1]
    m.shut = true ∧ m.p = 0 ∧ m.ps = 0 ∧ m.lock = none ∧ m.pc 1 = .slp ∧ (∃ x ∈ (abs m.s).inside, x.thr = 1 ∧ x.chan = 7 ∧ x.go = false) := by decide +kernel

end Verif.Sleep

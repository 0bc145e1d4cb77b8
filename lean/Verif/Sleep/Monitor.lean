import Verif.Sleep.Props
/-!
# Waiting for a condition

Modelled: the waiting loops of `ofp_accept` (src/ofp_syscalls.c:240-262) and of the receive functions with `ofp_sbwait`
(src/ofp_uipc_socket.c:1360-1432, src/ofp_uipc_sockbuf.c:401-411), the part of `ofp_msleep` that releases and takes the caller's lock
(src/ofp_uipc_socket.c:2581-2589), those who change the condition and wake (`ofp_soisconnected` 2386-2395, `ofp_sowakeup`
src/ofp_uipc_sockbuf.c:442-474 as called by `sorwakeup_locked`, include/ofpi_socketvar.h:274-281), and the check and the sleep of
`ofp_select` and `ofp_epoll_wait` (src/ofp_syscalls.c:371-384, src/ofp_epoll.c:218-239), for one listening socket or receive buffer.
Any number of threads; everything else that uses `ofp_msleep` is `other`.

Simplified: how many connections or bytes a caller takes is an input; error returns of `ofp_accept` because of `so_error` are
not modelled.  `sb_flags` is reduced to `SB_WAIT`: `SB_SEL` is never set anywhere, the other flags are not set by default.
-/
namespace Verif.Sleep

/-- Where a thread is: not here; at the check (with the lock); decided to sleep (with the lock); inside `ofp_msleep`; in select or
epoll: decided to sleep; inside `ofp_msleep`. -/
inductive Pc where
  | out | check | decided | slp | selDecided | selSlp
deriving DecidableEq, Repr

/-- The object: its channel (`&head->so_timeo` or `&sb->sb_cc`), listening socket (`ofp_wakeup_one`) or receive buffer. -/
structure Cfg where
  c : Nat
  listen : Bool

/-- `q`: completed connections or data; `shut`: `SBS_CANTRCVMORE`; `wait`: `SB_WAIT`; `lock`: accept lock or lock of the buffer;
`p`: threads that changed the condition and have not called wakeup yet; `ps`: the same for threads that shut a listening socket. -/
structure M where
  s : S
  q : Nat
  shut : Bool
  wait : Bool
  lock : Option Nat
  pc : Nat → Pc
  p : Nat
  ps : Nat

/-- Events. -/
inductive MEv where
  | enter (t : Nat)
  /-- The loop condition: take `k + 1` of what is there (accept: one), give up at the end of the stream, or sleep. -/
  | check (t k : Nat)
  | goSleep (t : Nat)
  | unlock (t : Nat)
  | relock (t : Nat)
  | leave (t : Nat)
  | produce (k : Nat)
  | shut
  | signal
  | shutSignal
  | selCheck (t : Nat)
  | selSleep (t : Nat)
  | selRet (t : Nat)
  | other (ev : Ev)

/-- Start. -/
def M.init (n : Nat) : M := { s := Verif.Sleep.init n, q := 0, shut := false, wait := false, lock := none, pc := fun _ => .out, p := 0, ps := 0 }

/-- Move a thread. -/
def M.to (m : M) (t : Nat) (x : Pc) : M := { m with pc := fun u => if u = t then x else m.pc u }

/-- May this event happen elsewhere: other threads on other channels, any wakeup, any timer. -/
def foreign (cfg : Cfg) (m : M) : Ev → Bool
  | .sleep t d _ => m.pc t = .out && d ≠ cfg.c
  | .ret t => m.pc t = .out
  | _ => true

/-- One step; an event that is not enabled changes nothing.
`enter`: `ACCEPT_LOCK`/`SOCKBUF_LOCK` (src/ofp_syscalls.c:240, src/ofp_uipc_socket.c:1362).
`check`: src/ofp_syscalls.c:247-251, 262-283; src/ofp_uipc_socket.c:1372-1400.
`goSleep`: `ofp_sbwait` sets `SB_WAIT` (src/ofp_uipc_sockbuf.c:406), `ofp_msleep` up to the loop; on `OFP_ENOMEM` the caller unlocks and fails.
`unlock`, `relock`, `leave`: the loop (src/ofp_uipc_socket.c:2581-2589) and the end of `ofp_msleep`; after a wakeup back to the
check, after a timeout the caller unlocks and fails.
`produce`: insertion under the lock.  `shut`: `ofp_soisdisconnected`, `ofp_socantrcvmore` (src/ofp_uipc_socket.c:2445-2462): under
the lock of the buffer, which is not the accept lock.
`signal`: `ofp_wakeup_one(&head->so_timeo)`; `ofp_sowakeup` if `sb_notify`.
`shutSignal`: `ofp_wakeup(&so->so_timeo)` (2461). -/
def mstep (cfg : Cfg) (m : M) : MEv → M
  | .enter t => if m.pc t = .out && m.lock = none && (recOf m.s t).isNone then { m with lock := some t }.to t .check else m
  | .check t k =>
    if m.pc t = .check then
      if m.q > 0 then { m with q := m.q - (if cfg.listen then 1 else k + 1), lock := none }.to t .out
      else if m.shut then { m with lock := none }.to t .out
      else m.to t .decided
    else m
  | .goSleep t =>
    if m.pc t = .decided then
      let r := step m.s (.sleep t cfg.c false)
      let m1 := { m with wait := true }
      if r.1 = .sleeping then { m1 with s := r.2 }.to t .slp else { m1 with lock := none }.to t .out
    else m
  | .unlock t => if m.pc t = .slp && m.lock = some t then { m with lock := none } else m
  | .relock t => if m.pc t = .slp && m.lock = none then { m with lock := some t } else m
  | .leave t =>
    if m.pc t = .slp && m.lock = some t then
      let r := step m.s (.ret t)
      if r.1 = .woke false then { m with s := r.2 }.to t .check
      else if r.1 = .woke true then { m with s := r.2, lock := none }.to t .out
      else m
    else m
  | .produce k => if m.lock = none then { m with q := m.q + (if cfg.listen then 1 else k + 1), p := m.p + 1 } else m
  | .shut =>
    if cfg.listen then { m with shut := true, ps := m.ps + 1 }
    else if m.lock = none then { m with shut := true, p := m.p + 1 } else m
  | .signal =>
    if m.p > 0 then
      { m with p := m.p - 1, s := if cfg.listen then (step (step m.s (.wake 0 false)).2 (.wake cfg.c true)).2
          else if m.wait then (step (step m.s (.wake 0 false)).2 (.wake cfg.c false)).2 else m.s }
    else m
  | .shutSignal =>
    if m.ps > 0 then { m with ps := m.ps - 1, s := (step (step m.s (.wake 0 false)).2 (.wake cfg.c false)).2 } else m
  | .selCheck t => if m.pc t = .out && m.q = 0 && !m.shut && (recOf m.s t).isNone then m.to t .selDecided else m
  | .selSleep t =>
    if m.pc t = .selDecided then
      let r := step m.s (.sleep t 0 false)
      if r.1 = .sleeping then { m with s := r.2 }.to t .selSlp else m.to t .out
    else m
  | .selRet t =>
    if m.pc t = .selSlp then
      let r := step m.s (.ret t)
      if r.1 = .blocked then m else { m with s := r.2 }.to t .out
    else m
  | .other ev => if foreign cfg m ev then { m with s := (step m.s ev).2 } else m

/-- Reachable states. -/
inductive MReach (n : Nat) (cfg : Cfg) : M → Prop where
  | init : MReach n cfg (M.init n)
  | step {m : M} (ev : MEv) : MReach n cfg m → MReach n cfg (mstep cfg m ev)

/-- Threads woken on a channel. -/
def wokenOn (c : Nat) (l : List Rec) : Nat := (l.filter fun x => decide (x.chan = c) && x.go).length

/-- Somebody sleeps on the channel. -/
def SomeAsleep (c : Nat) (l : List Rec) : Prop := ∃ x ∈ l, x.chan = c ∧ x.go = false

/-! ## Lists -/

theorem wokenOn_cons (c : Nat) (x : Rec) (l : List Rec) : wokenOn c (x :: l) = (if x.chan = c ∧ x.go = true then 1 else 0) + wokenOn c l := by
  unfold wokenOn
  by_cases k : x.chan = c ∧ x.go = true
  · rw [List.filter_cons_of_pos (by simp [k]), if_pos k, List.length_cons, Nat.add_comm]
  · rw [List.filter_cons_of_neg (by simpa using k), if_neg k, Nat.zero_add]

theorem wokenOn_append (c : Nat) (l1 l2 : List Rec) : wokenOn c (l1 ++ l2) = wokenOn c l1 + wokenOn c l2 := by
  unfold wokenOn; rw [List.filter_append, List.length_append]

/-- The keys of those inside. -/
def keys (l : List Rec) : List (Nat × Nat) := l.map fun x => (x.thr, x.chan)

theorem keys_first (d : Nat) (b : Bool) (l : List Rec) : keys (wakeFirst d b l) = keys l := by
  induction l with
  | nil => rfl
  | cons x l ih =>
    unfold wakeFirst
    split
    · simp [keys, mark_thr, mark_chan]
    · simp only [keys, List.map_cons] at ih ⊢; rw [ih]

theorem keys_all (d : Nat) (b : Bool) (l : List Rec) : keys (wakeAll d b l) = keys l := by
  unfold keys wakeAll
  rw [List.map_map]
  apply List.map_congr_left
  intro x _
  simp only [Function.comp]
  split
  · rw [mark_thr, mark_chan]
  · rfl

/-- Waking only turns sleepers into woken ones. -/
structure Wakes (c : Nat) (l l' : List Rec) : Prop where
  keys : keys l' = keys l
  asl : SomeAsleep c l' → SomeAsleep c l
  wk : wokenOn c l ≤ wokenOn c l'
  bt : (∀ x ∈ l, x.chan = c → x.byTimer = false) → ∀ x ∈ l', x.chan = c → x.byTimer = false

theorem Wakes.refl (c : Nat) (l : List Rec) : Wakes c l l := ⟨rfl, id, Nat.le_refl _, id⟩

theorem Wakes.trans {c : Nat} {l1 l2 l3 : List Rec} (h : Wakes c l1 l2) (h' : Wakes c l2 l3) : Wakes c l1 l3 :=
  ⟨h'.keys.trans h.keys, h.asl ∘ h'.asl, Nat.le_trans h.wk h'.wk, h'.bt ∘ h.bt⟩

theorem wakes_first (c d : Nat) (b : Bool) (l : List Rec) (hb : d = c → b = false) : Wakes c l (wakeFirst d b l) := by
  refine ⟨keys_first d b l, ?_, ?_, ?_⟩
  · rcases wakeFirst_cases d b l with ⟨_, h⟩ | ⟨l1, x, l2, h1, h2, h3, h4, h5⟩
    · rw [h]; exact id
    · rw [h5, h1]
      rintro ⟨y, hy, k1, k2⟩
      rcases List.mem_append.1 hy with m | m
      · exact ⟨y, List.mem_append.2 (.inl m), k1, k2⟩
      · rcases List.mem_cons.1 m with m | m
        · rw [m, mark_go] at k2; cases k2
        · exact ⟨y, List.mem_append.2 (.inr (List.mem_cons_of_mem _ m)), k1, k2⟩
  · rcases wakeFirst_cases d b l with ⟨_, h⟩ | ⟨l1, x, l2, h1, h2, h3, h4, h5⟩
    · rw [h]; exact Nat.le_refl _
    · rw [h5, h1, wokenOn_append, wokenOn_append, wokenOn_cons, wokenOn_cons, h4]
      simp
  · intro h
    rcases wakeFirst_cases d b l with ⟨_, e⟩ | ⟨l1, x, l2, h1, h2, h3, h4, h5⟩
    · rw [e]; exact h
    · rw [h5]
      intro y hy k
      rcases List.mem_append.1 hy with m | m
      · exact h y (by rw [h1]; exact List.mem_append.2 (.inl m)) k
      · rcases List.mem_cons.1 m with m | m
        · rw [m, mark_chan] at k
          have e := hb (by rw [← h3, k])
          rw [m, e]
          exact h x (by rw [h1]; simp) k
        · exact h y (by rw [h1]; simp [m]) k

theorem wakes_all (c d : Nat) (l : List Rec) : Wakes c l (wakeAll d false l) ∧ (d = c → ¬ SomeAsleep c (wakeAll d false l)) := by
  refine ⟨⟨keys_all d false l, ?_, ?_, ?_⟩, ?_⟩
  · rintro ⟨y, hy, k1, k2⟩
    obtain ⟨x, hx, rfl⟩ := List.mem_map.1 hy
    split at k2
    · rw [mark_go] at k2; cases k2
    · rename_i k; rw [if_neg k] at k1; exact ⟨x, hx, k1, k2⟩
  · induction l with
    | nil => exact Nat.le_refl _
    | cons x l ih =>
      show _ ≤ wokenOn c ((if x.chan = d ∧ x.go = false then mark false x else x) :: wakeAll d false l)
      rw [wokenOn_cons, wokenOn_cons]
      refine Nat.add_le_add ?_ ih
      split
      · rename_i k
        split
        · rw [if_pos ⟨by rw [mark_chan]; exact k.1, mark_go _ _⟩]; exact Nat.le_refl _
        · exact Nat.le_refl _
      · exact Nat.zero_le _
  · intro h y hy k
    obtain ⟨x, hx, rfl⟩ := List.mem_map.1 hy
    split at k
    · rename_i k'; rw [if_pos k']; exact h x hx k
    · rename_i k'; rw [if_neg k']; exact h x hx k
  · rintro rfl ⟨y, hy, k1, k2⟩
    obtain ⟨x, hx, rfl⟩ := List.mem_map.1 hy
    split at k2
    · rw [mark_go] at k2; cases k2
    · rename_i k; rw [if_neg k] at k1; exact k ⟨k1, k2⟩

/-- Waking one: nobody sleeps, or one more is woken. -/
theorem first_count (c : Nat) (l : List Rec) : ¬ SomeAsleep c (wakeFirst c false l) ∨ wokenOn c (wakeFirst c false l) = wokenOn c l + 1 := by
  rcases wakeFirst_cases c false l with ⟨h, e⟩ | ⟨l1, x, l2, h1, h2, h3, h4, h5⟩
  · left; rw [e]
    rintro ⟨y, hy, k⟩
    exact h y hy k
  · right
    rw [h5, h1, wokenOn_append, wokenOn_append, wokenOn_cons, wokenOn_cons, h4]
    simp [mark_chan, mark_go, h3]
    omega

/-- The code's wakeup on the list of those inside. -/
theorem step_wake {n : Nat} {s : S} (h : Inv n s) (d : Nat) (one : Bool) : Inv n (step s (.wake d one)).2 ∧ (step s (.wake d one)).2.timers = s.timers ∧
    (abs (step s (.wake d one)).2).inside = if one then wakeFirst d false (abs s).inside else wakeAll d false (abs s).inside := by
  obtain ⟨a, b⟩ := step_refines h (.wake d one)
  have : abs (step s (.wake d one)).2 = (spec n (abs s) (.wake d one)).2 := by rw [b]
  exact ⟨a, rfl, by rw [this]; rfl⟩

/-! ## Invariant -/

/-- One if the holder of the lock is at the check. -/
def chk (m : M) : Nat := match m.lock with | some t => if m.pc t = .check then 1 else 0 | none => 0

/-- Invariant of the waiting loops. -/
structure J (n : Nat) (cfg : Cfg) (m : M) : Prop where
  inv : Inv n m.s
  slp : ∀ t, m.pc t = .slp ↔ (t, cfg.c) ∈ keys (abs m.s).inside
  has : ∀ t, (m.pc t = .check ∨ m.pc t = .decided) → m.lock = some t
  noin : ∀ t, (m.pc t = .check ∨ m.pc t = .decided ∨ m.pc t = .selDecided) → ∀ d, (t, d) ∉ keys (abs m.s).inside
  tm : ∀ x ∈ m.s.timers, x.chan ≠ cfg.c
  bt : ∀ x ∈ (abs m.s).inside, x.chan = cfg.c → x.byTimer = false
  dec : ∀ t, m.pc t = .decided → m.q = 0 ∧ (cfg.listen = false → m.shut = false)
  wait : SomeAsleep cfg.c (abs m.s).inside → m.wait = true
  cntl : cfg.listen = true → SomeAsleep cfg.c (abs m.s).inside → m.q ≤ m.p + wokenOn cfg.c (abs m.s).inside + chk m
  cntr : cfg.listen = false → SomeAsleep cfg.c (abs m.s).inside → (m.q = 0 ∧ m.shut = false) ∨ 0 < m.p

theorem J.init (n : Nat) (cfg : Cfg) : J n cfg (M.init n) := by
  have e : (abs (M.init n).s).inside = [] := rfl
  refine ⟨Inv.init n, ?_, ?_, ?_, ?_, ?_, ?_, ?_, ?_, ?_⟩
  · intro t; rw [e]; simp [keys, M.init]
  · rintro t (h | h) <;> cases h
  · rintro t (h | h | h) <;> cases h
  · intro x hx; cases hx
  · intro x hx; rw [e] at hx; cases hx
  · intro t h; cases h
  · rw [e]; rintro ⟨_, h, _⟩; cases h
  · intro _; rw [e]; rintro ⟨_, h, _⟩; cases h
  · intro _; rw [e]; rintro ⟨_, h, _⟩; cases h

/-- The invariant survives waking. -/
theorem J.wakes {n : Nat} {cfg : Cfg} {m : M} (j : J n cfg m) {s' : S} (hi : Inv n s') (ht : ∀ x ∈ s'.timers, x ∈ m.s.timers)
    (w : Wakes cfg.c (abs m.s).inside (abs s').inside) : J n cfg { m with s := s' } := by
  refine ⟨hi, ?_, j.has, ?_, fun x hx => j.tm x (ht x hx), w.bt j.bt, j.dec, fun h => j.wait (w.asl h), ?_, fun h k => j.cntr h (w.asl k)⟩
  · intro t; show m.pc t = .slp ↔ _; rw [w.keys]; exact j.slp t
  · intro t h d; show (t, d) ∉ keys (abs s').inside; rw [w.keys]; exact j.noin t h d
  · intro h k
    have := j.cntl h (w.asl k)
    have := w.wk
    show m.q ≤ m.p + wokenOn cfg.c (abs s').inside + chk m
    omega

end Verif.Sleep

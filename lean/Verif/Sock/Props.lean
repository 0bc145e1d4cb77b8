import Verif.Sock.Frame2
/-! # Life of sockets: the properties -/
namespace Verif.Sock

variable {n : Nat} {l : Log} {s : S}

/-- A history determines the state. -/
theorem Hist.det {s' : S} (h : Hist n l s) (h' : Hist n l s') : s = s' := by
  induction h generalizing s' with
  | nil => cases h'; rfl
  | cons ev h hl ih =>
    generalize hr : (step _ ev).1 = r at h'
    cases h' with
    | cons ev h2 hl2 => rw [ih h2]

/-! ## Descriptors -/

/-- A descriptor returned by `ofp_socket` or `ofp_accept` is none of those the application holds, and within the table; no
descriptor is held twice. -/
theorem descriptors_unique (h : Hist n l s) :
    (opened l).Nodup ∧ (∀ i ∈ opened l, i < n) ∧
    (∀ tcp attach i, (step s (.socket tcp attach)).1 = some i → i ∉ opened l ∧ i < n) ∧
    (∀ j i, (step s (.accept2 j)).1 = some i → i = j ∧ i ∉ opened l ∧ i < n) := by
  obtain ⟨own, a, b, c⟩ := h.inv
  have nd : ∀ {l : Log} {s : S}, Hist n l s → (opened l).Nodup ∧ ∀ i ∈ opened l, i < n := by
    intro l s h
    obtain ⟨own, a, _, _⟩ := h.inv
    refine ⟨a.nodup .user rfl, fun i hi => a.lt ?_⟩
    rw [(a.mem .user rfl i).1 hi]; exact (fun c => by cases c)
  refine ⟨(nd h).1, (nd h).2, ?_, ?_⟩
  · intro tcp attach i hi
    have h2 := Hist.cons (.socket tcp attach) h trivial
    rw [hi] at h2
    obtain ⟨q1, q2⟩ := nd h2
    exact ⟨(List.nodup_cons.1 q1).1, q2 i List.mem_cons_self⟩
  · intro j i hi
    have h2 := Hist.cons (.accept2 j) h trivial
    rw [hi] at h2
    obtain ⟨q1, q2⟩ := nd h2
    refine ⟨?_, (List.nodup_cons.1 q1).1, q2 i List.mem_cons_self⟩
    unfold step at hi
    dsimp only at hi
    split at hi
    · rename_i m
      obtain ⟨_, _, _, _, r⟩ := a.accept2 b m
      rcases r with r | r <;> rw [r] at hi <;> cases hi
      rfl
    · cases hi

/-! ## Nothing is lost -/

/-- Who has a socket of the table. -/
inductive Place where
  | pool | application | queue (h : Nat) | accepting | aborting | tcp | nobody
deriving DecidableEq

/-- What it means to be there: in the pool; held by the application; waiting at a listening socket the application holds;
inside `ofp_accept` or `ofp_close`; held by TCP until the connection is over; or nobody's, after a failed `ofp_accept`. -/
def Place.At (s : S) (l : Log) (i : Nat) : Place → Prop
  | .pool => i ∈ s.free
  | .application => i ∈ opened l
  | .queue h => h ∈ opened l ∧ (i ∈ (s.so h).comp ∨ i ∈ (s.so h).incomp)
  | .accepting => i ∈ s.taken
  | .aborting => i ∈ s.aborting
  | .tcp => (s.so i).proto = true ∧ i ∉ opened l ∧ ¬ finished s i
  | .nobody => (Ev.accept2 i, none) ∈ l ∧ i ∉ opened l ∧ i ∉ s.taken ∧ (s.so i).count = 1 ∧ (s.so i).pcb ≠ none

/-- Every socket has a place. -/
theorem accounted (h : Hist n l s) (i : Nat) (hi : i < n) : ∃ p : Place, p.At s l i := by
  obtain ⟨own, a, b, c⟩ := h.inv
  have nu : own i ≠ .user → i ∉ opened l := fun h q => h ((a.mem .user rfl i).1 q)
  cases hw : own i with
  | out => exact absurd ((a.out i).1 hw) (by omega)
  | free => exact ⟨.pool, (a.mem .free rfl i).2 hw⟩
  | user => exact ⟨.application, (a.mem .user rfl i).2 hw⟩
  | comp k =>
    refine ⟨.queue k, ?_, .inl ((a.mem (.comp k) rfl i).2 hw)⟩
    exact (a.mem .user rfl k).2 (a.head_user (.inl hw)).1
  | incomp k =>
    refine ⟨.queue k, ?_, .inr ((a.mem (.incomp k) rfl i).2 hw)⟩
    exact (a.mem .user rfl k).2 (a.head_user (.inr hw)).1
  | taken => exact ⟨.accepting, (a.mem .taken rfl i).2 hw⟩
  | aborting => exact ⟨.aborting, (a.mem .aborting rfl i).2 hw⟩
  | lost =>
    obtain ⟨⟨p, hp, _⟩, u1, _⟩ := a.used (i := i) (by rw [hw]; exact (fun c => by cases c)) (by rw [hw]; exact (fun c => by cases c))
    refine ⟨.nobody, (c i).1 hw, nu (by rw [hw]; exact (fun c => by cases c)), fun q => ?_, by rw [u1, hw]; rfl, by rw [hp]; exact (fun c => by cases c)⟩
    have := (a.mem .taken rfl i).1 q
    rw [hw] at this; cases this
  | loose =>
    obtain ⟨⟨p, hp, r, _⟩, u1, _⟩ := a.used (i := i) (by rw [hw]; exact (fun c => by cases c)) (by rw [hw]; exact (fun c => by cases c))
    have hpr := b i hw (fun c => by cases c)
    refine ⟨.tcp, hpr, nu (by rw [hw]; exact (fun c => by cases c)), fun f => ?_⟩
    have := f p hp
    rw [(r.2.1 hpr).2.1] at this; cases this
  | fresh j => exact absurd hw ((c i).2 j)

/-- Only one place. -/
theorem one_place (h : Hist n l s) (i : Nat) (p q : Place) (hp : p.At s l i) (hq : q.At s l i) : p = q := by
  obtain ⟨own, a, b, c⟩ := h.inv
  have key : ∀ p : Place, p.At s l i → (p = .pool ∧ own i = .free) ∨ (p = .application ∧ own i = .user) ∨
      (∃ k, p = .queue k ∧ (own i = .comp k ∨ own i = .incomp k)) ∨ (p = .accepting ∧ own i = .taken) ∨ (p = .aborting ∧ own i = .aborting) ∨
      (p = .tcp ∧ own i = .loose) ∨ (p = .nobody ∧ own i = .lost) := by
    intro p hp
    cases p with
    | pool => exact .inl ⟨rfl, (a.mem .free rfl i).1 hp⟩
    | application => exact .inr (.inl ⟨rfl, (a.mem .user rfl i).1 hp⟩)
    | queue k =>
      refine .inr (.inr (.inl ⟨k, rfl, ?_⟩))
      rcases hp.2 with q | q
      · exact .inl ((a.mem (.comp k) rfl i).1 q)
      · exact .inr ((a.mem (.incomp k) rfl i).1 q)
    | accepting => exact .inr (.inr (.inr (.inl ⟨rfl, (a.mem .taken rfl i).1 hp⟩)))
    | aborting => exact .inr (.inr (.inr (.inr (.inl ⟨rfl, (a.mem .aborting rfl i).1 hp⟩))))
    | tcp =>
      refine .inr (.inr (.inr (.inr (.inr (.inl ⟨rfl, ?_⟩)))))
      obtain ⟨h1, h2, h3⟩ := hp
      have hpc : (s.so i).pcb ≠ none := fun e => h3 (fun p hp => by rw [e] at hp; cases hp)
      obtain ⟨o1, o2⟩ := a.of_pcb hpc
      obtain ⟨⟨p, _, _, hx⟩, _⟩ := a.used o1 o2
      by_cases cu : own i = .user
      · exact absurd ((a.mem .user rfl i).2 cu) h2
      · rw [if_neg cu] at hx
        by_cases cl : own i = .loose
        · exact cl
        · have := (hx.2.2.2 cl).1
          rw [h1] at this; cases this
    | nobody =>
      refine .inr (.inr (.inr (.inr (.inr (.inr ⟨rfl, ?_⟩)))))
      obtain ⟨_, h2, h3, h4, h5⟩ := hp
      obtain ⟨o1, o2⟩ := a.of_pcb h5
      obtain ⟨_, u1, _⟩ := a.used o1 o2
      rw [h4] at u1
      cases hw : own i with
      | user => exact absurd ((a.mem .user rfl i).2 hw) h2
      | taken => exact absurd ((a.mem .taken rfl i).2 hw) h3
      | lost => rfl
      | _ => rw [hw] at u1; cases u1
  have fn : ∀ p : Place, p.At s l i → p = (match own i with
      | .free => .pool | .user => .application | .comp k => .queue k | .incomp k => .queue k | .taken => .accepting
      | .aborting => .aborting | .loose => .tcp | _ => .nobody) := by
    intro p hp
    rcases key p hp with ⟨e, hw⟩ | ⟨e, hw⟩ | ⟨k, e, hw | hw⟩ | ⟨e, hw⟩ | ⟨e, hw⟩ | ⟨e, hw⟩ | ⟨e, hw⟩ <;> rw [hw, e]
  rw [fn p hp, fn q hq]

/-- When the application has closed everything, no call is in progress, every connection is over, and no `ofp_accept`
failed after it took a connection, all sockets are back in the pool.
Missing for the full claim: failed calls of `ofp_accept` (`failed_accept_violated`). -/
theorem released_partial (h : Hist n l s) (h1 : opened l = []) (h2 : s.taken = []) (h3 : s.aborting = [])
    (h4 : ∀ i, finished s i) (h5 : NoFailedAccept l) : s.free.Perm (List.range n) := by
  obtain ⟨own, a, b, c⟩ := h.inv
  have nd : s.free.Nodup := a.nodup .free rfl
  rw [List.perm_ext_iff_of_nodup nd List.nodup_range]
  intro i
  rw [List.mem_range]
  constructor
  · intro q
    exact a.lt (by rw [(a.mem .free rfl i).1 q]; exact (fun c => by cases c))
  · intro q
    obtain ⟨p, hp⟩ := accounted h i q
    cases p with
    | pool => exact hp
    | application => have hp : i ∈ opened l := hp; rw [h1] at hp; cases hp
    | queue k => have hp := hp.1; rw [h1] at hp; cases hp
    | accepting => have hp : i ∈ s.taken := hp; rw [h2] at hp; cases hp
    | aborting => have hp : i ∈ s.aborting := hp; rw [h3] at hp; cases hp
    | tcp => exact absurd (h4 i) hp.2.2
    | nobody => exact absurd hp.1 (h5 i)

/-- Run a list of events, earliest first. -/
def run (n : Nat) (evs : List Ev) : Log × S :=
  evs.foldl (fun x ev => ((ev, (step x.2 ev).1) :: x.1, (step x.2 ev).2)) ([], init n)

/-- `Legal`, decided. -/
def legalB (s : S) (l : Log) : Ev → Bool
  | .listen i _ => decide (i ∈ opened l ∧ (s.so i).pc = 0)
  | .connect i => decide (i ∈ opened l ∧ (s.so i).pc = 0)
  | .shutdown i => decide (i ∈ opened l ∧ (s.so i).pc = 0)
  | .accept1 i => decide (i ∈ opened l)
  | .closeDisc i _ _ => decide (i ∈ opened l)
  | .closePru i _ => decide (i ∈ opened l)
  | .closeDeq i => decide (i ∈ opened l)
  | .closeEnd i => decide (i ∈ opened l)
  | _ => true

theorem legalB_iff (s : S) (l : Log) (ev : Ev) : legalB s l ev = true → Legal s l ev := by
  cases ev <;> simp [legalB, Legal]

/-- All events of a list are legal. -/
def allLegal : Log × S → List Ev → Bool
  | _, [] => true
  | x, ev :: r => legalB x.2 x.1 ev && allLegal ((ev, (step x.2 ev).1) :: x.1, (step x.2 ev).2) r

theorem hist_run {n : Nat} (evs : List Ev) (h : allLegal ([], init n) evs = true) : Hist n (run n evs).1 (run n evs).2 := by
  have : ∀ (evs : List Ev) (x : Log × S), Hist n x.1 x.2 → allLegal x evs = true →
      Hist n (evs.foldl (fun x ev => ((ev, (step x.2 ev).1) :: x.1, (step x.2 ev).2)) x).1
        (evs.foldl (fun x ev => ((ev, (step x.2 ev).1) :: x.1, (step x.2 ev).2)) x).2 := by
    intro evs
    induction evs with
    | nil => intro x hx _; exact hx
    | cons ev r ih =>
      intro x hx hl
      simp only [allLegal, Bool.and_eq_true] at hl
      exact ih _ (Hist.cons ev hx (legalB_iff _ _ _ hl.1)) hl.2
  exact this evs ([], init n) Hist.nil h

/-- A server: listen, two connections, one of them accepted and both closed. -/
def demo : List Ev :=
  [.socket true true, .listen 0 5, .newconn 0 true true, .established 1, .newconn 0 true true, .accept1 0, .accept2 1, .established 2,
   .disconnected 1, .closeDisc 1 true false, .closePru 1 false, .closeEnd 1, .tcpDone 1,
   .closeDisc 0 false false, .closePru 0 false, .closeDeq 0, .abort 2, .closeEnd 0]

example : ∃ l s, Hist 3 l s ∧ opened l = [] ∧ s.taken = [] ∧ s.aborting = [] ∧ (∀ i < 3, (s.so i).pcb = none) ∧ NoFailedAccept l ∧ l.length = 18 ∧
    s.free = [0, 2, 1] := by
  refine ⟨_, _, hist_run demo (by decide +kernel), by decide +kernel, by decide +kernel, by decide +kernel, by decide +kernel, ?_, by decide +kernel, by decide +kernel⟩
  intro i hi
  have e : (run 3 demo).1.all (fun e => match e with | (.accept2 _, none) => false | _ => true) = true := by decide +kernel
  have := (List.all_eq_true.1 e) _ hi
  cases this

/-- A connection that `ofp_accept` took from the queue and then refused (the peer has reset it or it is already closed) is
lost for ever: whatever happens afterwards, its socket does not return to the pool, no descriptor is ever returned for it,
and its control block stays allocated. -/
theorem failed_accept_violated {l' : Log} {s' : S} {i : Nat} (h : Hist n l s) (ht : i ∈ s.taken)
    (h' : Hist n (l' ++ (Ev.accept2 i, none) :: l) s') :
    i ∉ s'.free ∧ i ∉ opened (l' ++ (Ev.accept2 i, none) :: l) ∧ (s'.so i).count = 1 ∧ (s'.so i).pcb ≠ none := by
  have key : ∀ (l' : Log) (s' : S), Hist n (l' ++ (Ev.accept2 i, none) :: l) s' →
      ∃ own, Inv n s' (opened (l' ++ (Ev.accept2 i, none) :: l)) own ∧ Tight s' own none ∧ (∀ k j, own k ≠ .fresh j) ∧ own i = .lost := by
    intro l'
    induction l' with
    | nil =>
      intro s' h'
      simp only [List.nil_append] at h' ⊢
      generalize he : ((Ev.accept2 i, none) :: l : Log) = L at h'
      cases h' with
      | nil => cases he
      | cons ev h2 hl =>
        rename_i l2 s2
        simp only [List.cons.injEq, Prod.mk.injEq] at he
        obtain ⟨⟨e1, e2⟩, e3⟩ := he
        subst e3
        have e4 := Hist.det h h2
        subst e4
        obtain ⟨own, a, b, c⟩ := h.inv
        obtain ⟨own', d, e, f⟩ := a.step b (fun k j => (c k).2 j) ev hl
        exact ⟨own', d, e, fun k j => (f k).2.2.2 j, (f i).2.2.1 e1.symm ht e2.symm⟩
    | cons x l' ih =>
      intro s' h'
      simp only [List.cons_append] at h' ⊢
      generalize he : (x :: (l' ++ (Ev.accept2 i, none) :: l) : Log) = L at h'
      cases h' with
      | nil => cases he
      | cons ev h2 hl =>
        rename_i l2 s2
        simp only [List.cons.injEq] at he
        obtain ⟨e1, e3⟩ := he
        subst e3
        obtain ⟨own, a, b, c, d⟩ := ih s2 h2
        obtain ⟨own', e, f, g⟩ := a.step b c ev hl
        exact ⟨own', e, f, fun k j => (g k).2.2.2 j, (g i).2.1 d⟩
  obtain ⟨own, a, _, _, d⟩ := key l' s' h'
  refine ⟨fun q => ?_, fun q => ?_, ?_, ?_⟩
  · have := (a.mem .free rfl i).1 q; rw [d] at this; cases this
  · have := (a.mem .user rfl i).1 q; rw [d] at this; cases this
  · obtain ⟨_, u1, _⟩ := a.used (i := i) (by rw [d]; exact (fun c => by cases c)) (by rw [d]; exact (fun c => by cases c))
    rw [u1, d]; rfl
  · obtain ⟨⟨p, hp, _⟩, _⟩ := a.used (i := i) (by rw [d]; exact (fun c => by cases c)) (by rw [d]; exact (fun c => by cases c))
    rw [hp]; exact (fun c => by cases c)

/-- The peer resets a connection before it is accepted. -/
def demoReset : List Ev := [.socket true true, .listen 0 5, .newconn 0 true true, .established 1, .tcpDone 1, .accept1 0]

example : ∃ l s, Hist 2 l s ∧ 1 ∈ s.taken ∧ Hist 2 ((Ev.accept2 1, none) :: l) (step s (.accept2 1)).2 := by
  refine ⟨_, _, hist_run demoReset (by decide +kernel), by decide +kernel, ?_⟩
  exact Hist.cons (.accept2 1) (hist_run demoReset (by decide +kernel)) trivial

/-! ## Accept -/

/-- `ofp_accept` returns the oldest completed connection that was not returned yet. -/
theorem accept_fifo {h : Nat} {l' : Log} {s' : S} (hs : Hist n l s) (hs' : Hist n (l' ++ l) s') (hc : NotClosed h l') :
    accepted h l' ++ (s'.so h).comp = (s.so h).comp ++ completed h l' := by
  induction l' generalizing s' with
  | nil =>
    have := Hist.det hs hs'
    subst this
    simp [accepted, completed]
  | cons x l' ih =>
    simp only [List.cons_append] at hs'
    generalize he : (x :: (l' ++ l) : Log) = L at hs'
    cases hs' with
    | nil => cases he
    | cons ev h2 hl =>
      rename_i l2 s2
      simp only [List.cons.injEq] at he
      obtain ⟨e1, e3⟩ := he
      subst e3
      have hc' : NotClosed h l' := fun e he => hc e (List.mem_cons_of_mem _ he)
      have hx := hc x List.mem_cons_self
      have ih := ih h2 hc'
      obtain ⟨own, a, b, c⟩ := h2.inv
      have fr := (inv_frame a b ev hl h).1
      rw [e1] at hx ⊢
      cases ev with
      | accept1 k =>
        simp only [accepted, completed]
        have fr : if k = h then _ else _ := fr
        split at fr
        · rename_i e
          rw [if_pos e, List.append_assoc, fr, ih]
        · rename_i e
          rw [if_neg e, List.append_nil, fr, ih]
      | established i =>
        simp only [accepted, completed]
        have fr : _ = _ ++ _ := fr
        rw [fr, ← List.append_assoc, ih, List.append_assoc]
      | closeDeq j =>
        have fr : _ → _ := fr
        simp only [accepted, completed]
        rw [fr (fun e => hx.1 (by rw [e])), ih]
      | _ =>
        have fr : (_ : List Nat) = _ := fr
        simp only [accepted, completed]
        rw [fr, ih]

/-- So the connections handed out are, in order and without repetition, the first of those completed; and a call of
`ofp_accept` on a listening socket gets the next one, if there is one. -/
theorem accept_order {h : Nat} (hs : Hist n l s) (hc : NotClosed h l) :
    accepted h l <+: completed h l ∧
    ((s.so h).accepting = true → (step s (.accept1 h)).1 = ((completed h l).drop (accepted h l).length).head?) := by
  have e := accept_fifo (l := []) (l' := l) (h := h) Hist.nil (by rw [List.append_nil]; exact hs) hc
  have e : accepted h l ++ (s.so h).comp = completed h l := e
  refine ⟨⟨_, e⟩, fun ha => ?_⟩
  rw [← e, List.drop_left]
  show (Verif.Sock.accept1 s h).1 = _
  unfold Verif.Sock.accept1
  rw [if_pos ha]
  cases (s.so h).comp <;> rfl

example : ∃ l s, Hist 3 l s ∧ NotClosed 0 l ∧ accepted 0 l = [1] ∧ completed 0 l = [1, 2] ∧ (s.so 0).accepting = true := by
  refine ⟨_, _, hist_run (demo.take 8) (by decide +kernel), ?_, by decide +kernel, by decide +kernel, by decide +kernel⟩
  intro e he
  have q : (run 3 (demo.take 8)).1.all (fun e => decide (e.1 ≠ .closeDeq 0 ∧ e.1 ≠ .closeEnd 0)) = true := by decide +kernel
  exact of_decide_eq_true ((List.all_eq_true.1 q) e he)

/-! ## Backlog -/

/-- A listening socket never has more than `3 * q / 2 + q + 1` pending connections, when `q` bounds the backlogs it was
given; and the counters the code keeps are the lengths of the queues. -/
theorem backlog_bound {h q : Nat} (hs : Hist n l s) (hq : ∀ b r, (Ev.listen h b, r) ∈ l → backlog b ≤ q) :
    (s.so h).comp.length + (s.so h).incomp.length ≤ 3 * q / 2 + q + 1 ∧ (s.so h).qlen = (s.so h).comp.length ∧
      (s.so h).incqlen = (s.so h).incomp.length := by
  have inv := hs.inv
  refine ⟨?_, by obtain ⟨own, a, _, _⟩ := inv; exact a.ql h, by obtain ⟨own, a, _, _⟩ := inv; exact a.il h⟩
  have key : (s.so h).qlimit ≤ q ∧ tot (s.so h) ≤ 3 * q / 2 + q + 1 := by
    clear inv
    induction hs with
    | nil => exact ⟨Nat.zero_le _, Nat.zero_le _⟩
    | cons ev h2 hl ih =>
      rename_i l2 s2
      obtain ⟨i1, i2⟩ := ih (fun b r m => hq b r (List.mem_cons_of_mem _ m))
      obtain ⟨own, a, b, c⟩ := h2.inv
      obtain ⟨_, f2, f3⟩ := inv_frame a b ev hl h
      constructor
      · rcases f2 with f | f | ⟨b, e, f⟩
        · rw [f]; exact i1
        · rw [f]; exact Nat.zero_le _
        · rw [f]; exact hq b _ (by rw [e]; exact List.mem_cons_self)
      · rcases f3 with f | f
        · exact Nat.le_trans f i2
        · refine Nat.le_trans f ?_
          have : 3 * (s2.so h).qlimit / 2 ≤ 3 * q / 2 := Nat.div_le_div_right (Nat.mul_le_mul_left 3 i1)
          omega
  exact key.2

/-- Whatever the application asks for: at most 321 pending connections, far from overflowing the 16-bit counters. -/
theorem backlog_max {h : Nat} (hs : Hist n l s) : (s.so h).comp.length + (s.so h).incomp.length ≤ 321 ∧ (s.so h).qlen < 2 ^ 16 ∧ (s.so h).incqlen < 2 ^ 16 := by
  have := backlog_bound (q := 128) (h := h) hs (fun b r _ => by unfold backlog somaxconn; split <;> simp_all <;> omega)
  omega

/-- A socket with backlog 0 takes one connection at a time. -/
example : ∃ l s, Hist 3 l s ∧ (∀ b r, (Ev.listen 0 b, r) ∈ l → backlog b ≤ 0) ∧ (s.so 0).comp.length + (s.so 0).incomp.length = 1 := by
  refine ⟨_, _, hist_run [.socket true true, .listen 0 0, .newconn 0 true true, .established 1, .newconn 0 true true] (by decide +kernel), ?_, by decide +kernel⟩
  intro b r m
  have : b = 0 := by
    have e : (run 3 [.socket true true, .listen 0 0, .newconn 0 true true, .established 1, .newconn 0 true true]).1.all
      (fun e => match e with | (.listen 0 b, _) => decide (b = 0) | _ => true) = true := by decide +kernel
    have := (List.all_eq_true.1 e) _ m
    exact of_decide_eq_true this
  rw [this]; decide

/-! ## Closing a listening socket -/

/-- When `ofp_close` of a socket has returned, no socket refers to it any more: nothing waits in its queues, and it is
not the head of any pending connection. -/
theorem closed_clean {i : Nat} (hs : Hist n l s) (hi : i ∈ opened l) (hr : (step s (.closeEnd i)).1 = some i) (k : Nat) :
    ((step s (.closeEnd i)).2.so k).head ≠ some i ∧ ((step s (.closeEnd i)).2.so i).comp = [] ∧ ((step s (.closeEnd i)).2.so i).incomp = [] ∨
    k ∈ (step s (.closeEnd i)).2.free ∨ n ≤ k := by
  have h2 := Hist.cons (.closeEnd i) hs hi
  rw [hr] at h2
  obtain ⟨own, a, b, c⟩ := h2.inv
  obtain ⟨own0, a0, _, _⟩ := hs.inv
  have hn : i ∉ (opened l).erase i := by
    have nd : (opened l).Nodup := a0.nodup .user rfl
    rw [nd.mem_erase_iff]; simp
  have hu : own i ≠ .user := fun c => hn ((a.mem .user rfl i).2 c)
  have hq : ((step s (.closeEnd i)).2.so i).comp = [] ∧ ((step s (.closeEnd i)).2.so i).incomp = [] := by
    constructor
    · apply Classical.byContradiction; intro c; exact hu (a.user_of_queue (.inl c)).1
    · apply Classical.byContradiction; intro c; exact hu (a.user_of_queue (.inr c)).1
  by_cases ck : own k = .out
  · exact .inr (.inr ((a.out k).1 ck))
  · by_cases cf : own k = .free
    · exact .inr (.inl ((a.mem .free rfl k).2 cf))
    · left
      refine ⟨fun e => ?_, hq.1, hq.2⟩
      obtain ⟨_, _, _, u3, _⟩ := a.used ck cf
      rw [e] at u3
      cases hw : own k with
      | comp j =>
        rw [hw] at u3; simp only [hd, Option.some.injEq] at u3
        rw [← u3] at hw
        exact hu (a.head_user (.inl hw)).1
      | incomp j =>
        rw [hw] at u3; simp only [hd, Option.some.injEq] at u3
        rw [← u3] at hw
        exact hu (a.head_user (.inr hw)).1
      | fresh j => exact (c k).2 j hw
      | _ => rw [hw] at u3; cases u3

/-- A pending connection that `ofp_close` aborts is over at once: its socket is back in the pool, or (when the connection
is in TIME_WAIT) TCP keeps it until TIME_WAIT ends. -/
theorem abort_ends {i : Nat} (hs : Hist n l s) (hi : i ∈ s.aborting) :
    i ∈ (step s (.abort i)).2.free ∨
    ∃ p, ((step s (.abort i)).2.so i).pcb = some p ∧ p.tw = true ∧ p.alive = false ∧ ((step s (.abort i)).2.so i).proto = true := by
  obtain ⟨own, a, b, c⟩ := hs.inv
  have hw : own i = .aborting := (a.mem .aborting rfl i).1 hi
  obtain ⟨⟨p, hp, r, hx⟩, u1, u2, u3, u4, u5⟩ := a.used (i := i) (by rw [hw]; exact (fun c => by cases c)) (by rw [hw]; exact (fun c => by cases c))
  rw [hw] at hx u1 u2 u3 u4 u5
  rw [if_neg (fun c => by cases c)] at hx
  obtain ⟨hpr, htcp, _⟩ := hx.2.2.2 (fun c => by cases c)
  have hsr : p.sockref = false := by rw [r.1, hpr]
  have hst : (step s (.abort i)).2 = soabort { s with aborting := s.aborting.erase i } i := by
    unfold step; dsimp only; rw [if_pos hi]
  rw [hst]
  have hp0 : ({ s with aborting := s.aborting.erase i }.so i).pcb = some p := hp
  have fr : ∀ s1 : S, hasRefs (s1.so i) = false → i ∈ (sofree s1 i).free := by
    intro s1 h1
    unfold sofree; rw [h1, if_neg Bool.false_ne_true]
    exact List.mem_cons_self
  have h0 : hasRefs (s.so i) = false := by simp [hasRefs, u1, u2, u4, hpr, cnt, nf, isComp]
  unfold soabort usrAbort
  rw [hp0]
  dsimp only
  by_cases c1 : (!p.tw && !p.dropped) = true
  · left
    rw [if_pos c1, tcpClose_noref hp0 hsr]
    have e : protoRef ({ s with aborting := s.aborting.erase i }.upd i fun o : So => { o with busy := false, disc := true, pcb := o.pcb.map fun p : Pcb => { p with dropped := true } }) i =
        ({ s with aborting := s.aborting.erase i }.upd i fun o : So => { o with busy := false, disc := true, pcb := o.pcb.map fun p : Pcb => { p with dropped := true } }) := by
      unfold protoRef; rw [upd_same, hp0]; simp
    rw [e]
    apply fr
    rw [upd_same]
    exact h0
  · rw [if_neg c1]
    unfold protoRef
    rw [hp0]
    dsimp only
    by_cases c2 : p.dropped = true
    · left
      rw [if_pos (by simp [c2])]
      exact fr _ h0
    · right
      have c3 : p.dropped = false := by simpa using c2
      have c4 : p.tw = true := by simpa [c3] using c1
      rw [if_neg (by simp [c3, htcp])]
      have e : sofree ((onPcb { s with aborting := s.aborting.erase i } i (fun p : Pcb => { p with sockref := true })).upd i fun o : So => { o with proto := true }) i =
          ((onPcb { s with aborting := s.aborting.erase i } i (fun p : Pcb => { p with sockref := true })).upd i fun o : So => { o with proto := true }) := by
        unfold sofree
        rw [if_pos]
        simp [hasRefs]
      rw [e]
      refine ⟨{ p with sockref := true }, ?_, c4, ?_, ?_⟩
      · rw [upd_same]; unfold onPcb; rw [upd_same]; dsimp only; rw [hp]; rfl
      · unfold Pcb.alive; dsimp only; rw [c4]; simp
      · rw [upd_same]

example : ∃ l s, Hist 3 l s ∧ 2 ∈ s.aborting ∧ 0 ∈ opened l ∧ (step (step s (.abort 2)).2 (.closeEnd 0)).1 = some 0 := by
  refine ⟨_, _, hist_run (demo.take 16) (by decide +kernel), by decide +kernel, by decide +kernel, by decide +kernel⟩

/-! ## Safety -/

/-- As long as the application uses only descriptors it holds, nothing crashes, and no socket is freed under a
connection TCP still works on: a socket in the pool has no control block. -/
theorem no_crash (hs : Hist n l s) : s.crash = false ∧ s.strays = 0 ∧ ∀ i ∈ s.free, (s.so i).pcb = none := by
  obtain ⟨own, a, _, _⟩ := hs.inv
  refine ⟨a.ok.1, a.ok.2, fun i hi => ?_⟩
  have g := a.good i
  unfold Good at g
  rw [if_pos (.inr ((a.mem .free rfl i).1 hi))] at g
  exact g.2.2

/-- `ofp_close` of a descriptor the application does not hold is not answered with `EBADF`: in every history, closing a
descriptor whose socket is in the pool follows a null pointer. -/
theorem bad_descriptor_violated (hs : Hist n l s) {i : Nat} (hi : i ∈ s.free) (act drop : Bool) : (step s (.closeDisc i act drop)).2.crash = true := by
  unfold step
  dsimp only
  rw [if_pos ((no_crash hs).2.2 i hi)]

example : (1 : Nat) ∈ (init 3).free := by decide

end Verif.Sock

import Verif.Igmp.HostCount
/-!
# Joining and leaving are reported as often as the robustness variable says
-/
namespace Verif.Igmp.Host

/-- A member reporting that it joined, or a group reporting that it is left. -/
def Phase (k : Kind) (m : Mem) : Prop :=
  (k = .toEx ∧ m.now = true ∧ (m.st = .reporting ∨ m.st = .gPending ∨ m.st = .sgPending)) ∨
  (k = .toIn ∧ m.now = false ∧ m.hold = true ∧ m.st = .leaving)

/-- Nothing that changes the membership again: it is not left (and, when it is being left, not joined again), and no query of
an older version comes. -/
def Settled (k : Kind) (g : Nat) : Ev → Prop
  | .join g' _ => k = .toIn → g' ≠ g
  | .leave g' _ => k = .toEx → g' ≠ g
  | .query1 _ => False
  | .query2 _ _ _ => False
  | _ => True

/-- `n + 1` reports are still to be sent, the next in `t + 1` ticks. -/
def Sched (k : Kind) (g n t : Nat) (l : Link) : Prop :=
  l.version = 3 ∧ l.scRun = true ∧ Uniq l ∧
    ∃ m ∈ l.groups, m.addr = g ∧ Phase k m ∧ m.scq = some k ∧ m.scrv = n + 1 ∧ m.sctimer = t + 1

/-- All is reported; a group that was left is gone. -/
def Done (k : Kind) (g : Nat) (l : Link) : Prop :=
  l.version = 3 ∧
    ((k = .toIn ∧ ∀ m ∈ l.groups, m.addr ≠ g) ∨
     (k = .toEx ∧ Only (fun _ => True) g l ∧ ∀ m ∈ l.groups, m.addr = g → m.scq = none))

theorem phase_kept {k : Kind} {m : Mem} (h : Phase k m) : m.kept := by
  rcases h with h | h
  · exact Or.inl h.2.1
  · exact Or.inr h.2.2.1

theorem phase_kind {k : Kind} {m : Mem} (h : Phase k m) : k ≠ .current ∧ k ≠ .currentSrc := by
  rcases h with h | h <;> rw [h.1] <;> decide

/-- A general query's answer in a tick. -/
theorem general3_phase {k : Kind} {m : Mem} (h : Phase k m) : Phase k (general3 m).1 ∧
    (general3 m).2.count ⟨m.addr, k⟩ = 0 := by
  obtain ⟨_, h2, h3, _, h5, _⟩ := general3_same m
  constructor
  · rcases h with ⟨a, b, c⟩ | ⟨a, b, c, d⟩
    · refine Or.inl ⟨a, h2.trans b, ?_⟩
      unfold general3
      rcases c with c | c | c <;> simp [c]
    · refine Or.inr ⟨a, h2.trans b, h5.trans c, ?_⟩
      unfold general3; simp [d]
  · rw [List.count_eq_zero]
    intro hx
    have hk := phase_kind h
    have : ∀ x ∈ (general3 m).2, x.kind = .current := by
      unfold general3
      split
      all_goals first | (simp; done) | skip
      all_goals
        intro x hx
        simp only at hx
        split at hx <;> simp_all
    exact hk.1 (this _ hx)

theorem answer3_phase {k : Kind} {m : Mem} (h : Phase k m) : Phase k (answer3 m).1 ∧
    (answer3 m).2.count ⟨m.addr, k⟩ = 0 ∧ (answer3 m).1.scq = m.scq ∧ (answer3 m).1.scrv = m.scrv ∧
    (answer3 m).1.sctimer = m.sctimer ∧ (answer3 m).1.addr = m.addr := by
  have hk := phase_kind h
  rcases h with ⟨a, b, c⟩ | ⟨a, b, c, d⟩
  · rcases c with c | c | c
    · simp [answer3, c, Phase, a, b]
    · simp [answer3, c, Phase, a, b]
    · simp [answer3, c, Phase, a, b]
  · simp [answer3, d, Phase, a, b, c]

/-- A tick: nothing is due, or a report is sent. -/
theorem timers3_phase {k : Kind} {m : Mem} {n t : Nat} (u : Nat) (h : Phase k m) (hq : m.scq = some k)
    (hn : m.scrv = n + 1) (ht : m.sctimer = t + 1) :
    (t ≠ 0 → Phase k (timers3 u m).1 ∧ (timers3 u m).1.scq = some k ∧ (timers3 u m).1.scrv = n + 1 ∧
      (timers3 u m).1.sctimer = t ∧ (timers3 u m).2.count ⟨m.addr, k⟩ = 0) ∧
    (t = 0 → (timers3 u m).2.count ⟨m.addr, k⟩ = 1 ∧
      (n ≠ 0 → Phase k (timers3 u m).1 ∧ (timers3 u m).1.scq = some k ∧ (timers3 u m).1.scrv = n ∧
        (timers3 u m).1.sctimer = u) ∧
      (n = 0 → (k = .toIn → ¬ (timers3 u m).1.kept) ∧ (k = .toEx → (timers3 u m).1.now = true ∧
        (timers3 u m).1.scq = none))) := by
  have hm' : Phase k { m with timer := m.timer - 1, sctimer := m.sctimer - 1 } := h
  unfold timers3
  simp only
  generalize hx : (if (m.timer == 1) = true then answer3 { m with timer := m.timer - 1, sctimer := m.sctimer - 1 }
    else ({ m with timer := m.timer - 1, sctimer := m.sctimer - 1 }, [])) = x
  have h1 : Phase k x.1 ∧ x.2.count ⟨m.addr, k⟩ = 0 ∧ x.1.scq = some k ∧ x.1.scrv = n + 1 ∧ x.1.sctimer = t ∧
      x.1.addr = m.addr := by
    rw [← hx]
    split
    · obtain ⟨a, b, c, d, e, f⟩ := answer3_phase hm'
      refine ⟨a, b, c.trans hq, d.trans hn, e.trans ?_, f⟩
      show m.sctimer - 1 = t
      omega
    · refine ⟨hm', rfl, hq, hn, ?_, rfl⟩
      show m.sctimer - 1 = t
      omega
  obtain ⟨p1, p2, p3, p4, p5, p6⟩ := h1
  constructor
  · intro h0
    have hb : (m.sctimer == 1) = false := by simp [ht, h0]
    simp only [hb, Bool.false_eq_true, if_false, List.append_nil]
    exact ⟨p1, p3, p4, p5, p2⟩
  · intro h0
    have hb : (m.sctimer == 1) = true := by simp [ht, h0]
    simp only [hb, if_true, List.count_append, p2, Nat.zero_add]
    have hst : x.1.st = .reporting ∨ x.1.st = .leaving ∨ x.1.st = .gPending ∨ x.1.st = .sgPending := by
      rcases p1 with ⟨_, _, c⟩ | ⟨_, _, _, d⟩
      · rcases c with c | c | c <;> simp [c]
      · simp [d]
    unfold resend3
    rw [if_pos hst]
    simp only [p3, p4, p6, Mem.commit, Nat.add_sub_cancel]
    by_cases hl : x.1.st = .leaving ∧ n = 0
    · rw [if_pos hl]
      refine ⟨by simp, fun hn => absurd hl.2 hn, fun _ => ⟨?_, ?_⟩⟩
      · intro hk
        rcases p1 with ⟨a, _, _⟩ | ⟨_, b, _, _⟩
        · rw [a] at hk; simp at hk
        · rintro (h | h)
          · rw [show x.1.now = true from h] at b; simp at b
          · simp at h
      · intro hk
        rcases p1 with ⟨_, _, c⟩ | ⟨a, _, _, _⟩
        · rcases c with c | c | c <;> rw [c] at hl <;> simp at hl
        · rw [a] at hk; simp at hk
    · rw [if_neg hl]
      refine ⟨by simp, fun hn0 => ?_, fun hn0 => ⟨?_, ?_⟩⟩
      · have : n > 0 := by omega
        simp only [if_pos this, and_self, and_true]
        exact p1
      · intro hk
        rcases p1 with ⟨a, _, _⟩ | ⟨_, _, _, d⟩
        · rw [a] at hk; simp at hk
        · exact absurd ⟨d, hn0⟩ hl
      · intro hk
        rcases p1 with ⟨_, b, _⟩ | ⟨a, _, _, _⟩
        · exact ⟨b, by simp [hn0]⟩
        · rw [a] at hk; simp at hk

theorem join_scRun {l : Link} (h : l.scRun = true) (g r : Nat) : (join l g r).1.scRun = true := by
  simp only [join]
  split
  · exact h
  · rw [Bool.or_eq_true]; left
    simp only [onGroup]; split <;> exact h

/-- An event that is not a tick. -/
theorem sched_step {k : Kind} {g n t : Nat} {l : Link} {e : Ev} (hi : Inv l) (h : Sched k g n t l) (hs : Settled k g e)
    (hnt : ∀ r, e ≠ .tick r) : Sched k g n t (step l e).1 ∧ (step l e).2.count ⟨g, k⟩ = 0 := by
  obtain ⟨hv, hrun, hu, m, hm, ha, hp, hq, hn, ht⟩ := h
  have h3 : ¬ (l.version ≠ 3) := by simp [hv]
  have hset := setVersion3 hi.ver hv
  have hcan : ∀ m, cancelIf l 3 m = m := cancelIf_same (by rw [hset])
  have hb := mem_base hm e
  have key : ∀ m', act l e m = (m', []) → Phase k m' → m'.scq = some k → m'.scrv = n + 1 → m'.sctimer = t + 1 →
      (step l e).1.version = 3 → (step l e).1.scRun = true →
      Sched k g n t (step l e).1 ∧ (step l e).2.count ⟨g, k⟩ = 0 := by
    intro m' h1 h2 h3 h4 h5 h6 h7
    constructor
    · refine ⟨h6, h7, step_uniq hu e, m', ?_, ?_, h2, h3, h4, h5⟩
      · have := step_keep hb (by rw [h1]; exact phase_kept h2)
        rwa [h1] at this
      · have := (act_addr l e m).1
        rw [h1] at this; exact this.trans ha
    · rw [← ha, step_count_one hu e hb, h1]; rfl
  have hver := step_version hi.ver e
  cases e with
  | join g' r =>
    refine key m ?_ hp hq hn ht (hver.trans hv) (join_scRun hrun g' r)
    rcases hp with ⟨_, b, _⟩ | ⟨a, _⟩
    · exact act_join hm b g' r
    · simp only [act]
      rw [if_neg (show ¬ m.addr = g' from fun h => hs a (h.symm.trans ha))]
      simp
  | leave g' r =>
    refine key m ?_ hp hq hn ht (hver.trans hv) (by simp [step, leave, onGroup, hrun])
    rcases hp with ⟨a, _, _⟩ | ⟨_, b, _⟩
    · simp only [act]
      rw [if_neg (show ¬ m.addr = g' from fun h => hs a (h.symm.trans ha))]
    · simp only [act, b]; simp
  | query1 r => exact absurd hs (by simp [Settled])
  | query2 g' c r => exact absurd hs (by simp [Settled])
  | query3 c v q r =>
    refine key m ?_ hp hq hn ht (hver.trans hv) ?_
    · simp only [act, if_neg h3, hcan]
    · simp only [step, query3, if_neg h3, hset]; split <;> exact hrun
  | query3g g' c v q s hh r =>
    have hsc : (step l (.query3g g' c v q s hh r)).1.scRun = true := by
      simp only [step, query3g, if_neg h3, hset]; split <;> exact hrun
    by_cases hc : l.v3timer = 0 ∨ l.v3timer ≥ ticks3 c
    · by_cases hg : m.addr = g'
      · refine key (groupQuery (ticks3 c) s hh r m) ?_ ?_ ?_ ?_ ?_ (hver.trans hv) hsc
        · simp only [act, if_neg h3, hset, if_pos hc, if_pos hg, hcan]
        · obtain ⟨a, o, nw, st, ti, sc, rv, q', ho⟩ := m
          rcases hp with ⟨x, y, z⟩ | ⟨x, y, z, w⟩
          · simp only at y z
            rcases z with z | z | z <;> subst z <;> cases s <;> cases hh <;> simp [Phase, groupQuery, x, y]
          · simp only at y z w
            subst w; simp [Phase, groupQuery, x, y, z]
        · obtain ⟨a, o, nw, st, ti, sc, rv, q', ho⟩ := m
          cases st <;> cases s <;> cases hh <;> exact hq
        · obtain ⟨a, o, nw, st, ti, sc, rv, q', ho⟩ := m
          cases st <;> cases s <;> cases hh <;> exact hn
        · obtain ⟨a, o, nw, st, ti, sc, rv, q', ho⟩ := m
          cases st <;> cases s <;> cases hh <;> exact ht
      · refine key m ?_ hp hq hn ht (hver.trans hv) hsc
        simp only [act, if_neg h3, hset, if_pos hc, if_neg hg, hcan]
    · refine key m ?_ hp hq hn ht (hver.trans hv) hsc
      simp only [act, if_neg h3, hset, if_neg hc, hcan]
  | heard1 g' s =>
    refine key m ?_ hp hq hn ht (hver.trans hv) hrun
    simp only [act, hv, (heard_same3 m s).1]; split <;> rfl
  | heard2 g' s =>
    refine key m ?_ hp hq hn ht (hver.trans hv) hrun
    simp only [act, hv, (heard_same3 m s).2]; split <;> rfl
  | tick r => exact absurd rfl (hnt r)

/-- What a tick does to a group in version 3 while changes are to be sent. -/
theorem tick_group {l : Link} (hv : l.version = 3) (hrun : l.scRun = true) (r : Nat) (m : Mem) :
    act l (.tick r) m =
      let x := if l.ifcRun = true ∧ l.v3timer = 1 then general3 m else (m, [])
      ((timers3 (delay 15 r) x.1).1, x.2 ++ (timers3 (delay 15 r) x.1).2) := by
  simp only [act]
  rw [if_neg (by simp [hrun]), if_pos hv]

/-- The link does not note that changes are to be sent when none is. -/
theorem tick_scRun {l : Link} (hv : l.version = 3) (hrun : l.scRun = true) (r : Nat) {m : Mem}
    (hm : m ∈ l.groups) (hs : (act l (.tick r) m).1.sctimer ≠ 0) : (step l (.tick r)).1.scRun = true := by
  obtain ⟨f1, f2, f3⟩ := tickLink_flags l
  rw [tick_group hv hrun] at hs
  simp only [step, tick, tickGroups]
  rw [if_neg (by simp [f2, hrun])]
  simp only [f3, hv, if_true]
  rw [tickLink_groups]
  simp only [BEq.rfl, Bool.true_and]
  refine List.any_eq_true.mpr ⟨_, List.mem_map.mpr ⟨_, List.mem_map.mpr ⟨m, hm, rfl⟩, rfl⟩, ?_⟩
  simpa using hs

theorem sched_tick {k : Kind} {g n t : Nat} {l : Link} (r : Nat) (hi : Inv l) (h : Sched k g n t l) :
    (t ≠ 0 → Sched k g n (t - 1) (step l (.tick r)).1 ∧ (step l (.tick r)).2.count ⟨g, k⟩ = 0) ∧
    (t = 0 → (step l (.tick r)).2.count ⟨g, k⟩ = 1 ∧
      (n ≠ 0 → ∃ t', t' ≤ 14 ∧ Sched k g (n - 1) t' (step l (.tick r)).1) ∧
      (n = 0 → Done k g (step l (.tick r)).1)) := by
  obtain ⟨hv, hrun, hu, m, hm, ha, hp, hq, hn, ht⟩ := h
  have hver : (step l (.tick r)).1.version = 3 := (step_version hi.ver (.tick r)).trans hv
  have hb := mem_base hm (.tick r)
  have hact := tick_group hv hrun r m
  generalize hx : (if l.ifcRun = true ∧ l.v3timer = 1 then general3 m else (m, [])) = x at hact
  have hx' : Phase k x.1 ∧ x.2.count ⟨m.addr, k⟩ = 0 ∧ x.1.scq = some k ∧ x.1.scrv = n + 1 ∧ x.1.sctimer = t + 1 ∧
      x.1.addr = m.addr := by
    rw [← hx]; split
    · obtain ⟨_, _, a, b, _, c, d, _⟩ := general3_same m
      exact ⟨(general3_phase hp).1, (general3_phase hp).2, d.trans hq, c.trans hn, b.trans ht, a⟩
    · exact ⟨hp, rfl, hq, hn, ht, rfl⟩
  obtain ⟨p1, p2, p3, p4, p5, p6⟩ := hx'
  obtain ⟨t1, t2⟩ := timers3_phase (delay 15 r) p1 p3 p4 p5
  rw [p6] at t1 t2
  have hc : (step l (.tick r)).2.count ⟨g, k⟩ = (timers3 (delay 15 r) x.1).2.count ⟨m.addr, k⟩ := by
    rw [← ha, step_count_one hu _ hb, hact]
    simp only [List.count_append, p2, Nat.zero_add]
  have ha1 : (act l (.tick r) m).1 = (timers3 (delay 15 r) x.1).1 := by rw [hact]
  have haddr : (timers3 (delay 15 r) x.1).1.addr = g := (timers3_addr _ _).1.trans (p6.trans ha)
  constructor
  · intro h0
    obtain ⟨a, b, c, d, e⟩ := t1 h0
    refine ⟨⟨hver, ?_, step_uniq hu _, (timers3 (delay 15 r) x.1).1, ?_, haddr, a, b, c, by omega⟩, hc.trans e⟩
    · exact tick_scRun hv hrun r hm (by rw [ha1, d]; exact h0)
    · have := step_keep hb (by rw [ha1]; exact phase_kept a)
      rwa [ha1] at this
  · intro h0
    obtain ⟨a, b, c⟩ := t2 h0
    refine ⟨hc.trans a, fun hn0 => ?_, fun hn0 => ⟨hver, ?_⟩⟩
    · obtain ⟨d, e, f, i⟩ := b hn0
      have hd := delay_bounds (show 1 ≤ 15 by decide) r
      refine ⟨delay 15 r - 1, by omega, hver, ?_, step_uniq hu _, (timers3 (delay 15 r) x.1).1, ?_, haddr, d, e,
        by omega, by omega⟩
      · exact tick_scRun hv hrun r hm (by rw [ha1, i]; omega)
      · have := step_keep hb (by rw [ha1]; exact phase_kept d)
        rwa [ha1] at this
    · obtain ⟨d, e⟩ := c hn0
      -- the group is the only one with its address
      have hone : ∀ m' ∈ (step l (.tick r)).1.groups, m'.addr = g → m' = (timers3 (delay 15 r) x.1).1 := by
        intro m' hm' hg'
        obtain ⟨m0, h0, rfl⟩ := step_mem hm'
        rw [(act_addr l (.tick r) m0).1] at hg'
        have : m0 = m := uniq_eq hu h0 hm (hg'.trans ha.symm)
        rw [this, ha1]
      rcases hp with ⟨hk, _⟩ | ⟨hk, _⟩
      · right
        obtain ⟨e1, e2⟩ := e hk
        refine ⟨hk, ⟨⟨(timers3 (delay 15 r) x.1).1, ?_, haddr⟩, fun m' h1 h2 => ?_⟩, fun m' h1 h2 => ?_⟩
        · have := step_keep hb (by rw [ha1]; exact Or.inl e1)
          rwa [ha1] at this
        · rw [hone m' h1 h2]; exact ⟨e1, trivial⟩
        · rw [hone m' h1 h2]; exact e2
      · left
        refine ⟨hk, fun m' h1 h2 => ?_⟩
        have h4 := hone m' h1 h2
        have h3 : m' ∈ (tickGroups (tickLink l).1 r).1.groups := h1
        unfold tickGroups at h3
        obtain ⟨_, f2, _⟩ := tickLink_flags l
        rw [if_neg (by simp [f2, hrun])] at h3
        have := (mem_reap.mp h3).2
        rw [h4] at this
        exact d hk this

/-- Once all is reported, no more is. -/
theorem done_step {k : Kind} {g : Nat} {l : Link} {e : Ev} (hi : Inv l) (h : Done k g l) (hs : Settled k g e) :
    Done k g (step l e).1 ∧ (step l e).2.count ⟨g, k⟩ = 0 := by
  obtain ⟨hv, h⟩ := h
  have hver : (step l e).1.version = 3 := by
    rw [step_version hi.ver e]
    cases e <;> first | exact hv | exact absurd hs (by simp [Settled])
  rcases h with ⟨hk, hno⟩ | ⟨hk, honly, hscq⟩
  · have hbase : ∀ m ∈ base l e, m.addr ≠ g := by
      intro m hm
      cases e with
      | join g' r =>
        simp only [base] at hm
        split at hm
        · exact hno m hm
        · rcases List.mem_append.mp hm with h | h
          · exact hno m h
          · simp at h; rw [h]; exact hs hk
      | _ => exact hno m hm
    refine ⟨⟨hver, Or.inl ⟨hk, fun m hm => ?_⟩⟩, step_count_none hbase k⟩
    obtain ⟨m0, h0, rfl⟩ := step_mem hm
    rw [(act_addr l e m0).1]; exact hbase m0 h0
  · have h3 : ¬ (l.version ≠ 3) := by simp [hv]
    have hset := setVersion3 hi.ver hv
    have hcan : ∀ m, cancelIf l 3 m = m := cancelIf_same (by rw [hset])
    -- the group after the event
    have hact : ∀ m ∈ l.groups, m.addr = g → (act l e m).1.now = true ∧ (act l e m).1.scq = none ∧
        ∀ x ∈ (act l e m).2, x.kind ≠ .toEx := by
      intro m hm hg
      have hn := (honly.2 m hm hg).1
      have hq := hscq m hm hg
      cases e with
      | join g' r => rw [act_join hm hn]; exact ⟨hn, hq, by simp⟩
      | leave g' r =>
        simp only [act]
        rw [if_neg (show ¬ m.addr = g' from fun h => hs hk (h.symm.trans hg))]
        exact ⟨hn, hq, by simp⟩
      | query1 r => exact absurd hs (by simp [Settled])
      | query2 g' c r => exact absurd hs (by simp [Settled])
      | query3 c v q r =>
        simp only [act, if_neg h3, hcan]
        exact ⟨hn, hq, by simp⟩
      | query3g g' c v q s hh r =>
        have hgq : (groupQuery (ticks3 c) s hh r m).now = true ∧ (groupQuery (ticks3 c) s hh r m).scq = none := by
          obtain ⟨a, o, nw, st, ti, sc, rv, q', ho⟩ := m
          cases st <;> cases s <;> cases hh <;> exact ⟨hn, hq⟩
        simp only [act, if_neg h3, hset, hcan]
        split
        · split
          · exact ⟨hgq.1, hgq.2, by simp⟩
          · exact ⟨hn, hq, by simp⟩
        · exact ⟨hn, hq, by simp⟩
      | heard1 g' s =>
        simp only [act, hv, (heard_same3 m s).1]
        split <;> exact ⟨hn, hq, by simp⟩
      | heard2 g' s =>
        simp only [act, hv, (heard_same3 m s).2]
        split <;> exact ⟨hn, hq, by simp⟩
      | tick r =>
        simp only [act]
        generalize hx : (if l.ifcRun = true ∧ l.v3timer = 1 then general3 m else (m, [])) = x
        have h1 : x.1.now = true ∧ x.1.scq = none ∧ ∀ y ∈ x.2, y.kind ≠ .toEx := by
          rw [← hx]; split
          · obtain ⟨_, a, _, _, _, _, d, _⟩ := general3_same m
            refine ⟨a.trans hn, d.trans hq, ?_⟩
            unfold general3
            split
            all_goals first | (simp; done) | skip
            all_goals
              intro y hy
              simp only at hy
              split at hy <;> simp_all
          · exact ⟨hn, hq, by simp⟩
        rw [if_pos hv]
        have h2 : (timers3 (delay 15 r) x.1).1.now = true ∧ (timers3 (delay 15 r) x.1).1.scq = none ∧
            ∀ y ∈ (timers3 (delay 15 r) x.1).2, y.kind ≠ .toEx := by
          generalize x.1 = m1 at h1
          obtain ⟨h1, h1', _⟩ := h1
          unfold timers3
          simp only
          generalize hz : (if (m1.timer == 1) = true then
            answer3 { m1 with timer := m1.timer - 1, sctimer := m1.sctimer - 1 }
            else ({ m1 with timer := m1.timer - 1, sctimer := m1.sctimer - 1 }, [])) = z
          have hz' : z.1.now = true ∧ z.1.scq = none ∧ ∀ y ∈ z.2, y.kind ≠ .toEx := by
            rw [← hz]; split
            · unfold answer3; split
              · exact ⟨h1, h1', by simp⟩
              · split
                · exact ⟨h1, h1', by simp⟩
                · exact ⟨h1, h1', by simp⟩
            · exact ⟨h1, h1', by simp⟩
          have hr : (resend3 (delay 15 r) z.1).1.now = true ∧ (resend3 (delay 15 r) z.1).1.scq = none ∧
              (resend3 (delay 15 r) z.1).2 = [] := by
            unfold resend3 Mem.commit
            simp only [hz'.2.1]
            split
            · split
              · exact ⟨hz'.1, by simp, rfl⟩
              · exact ⟨hz'.1, by simp, rfl⟩
            · exact ⟨hz'.1, hz'.2.1, rfl⟩
          split
          · rw [hr.2.2, List.append_nil]; exact ⟨hr.1, hr.2.1, hz'.2.2⟩
          · rw [List.append_nil]; exact hz'
        split
        · rw [List.append_nil]; exact h1
        · refine ⟨h2.1, h2.2.1, fun y hy => ?_⟩
          rcases List.mem_append.mp hy with hy | hy
          · exact h1.2.2 y hy
          · exact h2.2.2 y hy
    obtain ⟨⟨m, hm, hg⟩, hall⟩ := honly
    have hbase : ∀ m' ∈ base l e, m'.addr = g → m' ∈ l.groups := by
      intro m' hm' hg'
      cases e with
      | join g' r =>
        simp only [base] at hm'
        split at hm'
        · exact hm'
        · rename_i hno
          rcases List.mem_append.mp hm' with h | h
          · exact h
          · exfalso
            apply hno
            simp at h
            rw [h] at hg'
            exact List.any_eq_true.mpr ⟨m, hm, by simpa using hg.trans hg'.symm⟩
      | _ => exact hm'
    refine ⟨⟨hver, Or.inr ⟨hk, ⟨⟨(act l e m).1, step_keep (mem_base hm e) (Or.inl (hact m hm hg).1),
      (act_addr l e m).1.trans hg⟩, fun m' h1 h2 => ?_⟩, fun m' h1 h2 => ?_⟩⟩, ?_⟩
    · obtain ⟨m0, h0, rfl⟩ := step_mem h1
      rw [(act_addr l e m0).1] at h2
      exact ⟨(hact m0 (hbase m0 h0 h2) h2).1, trivial⟩
    · obtain ⟨m0, h0, rfl⟩ := step_mem h1
      rw [(act_addr l e m0).1] at h2
      exact (hact m0 (hbase m0 h0 h2) h2).2.1
    · rw [List.count_eq_zero]
      intro hx
      obtain ⟨m0, h0, hx⟩ := step_msg.mp hx
      have h2 := ((act_addr l e m0).2 _ hx).symm
      exact (hact m0 (hbase m0 h0 h2) h2).2.2 _ hx hk

theorem done_run {k : Kind} {g : Nat} {l : Link} {es : List Ev} (hi : Inv l) (h : Done k g l)
    (hs : ∀ e ∈ es, Settled k g e) : Done k g (run l es).1 ∧ (run l es).2.count ⟨g, k⟩ = 0 := by
  induction es generalizing l with
  | nil => exact ⟨h, rfl⟩
  | cons e es ih =>
    obtain ⟨a, b⟩ := done_step hi h (hs e (by simp))
    obtain ⟨c, d⟩ := ih (step_inv hi e) a (fun e' he => hs e' (by simp [he]))
    refine ⟨c, ?_⟩
    simp only [run, List.count_append, b, d]

/-- The count over a history. -/
theorem sched_run {k : Kind} {g : Nat} (n t : Nat) {l : Link} {es : List Ev} (hi : Inv l) (h : Sched k g n t l)
    (hs : ∀ e ∈ es, Settled k g e) : (run l es).2.count ⟨g, k⟩ ≤ n + 1 ∧
      (t + 1 + 15 * n ≤ ticks es → (run l es).2.count ⟨g, k⟩ = n + 1 ∧ Done k g (run l es).1) := by
  induction es generalizing l n t with
  | nil => simp [run, ticks]
  | cons e es ih =>
    have hs' : ∀ e' ∈ es, Settled k g e' := fun e' he => hs e' (by simp [he])
    simp only [run, List.count_append]
    by_cases he : ∃ r, e = .tick r
    · obtain ⟨r, rfl⟩ := he
      obtain ⟨h1, h2⟩ := sched_tick r hi h
      simp only [ticks]
      by_cases h0 : t = 0
      · obtain ⟨a, b, c⟩ := h2 h0
        rw [a]
        by_cases hn : n = 0
        · obtain ⟨d1, d2⟩ := done_run (step_inv hi _) (c hn) hs'
          rw [d2]
          exact ⟨by omega, fun _ => ⟨by omega, d1⟩⟩
        · obtain ⟨t', ht', hsch⟩ := b hn
          obtain ⟨d1, d2⟩ := ih (n - 1) t' (step_inv hi _) hsch hs'
          refine ⟨by omega, fun hk => ?_⟩
          obtain ⟨e1, e2⟩ := d2 (by omega)
          exact ⟨by omega, e2⟩
      · obtain ⟨a, b⟩ := h1 h0
        obtain ⟨d1, d2⟩ := ih n (t - 1) (step_inv hi _) a hs'
        rw [b]
        refine ⟨by omega, fun hk => ?_⟩
        obtain ⟨e1, e2⟩ := d2 (by omega)
        exact ⟨by omega, e2⟩
    · have hnt : ∀ r, e ≠ .tick r := fun r hr => he ⟨r, hr⟩
      obtain ⟨a, b⟩ := sched_step hi h (hs e (by simp)) hnt
      obtain ⟨d1, d2⟩ := ih n t (step_inv hi _) a hs'
      have : ticks (e :: es) = ticks es := by
        cases e <;> first | rfl | exact absurd rfl (hnt _)
      rw [b, this]
      refine ⟨by omega, fun hk => ?_⟩
      obtain ⟨e1, e2⟩ := d2 hk
      exact ⟨by omega, e2⟩

/-- The robustness variable is never less than 2. -/
theorem reachable_rv {l : Link} (h : Reachable l) : 2 ≤ l.rv := by
  obtain ⟨a, b, v, es, _, rfl⟩ := h
  have hstep : ∀ l e, 2 ≤ l.rv → 2 ≤ (step l e).1.rv := by
    intro l e h
    cases e with
    | join g r => simp only [step]; rw [(join_ver l g r).2.2.2.2.2]; exact h
    | leave g r => exact h
    | query1 r =>
      show 2 ≤ (setVersion l 1).rv
      rw [(setVersion_same l 1).2.2.2.2.2.1]; exact h
    | query2 g c r =>
      simp only [step, query2]; split
      · exact h
      · show 2 ≤ (setVersion l 2).rv
        rw [(setVersion_same l 2).2.2.2.2.2.1]; exact h
    | query3 c v q r =>
      have hh : 2 ≤ (if v < 2 then 2 else v) := by split <;> omega
      simp only [step, query3]; split
      · exact h
      · split <;> exact hh
    | query3g g c v q s hb r =>
      have hh : 2 ≤ (if v < 2 then 2 else v) := by split <;> omega
      simp only [step, query3g]; split
      · exact h
      · split <;> exact hh
    | heard1 g s => exact h
    | heard2 g s => exact h
    | tick r =>
      simp only [step, tick]
      rw [(tickGroups_ifc _ r).2.2, (tickLink_const l).2.2.2.2.2]; exact h
  have : ∀ l, 2 ≤ l.rv → 2 ≤ (run l es).1.rv := by
    induction es with
    | nil => exact fun _ h => h
    | cons e es ih => exact fun l h => ih _ (hstep l e h)
  exact this _ (by simp [Link.init])

/-- **C205**: on a link of version 3 a group is joined that nobody had joined.  Then, whatever else happens, unless the group
is left or a query of an older version comes, "change to EXCLUDE" is sent for it no more than robustness-variable times, and
exactly so many times once that many intervals of 3 s (and a tick) are over. -/
theorem join_reported {l : Link} (hr : Reachable l) (hv : l.version = 3) (hl : l.loopif = false) (g r : Nat)
    (hrep : isReported l.sendlocal g = true) (hnew : ∀ m ∈ l.groups, m.addr ≠ g) (es : List Ev)
    (hs : ∀ e ∈ es, Settled .toEx g e) :
    (run l (.join g r :: es)).2.count ⟨g, .toEx⟩ ≤ l.rv ∧
    (1 + 15 * (l.rv - 1) ≤ ticks es → (run l (.join g r :: es)).2.count ⟨g, .toEx⟩ = l.rv) := by
  have hrv := reachable_rv hr
  have hany : l.groups.any (fun m => decide (m.addr = g)) = false := by
    rw [List.any_eq_false]; intro m hm; simpa using hnew m hm
  have hany2 : ¬ l.groups.any (fun m => decide (m.addr = g ∧ m.now = true)) = true := by
    intro h
    obtain ⟨m, hm, hd⟩ := List.any_eq_true.mp h
    simp at hd; exact hnew m hm hd.1
  have hact : act l (.join g r) ⟨g, false, false, .notMember, 0, 0, 0, none, false⟩ =
      (⟨g, false, true, .reporting, 0, 1, l.rv, some .toEx, false⟩, []) := by
    simp only [act, if_neg hany2, if_true, changeState, initialJoin]
    rw [if_pos (show true ≠ false by decide), if_neg (by simp [hl, hrep]), if_pos hv]
    rw [if_neg (show ¬ (l.version = 3 ∧ St.notMember = St.leaving) from fun h => by simp at h)]
  have hbase : (⟨g, false, false, .notMember, 0, 0, 0, none, false⟩ : Mem) ∈ base l (.join g r) := by
    simp only [base, hany]; simp
  have hkeep := step_keep (l := l) (e := .join g r) hbase (by rw [hact]; exact Or.inl rfl)
  rw [hact] at hkeep
  have hsc : Sched .toEx g (l.rv - 1) 0 (step l (.join g r)).1 := by
    refine ⟨(step_version hr.inv.ver _).trans hv, ?_, step_uniq hr.uniq _, _, hkeep, rfl,
      Or.inl ⟨rfl, rfl, Or.inl rfl⟩, rfl, ?_, rfl⟩
    · simp only [step, join, if_neg hany2] at hkeep ⊢
      rw [Bool.or_eq_true]; right
      exact List.any_eq_true.mpr ⟨_, hkeep, by simp⟩
    · show l.rv = l.rv - 1 + 1; omega
  have h0 : (step l (.join g r)).2.count ⟨g, .toEx⟩ = 0 := by
    have := step_count_one hr.uniq (.join g r) hbase .toEx
    rw [hact] at this
    simpa using this
  obtain ⟨a, b⟩ := sched_run (l.rv - 1) 0 (step_inv hr.inv _) hsc hs
  simp only [run, List.count_append, h0]
  refine ⟨by omega, fun ht => ?_⟩
  obtain ⟨c, _⟩ := b (by omega)
  omega

/-- **C205**: a member whose join has been reported leaves a group.  Then, unless the group is joined again or a query of an
older version comes, "change to INCLUDE" is sent for it no more than robustness-variable times, exactly so many times once
that many intervals of 3 s (and a tick) are over; and then the group is gone. -/
theorem leave_reported {l : Link} (hr : Reachable l) (hv : l.version = 3) (g r : Nat)
    (hm : ∃ m ∈ l.groups, m.addr = g ∧ m.now = true ∧ m.old = true ∧
      (m.st = .reporting ∨ m.st = .gPending ∨ m.st = .sgPending)) (es : List Ev)
    (hs : ∀ e ∈ es, Settled .toIn g e) :
    (run l (.leave g r :: es)).2.count ⟨g, .toIn⟩ ≤ l.rv ∧
    (1 + 15 * (l.rv - 1) ≤ ticks es → (run l (.leave g r :: es)).2.count ⟨g, .toIn⟩ = l.rv ∧
      ∀ m ∈ (run l (.leave g r :: es)).1.groups, m.addr ≠ g) := by
  have hrv := reachable_rv hr
  obtain ⟨m, hm, ha, hn, ho, hst⟩ := hm
  have hact : act l (.leave g r) m =
      ({ m with now := false, scq := some .toIn, timer := 0, scrv := l.rv, hold := true, st := .leaving, sctimer := 1 }, [])
      := by
    simp only [act, if_pos ha, hn, if_true, changeState, ho]
    rw [if_pos (show false ≠ true by decide), if_neg (by decide)]
    rcases hst with h | h | h <;> simp only [finalLeave, h] <;>
      rw [if_neg (by omega), if_pos hv, if_neg (by omega)]
  have hbase := mem_base hm (.leave g r)
  have hkeep := step_keep (l := l) (e := .leave g r) hbase (by rw [hact]; exact Or.inr rfl)
  rw [hact] at hkeep
  have hsc : Sched .toIn g (l.rv - 1) 0 (step l (.leave g r)).1 := by
    refine ⟨hv, ?_, step_uniq hr.uniq _, _, hkeep, ha,
      Or.inr ⟨rfl, rfl, rfl, rfl⟩, rfl, ?_, rfl⟩
    · simp only [step, leave] at hkeep ⊢
      rw [Bool.or_eq_true]; right
      exact List.any_eq_true.mpr ⟨_, hkeep, by simp⟩
    · show l.rv = l.rv - 1 + 1; omega
  have h0 : (step l (.leave g r)).2.count ⟨g, .toIn⟩ = 0 := by
    have := step_count_one hr.uniq (.leave g r) hbase .toIn
    rw [hact, ha] at this
    simpa using this
  obtain ⟨a, b⟩ := sched_run (l.rv - 1) 0 (step_inv hr.inv _) hsc hs
  simp only [run, List.count_append, h0]
  refine ⟨by omega, fun ht => ?_⟩
  obtain ⟨c, d⟩ := b (by omega)
  refine ⟨by omega, ?_⟩
  rcases d.2 with ⟨_, h⟩ | ⟨h, _⟩
  · exact h
  · simp at h

/-- A group is joined and left, and both are reported twice. -/
example : (run (Link.init false true 3) ([.join 0xef010203 0] ++ List.replicate 3 (.tick 0) ++ [.leave 0xef010203 0] ++
      List.replicate 4 (.tick 0))).2 =
    [⟨0xef010203, .toEx⟩, ⟨0xef010203, .toEx⟩, ⟨0xef010203, .toIn⟩, ⟨0xef010203, .toIn⟩] := by decide +kernel

end Verif.Igmp.Host

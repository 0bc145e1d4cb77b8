import Verif.Igmp.HostProps
/-!
# Answers to queries of version 3
-/
namespace Verif.Igmp.Host

/-- Nothing that ends the host's duty to report the group in version 3: it does not leave, no query of an older version
comes, none for sources of the group. -/
def Undisturbed3 (g : Nat) : Ev → Prop
  | .leave g' _ => g' ≠ g
  | .query1 _ => False
  | .query2 _ _ _ => False
  | .query3g g' _ _ _ src _ _ => g' ≠ g ∨ src = false
  | _ => True

/-- Waiting to report the group for `k` ticks at most: with all others, or alone. -/
def Waits3 (g k : Nat) (l : Link) : Prop :=
  l.version = 3 ∧ ∃ m ∈ l.groups, m.addr = g ∧ m.now = true ∧
    (m.st = .reporting ∧ 1 ≤ l.v3timer ∧ l.v3timer ≤ k ∨ m.st = .gPending ∧ 1 ≤ m.timer ∧ m.timer ≤ k)

/-- Maximum response times in tenths of a second as RFC 3376, 4.1.1 has it. -/
def rfcTenths (c : Nat) : Nat := if c < 128 then c else (c % 16 + 16) * 2 ^ (c / 16 % 8 + 3)

theorem maxResp_le (c : Nat) : maxResp c ≤ rfcTenths c := by
  unfold maxResp rfcTenths
  split
  · rw [if_neg (by omega)]
    exact Nat.mul_le_mul_right _ (by omega)
  · rw [if_pos (by omega)]; exact Nat.le_refl _

theorem maxResp_lt (c : Nat) : maxResp c < 65536 := by
  unfold maxResp
  split
  · have h1 : c % 16 ≤ 15 := by omega
    have h2 : 2 ^ (c / 16 % 8 + 3) ≤ 2 ^ 10 := Nat.pow_le_pow_right (by decide) (by omega)
    calc c % 16 * 2 ^ (c / 16 % 8 + 3) ≤ 15 * 2 ^ 10 := Nat.mul_le_mul h1 h2
      _ < 65536 := by decide
  · omega

theorem ticks3_bounds (c : Nat) : 1 ≤ ticks3 c ∧ ticks3 c ≤ max 1 (rfcTenths c / 2) := by
  have h1 := maxResp_le c
  have h2 := maxResp_lt c
  unfold ticks3
  have : maxResp c * 5 / 10 = maxResp c / 2 := by omega
  rw [this, Nat.mod_eq_of_lt (by omega)]
  split <;> omega

theorem delay_bounds {t : Nat} (h : 1 ≤ t) (r : Nat) : 1 ≤ delay t r ∧ delay t r ≤ t := by
  unfold delay; have := Nat.mod_lt r h; omega

/-- Nothing the host hears makes it withhold a record of version 3 (`legacysupp` has no effect: the condition is always
true). -/
theorem suppress3_none (m : Mem) : suppress3 m = m := by
  unfold suppress3
  rw [if_pos]
  by_cases h : m.st = .gPending
  · right; rw [h]; decide
  · left; exact h

theorem heard_same3 (m : Mem) (s : Bool) : heard1 3 s m = m ∧ heard2 3 s m = m := by
  unfold heard1 heard2
  cases s <;> simp [suppress3_none]

theorem resend3_same (u : Nat) (m : Mem) : (resend3 u m).1.addr = m.addr ∧ (resend3 u m).1.now = m.now ∧
    (m.st ≠ .leaving → (resend3 u m).1.st = m.st) ∧ (resend3 u m).1.timer = m.timer := by
  unfold resend3 Mem.commit
  simp only
  split
  · split
    · rename_i h; exact ⟨rfl, rfl, fun h' => absurd h.1 h', rfl⟩
    · exact ⟨rfl, rfl, fun _ => rfl, rfl⟩
  · exact ⟨rfl, rfl, fun _ => rfl, rfl⟩

/-- A tick for a group that does not answer now. -/
theorem timers3_rest (u : Nat) (m : Mem) (h : m.timer ≠ 1 ∨ m.st = .reporting) (hl : m.st ≠ .leaving) :
    (timers3 u m).1.addr = m.addr ∧ (timers3 u m).1.now = m.now ∧ (timers3 u m).1.st = m.st ∧
    (timers3 u m).1.timer = m.timer - 1 := by
  have hx : (if (m.timer == 1) = true then answer3 { m with timer := m.timer - 1, sctimer := m.sctimer - 1 }
      else ({ m with timer := m.timer - 1, sctimer := m.sctimer - 1 }, [])).1 =
      { m with timer := m.timer - 1, sctimer := m.sctimer - 1 } := by
    split
    · rename_i h1
      have h1 : m.timer = 1 := by simpa using h1
      have h2 : m.st = .reporting := by rcases h with h | h; exact absurd h1 h; exact h
      simp [answer3, h2]
    · rfl
  unfold timers3
  simp only [hx]
  split
  · obtain ⟨a, b, c, d⟩ := resend3_same u { m with timer := m.timer - 1, sctimer := m.sctimer - 1 }
    exact ⟨a, b, c hl, d⟩
  · exact ⟨rfl, rfl, rfl, rfl⟩

theorem timers3_answer (u : Nat) (m : Mem) (h : m.timer = 1) (hs : m.st = .gPending) :
    (⟨m.addr, .current⟩ : Msg) ∈ (timers3 u m).2 := by
  unfold timers3
  simp [h, answer3, hs]

theorem waits3_step {g k : Nat} {l : Link} {e : Ev} (hi : Inv l) (h : Waits3 g (k + 1) l)
    (hq : Undisturbed3 g e) :
    (⟨g, .current⟩ : Msg) ∈ (step l e).2 ∨ Waits3 g (left k e) (step l e).1 := by
  obtain ⟨hver, m, hm, ha, hn, hw⟩ := h
  have hb := mem_base hm e
  have hversion := step_version hi.ver e
  have h3 : ¬ (l.version ≠ 3) := by simp [hver]
  have hset := setVersion3 hi.ver hver
  have key : ∀ m', (act l e m).1 = m' → m'.addr = g → m'.now = true → (step l e).1.version = 3 →
      (m'.st = .reporting ∧ 1 ≤ (step l e).1.v3timer ∧ (step l e).1.v3timer ≤ left k e ∨
        m'.st = .gPending ∧ 1 ≤ m'.timer ∧ m'.timer ≤ left k e) →
      Waits3 g (left k e) (step l e).1 := by
    intro m' h1 h2 h3 h4 h5
    refine ⟨h4, m', ?_, h2, h3, h5⟩
    rw [← h1]
    exact step_keep hb (by rw [h1]; exact Or.inl h3)
  have hcan : ∀ m, cancelIf l 3 m = m := cancelIf_same (by rw [hset])
  cases e with
  | join g' r =>
    refine Or.inr (key m (by rw [act_join hm hn]) ha hn (hversion.trans hver) ?_)
    simp only [step, (join_ver l g' r).2.2.2.1]; exact hw
  | leave g' r =>
    refine Or.inr (key m ?_ ha hn (hversion.trans hver) hw)
    simp only [act]; rw [if_neg (by rw [ha]; exact fun h => hq h.symm)]
  | query1 r => exact absurd hq (by simp [Undisturbed3])
  | query2 g' c r => exact absurd hq (by simp [Undisturbed3])
  | query3 c v' q r =>
    refine Or.inr (key m ?_ ha hn (hversion.trans hver) ?_)
    · simp only [act, if_neg h3, hcan]
    · have ht := delay_bounds (ticks3_bounds c).1 r
      simp only [step, query3, if_neg h3, hset]
      rcases hw with ⟨a, b, d⟩ | hw
      · left
        refine ⟨a, ?_⟩
        split
        · rename_i hc
          have hc : l.v3timer = 0 ∨ l.v3timer ≥ ticks3 c := hc
          show 1 ≤ delay (ticks3 c) r ∧ delay (ticks3 c) r ≤ k + 1
          omega
        · exact ⟨b, d⟩
      · exact Or.inr hw
  | query3g g' c v' q s h r =>
    have hvt : (step l (.query3g g' c v' q s h r)).1.v3timer = l.v3timer := by
      simp only [step, query3g, if_neg h3, hset]; split <;> rfl
    right
    by_cases hc : l.v3timer = 0 ∨ l.v3timer ≥ ticks3 c
    · by_cases hg : m.addr = g'
      · have hs : s = false := by rcases hq with h | h; exact absurd (hg ▸ ha).symm (fun hh => h hh.symm); exact h
        have hb3 := (ticks3_bounds c).1
        have hact : (act l (.query3g g' c v' q s h r) m).1 = groupQuery (ticks3 c) s h r m := by
          simp only [act, if_neg h3, hset, if_pos hc, if_pos hg, hcan]
        rw [hs] at hact
        rcases hw with ⟨a, b, d⟩ | ⟨a, b, d⟩
        · have hd := delay_bounds hb3 r
          refine key { m with st := .gPending, timer := delay (ticks3 c) r } ?_ ha hn (hversion.trans hver)
            (Or.inr ⟨rfl, hd.1, ?_⟩)
          · rw [hs, hact]; simp [groupQuery, a]
          · show delay (ticks3 c) r ≤ k + 1; omega
        · have hd := delay_bounds (show 1 ≤ min m.timer (ticks3 c) by omega) r
          refine key { m with st := .gPending, timer := delay (min m.timer (ticks3 c)) r } ?_ ha hn (hversion.trans hver)
            (Or.inr ⟨rfl, hd.1, ?_⟩)
          · rw [hs, hact]; simp [groupQuery, a]
          · show delay (min m.timer (ticks3 c)) r ≤ k + 1; omega
      · refine key m ?_ ha hn (hversion.trans hver) (by rw [hvt]; exact hw)
        simp only [act, if_neg h3, hset, if_pos hc, if_neg hg, hcan]
    · refine key m ?_ ha hn (hversion.trans hver) (by rw [hvt]; exact hw)
      simp only [act, if_neg h3, hset, if_neg hc, hcan]
  | heard1 g' s =>
    refine Or.inr (key m ?_ ha hn (hversion.trans hver) hw)
    simp only [act, hver, (heard_same3 m s).1]; split <;> rfl
  | heard2 g' s =>
    refine Or.inr (key m ?_ ha hn (hversion.trans hver) hw)
    simp only [act, hver, (heard_same3 m s).2]; split <;> rfl
  | tick r =>
    rcases hw with ⟨a, b, d⟩ | ⟨a, b, d⟩
    · have hifc : l.ifcRun = true := hi.ifc (by omega)
      by_cases h1 : l.v3timer = 1
      · left
        refine step_msg.mpr ⟨m, hb, ?_⟩
        simp only [act, hifc, h1]
        rw [if_pos ⟨trivial, trivial⟩]
        apply List.mem_append_left
        simp [general3, a, hn, ha]
      · right
        have hv3 : (step l (.tick r)).1.v3timer = l.v3timer - 1 := by
          simp only [step, tick, (tickGroups_ifc _ r).1, tickLink, hifc]
          rw [if_neg (by simp), if_neg (by omega), if_neg h1]
        have hact : (act l (.tick r) m).1.addr = m.addr ∧ (act l (.tick r) m).1.now = m.now ∧
            (act l (.tick r) m).1.st = m.st := by
          simp only [act]
          rw [if_neg (show ¬ (l.ifcRun = true ∧ l.v3timer = 1) from fun h => h1 h.2)]
          split
          · exact ⟨rfl, rfl, rfl⟩
          · obtain ⟨x, y, z, _⟩ := timers3_rest (delay 15 r) m (.inr a) (by rw [a]; decide)
            exact ⟨x, y, z⟩
        refine key _ rfl (hact.1.trans ha) (hact.2.1.trans hn) (hversion.trans hver) (Or.inl ⟨hact.2.2.trans a, ?_⟩)
        rw [hv3]
        show 1 ≤ l.v3timer - 1 ∧ l.v3timer - 1 ≤ k
        omega
    · have hc : l.curRun = true := hi.run m hm (by omega)
      have hg3 : general3 m = (m, []) := by simp only [general3, a]
      have hact : act l (.tick r) m = timers3 (delay 15 r) m := by
        simp only [act, hg3, hc, hver]
        simp
      by_cases h1 : m.timer = 1
      · left
        refine step_msg.mpr ⟨m, hb, ?_⟩
        rw [hact, ← ha]
        exact timers3_answer _ _ h1 a
      · right
        obtain ⟨x, y, z, w⟩ := timers3_rest (delay 15 r) m (.inl h1) (by rw [a]; decide)
        refine key _ (by rw [hact]) (x.trans ha) (y.trans hn) (hversion.trans hver) (Or.inr ⟨z.trans a, ?_⟩)
        rw [w]
        show 1 ≤ m.timer - 1 ∧ m.timer - 1 ≤ k
        omega

theorem waits3_answered {g : Nat} (k : Nat) (l : Link) (es : List Ev) (hi : Inv l)
    (hP : Waits3 g k l) (hq : ∀ e ∈ es, Undisturbed3 g e) (ht : k ≤ ticks es) :
    (⟨g, .current⟩ : Msg) ∈ (run l es).2 := by
  refine answered (P := Waits3 g) (Q := Undisturbed3 g) ?_ ?_ k l es hi hP hq ht
  · rintro l ⟨_, m, _, _, _, h⟩; rcases h with h | h <;> omega
  · intro k l e hi h hq; exact waits3_step hi h hq

theorem Waits3.mono {g k k' : Nat} {l : Link} (h : Waits3 g k l) (hk : k ≤ k') : Waits3 g k' l := by
  obtain ⟨h1, m, h2, h3, h4, h5⟩ := h
  refine ⟨h1, m, h2, h3, h4, ?_⟩
  rcases h5 with ⟨a, b, c⟩ | ⟨a, b, c⟩
  · exact .inl ⟨a, b, by omega⟩
  · exact .inr ⟨a, b, by omega⟩

/-- **C202**: a general query of version 3 comes, with the maximum response code `c`.  The host is a member of `g`, with
no query for `g` pending.  Whatever else happens, unless it leaves, hears a query of an older version or one for sources of
`g`, it sends a record with the state of `g` within the maximum response time of RFC 3376 (at least one tick). -/
theorem query3_answered {l : Link} (hr : Reachable l) (hv : l.version = 3) {g : Nat}
    (hm : member l g .reporting) (c qrv qqi r : Nat) (es : List Ev)
    (hq : ∀ e ∈ es, Undisturbed3 g e) (ht : max 1 (rfcTenths c / 2) ≤ ticks es) :
    (⟨g, .current⟩ : Msg) ∈ (run l (.query3 c qrv qqi r :: es)).2 := by
  obtain ⟨m, hm, ha, hn, hst⟩ := hm
  have h3 : ¬ (l.version ≠ 3) := by simp [hv]
  have hset := setVersion3 hr.inv.ver hv
  have hcan : ∀ m, cancelIf l 3 m = m := cancelIf_same (by rw [hset])
  have hb := ticks3_bounds c
  have hd := delay_bounds hb.1 r
  have hact : (act l (.query3 c qrv qqi r) m).1 = m := by simp only [act, if_neg h3, hcan]
  have hw : Waits3 g (ticks3 c) (step l (.query3 c qrv qqi r)).1 := by
    refine ⟨(step_version hr.inv.ver _).trans hv, m, ?_, ha, hn, Or.inl ⟨hst, ?_⟩⟩
    · rw [← hact]
      exact step_keep (mem_base hm _) (by rw [hact]; exact Or.inl hn)
    · simp only [step, query3, if_neg h3, hset]
      split
      · exact hd
      · rename_i hc
        have hc : ¬ (l.v3timer = 0 ∨ l.v3timer ≥ ticks3 c) := hc
        show 1 ≤ l.v3timer ∧ l.v3timer ≤ ticks3 c
        omega
  simp only [run, List.mem_append]
  exact Or.inr (waits3_answered _ _ es (step_inv hr.inv _) (hw.mono hb.2) hq ht)

/-- **C203**: the same for a query for the group `g`: it is answered in time, alone or with all groups. -/
theorem query3g_answered {l : Link} (hr : Reachable l) (hv : l.version = 3) {g : Nat}
    (hm : member l g .reporting) (c qrv qqi : Nat) (hit : Bool) (r : Nat) (es : List Ev)
    (hq : ∀ e ∈ es, Undisturbed3 g e) (ht : max 1 (rfcTenths c / 2) ≤ ticks es) :
    (⟨g, .current⟩ : Msg) ∈ (run l (.query3g g c qrv qqi false hit r :: es)).2 := by
  obtain ⟨m, hm, ha, hn, hst⟩ := hm
  have h3 : ¬ (l.version ≠ 3) := by simp [hv]
  have hset := setVersion3 hr.inv.ver hv
  have hcan : ∀ m, cancelIf l 3 m = m := cancelIf_same (by rw [hset])
  have hb := ticks3_bounds c
  have hd := delay_bounds hb.1 r
  have hw : Waits3 g (ticks3 c) (step l (.query3g g c qrv qqi false hit r)).1 := by
    by_cases hc : l.v3timer = 0 ∨ l.v3timer ≥ ticks3 c
    · have hact : (act l (.query3g g c qrv qqi false hit r) m).1 =
          { m with st := .gPending, timer := delay (ticks3 c) r } := by
        simp only [act, if_neg h3, hset, if_pos hc, if_pos ha, hcan]
        simp [groupQuery, hst]
      refine ⟨(step_version hr.inv.ver _).trans hv, { m with st := .gPending, timer := delay (ticks3 c) r }, ?_, ha, hn,
        Or.inr ⟨rfl, hd⟩⟩
      rw [← hact]
      exact step_keep (mem_base hm _) (by rw [hact]; exact Or.inl hn)
    · have hact : (act l (.query3g g c qrv qqi false hit r) m).1 = m := by
        simp only [act, if_neg h3, hset, if_neg hc, hcan]
      refine ⟨(step_version hr.inv.ver _).trans hv, m, ?_, ha, hn, Or.inl ⟨hst, ?_⟩⟩
      · rw [← hact]
        exact step_keep (mem_base hm _) (by rw [hact]; exact Or.inl hn)
      · simp only [step, query3g, if_neg h3, hset]
        rw [if_neg (show ¬ (l.v3timer = 0 ∨ l.v3timer ≥ ticks3 c) from hc)]
        show 1 ≤ l.v3timer ∧ l.v3timer ≤ ticks3 c
        omega
  simp only [run, List.mem_append]
  exact Or.inr (waits3_answered _ _ es (step_inv hr.inv _) (hw.mono hb.2) hq ht)

/-- A link of version 3 with the group 239.1.2.3 joined and its change reported. -/
def joined3 : Link := (run (Link.init false true 3) [.join 0xef010203 0, .tick 0, .tick 0]).1

theorem joined3_reachable : Reachable joined3 := ⟨false, true, 3, _, .inr (.inr rfl), rfl⟩

/-- The hypotheses are met, and the record is sent. -/
example : Reachable joined3 ∧ joined3.version = 3 ∧ member joined3 0xef010203 .reporting ∧
    (run joined3 [.query3 4 2 125 1, .tick 0, .tick 0]).2 = [⟨0xef010203, .current⟩] :=
  ⟨joined3_reachable, by decide +kernel, ⟨⟨0xef010203, true, true, .reporting, 0, 0, 0, none, false⟩, by decide +kernel⟩,
    by decide +kernel⟩

/-- **C202, violated**: with a query for the group pending, a general query asking for an answer at once is not answered
within its time: the group is left out, and waits for its own timer. -/
theorem query3_pending_violated : ∃ l, Reachable l ∧ l.version = 3 ∧ member l 0xef010203 .gPending ∧
    (run l (.query3 2 2 125 0 :: List.replicate 9 (.tick 0))).2 = [] :=
  ⟨(step joined3 (.query3g 0xef010203 100 2 125 false false 9)).1, joined3_reachable.step _, by decide +kernel,
    ⟨⟨0xef010203, true, true, .gPending, 10, 0, 0, none, false⟩, by decide +kernel⟩, by decide +kernel⟩

/-- Queries for sources, again and again, each one tick after the last. -/
def nag (g : Nat) : Nat → List Ev
  | 0 => []
  | n + 1 => .query3g g 100 2 125 true true 49 :: .tick 0 :: nag g n

/-- **C203, violated**: a host that is asked for sources of a group again before it has answered starts to wait anew (RFC
3376, 5.2 has it answer at the earlier time): it can be kept from answering for ever. -/
theorem sources_postponed_violated : ∃ l, Reachable l ∧ l.version = 3 ∧ member l 0xef010203 .reporting ∧
    ∀ n, ticks (nag 0xef010203 n) = n ∧ (run l (nag 0xef010203 n)).2 = [] := by
  refine ⟨joined3, joined3_reachable, by decide +kernel,
    ⟨⟨0xef010203, true, true, .reporting, 0, 0, 0, none, false⟩, by decide +kernel⟩, ?_⟩
  have hrun : ∀ l, (run l (nag 0xef010203 1)).1 = (step (step l (.query3g 0xef010203 100 2 125 true true 49)).1 (.tick 0)).1 ∧
      (run l (nag 0xef010203 1)).2 = (step l (.query3g 0xef010203 100 2 125 true true 49)).2 ++
        (step (step l (.query3g 0xef010203 100 2 125 true true 49)).1 (.tick 0)).2 := by
    intro l; simp [nag, run]
  have h1 : (run joined3 (nag 0xef010203 1)).2 = [] := by decide +kernel
  have h2 : (run (run joined3 (nag 0xef010203 1)).1 (nag 0xef010203 1)) = ((run joined3 (nag 0xef010203 1)).1, []) := by
    decide +kernel
  have hn : ∀ l n, run l (nag 0xef010203 (n + 1)) = ((run (run l (nag 0xef010203 1)).1 (nag 0xef010203 n)).1,
      (run l (nag 0xef010203 1)).2 ++ (run (run l (nag 0xef010203 1)).1 (nag 0xef010203 n)).2) := by
    intro l n
    rw [← run_append]; rfl
  have h3 : ∀ n, (run (run joined3 (nag 0xef010203 1)).1 (nag 0xef010203 n)).2 = [] := by
    intro n
    induction n with
    | zero => rfl
    | succ n ih => rw [hn, h2]; simpa using ih
  intro n
  constructor
  · induction n with
    | zero => rfl
    | succ n ih => simp only [nag, ticks, ih]
  · cases n with
    | zero => rfl
    | succ n => rw [hn, h1]; simpa using h3 n

/-- **C209, violated**: response codes from 128 on are read without the implied bit of the mantissa (`IGMP_MANT`,
include/ofpi_igmp.h:76), so for each of them the time is not that of RFC 3376. -/
theorem codes_violated (c : Nat) (h : 128 ≤ c) : maxResp c ≠ rfcTenths c := by
  unfold maxResp rfcTenths
  rw [if_pos (by omega), if_neg (by omega), Nat.add_mul]
  have := Nat.two_pow_pos (c / 16 % 8 + 3)
  omega

/-- **C209**: those below are read as they are, and no time is ever too long. -/
theorem codes_partial (c : Nat) : (c < 128 → maxResp c = rfcTenths c) ∧ maxResp c ≤ rfcTenths c := by
  refine ⟨fun h => ?_, maxResp_le c⟩
  unfold maxResp rfcTenths
  rw [if_neg (by omega), if_pos h]

/-- 12.8 s become nothing: the host answers at once. -/
example : maxResp 128 = 0 ∧ rfcTenths 128 = 128 ∧ ticks3 128 = 1 := by decide

end Verif.Igmp.Host

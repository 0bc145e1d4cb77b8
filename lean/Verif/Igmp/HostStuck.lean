import Verif.Igmp.HostNever
/-!
# Reports that are due and never sent
-/
namespace Verif.Igmp.Host

/-- The host is a member of `g`, with a state in `S`. -/
def Only (S : St → Prop) (g : Nat) (l : Link) : Prop :=
  (∃ m ∈ l.groups, m.addr = g) ∧ ∀ m ∈ l.groups, m.addr = g → m.now = true ∧ S m.st

/-- If events keep such members, and send nothing for them, nothing is sent about `g`. -/
theorem only_step {S : St → Prop} {g : Nat} {l : Link} {e : Ev} (h : Only S g l)
    (ha : ∀ m ∈ l.groups, m.addr = g → m.now = true → S m.st →
      (act l e m).1.now = true ∧ S (act l e m).1.st ∧ (act l e m).2 = []) :
    Only S g (step l e).1 ∧ ∀ x ∈ (step l e).2, x.group ≠ g := by
  obtain ⟨⟨m, hm, hg⟩, hall⟩ := h
  -- `join` makes no second one
  have hbase : ∀ m' ∈ base l e, m'.addr = g → m' ∈ l.groups := by
    intro m' hm' hg'
    cases e with
    | join g' r =>
      simp only [base] at hm'
      split at hm'
      · exact hm'
      · rename_i hno
        rcases List.mem_append.mp hm' with h | h
        · exact h
        · exfalso
          apply hno
          simp at h
          rw [h] at hg'
          exact List.any_eq_true.mpr ⟨m, hm, by simpa using hg.trans hg'.symm⟩
    | _ => exact hm'
  refine ⟨⟨⟨(act l e m).1, ?_, (act_addr l e m).1.trans hg⟩, ?_⟩, ?_⟩
  · obtain ⟨h1, h2⟩ := hall m hm hg
    exact step_keep (mem_base hm e) (Or.inl (ha m hm hg h1 h2).1)
  · intro m' hm' hg'
    obtain ⟨m0, h0, rfl⟩ := step_mem hm'
    rw [(act_addr l e m0).1] at hg'
    have hin := hbase m0 h0 hg'
    obtain ⟨h1, h2⟩ := hall m0 hin hg'
    obtain ⟨h3, h4, _⟩ := ha m0 hin hg' h1 h2
    exact ⟨h3, h4⟩
  · intro x hx hxg
    obtain ⟨m0, h0, hx⟩ := step_msg.mp hx
    have := (act_addr l e m0).2 x hx
    have hg' : m0.addr = g := this.symm.trans hxg
    have hin := hbase m0 h0 hg'
    obtain ⟨h1, h2⟩ := hall m0 hin hg'
    rw [(ha m0 hin hg' h1 h2).2.2] at hx
    simp at hx

/-! ## Membership lost by rejoining -/

/-- **C208, violated**: leave a group, and join it again within a tick (before the first "change to INCLUDE" is sent).
After a few ticks the host is a member, and yet: whatever happens then, however many queries come, nothing is ever sent about
the group until it is left. -/
theorem rejoin_violated (g : Nat) {l : Link} (hr : Reachable l) (h : Only (· = .notMember) g l) (es : List Ev)
    (hq : ∀ e ∈ es, ∀ r, e ≠ .leave g r) :
    (∃ m ∈ (run l es).1.groups, m.addr = g ∧ m.now = true) ∧ ∀ x ∈ (run l es).2, x.group ≠ g := by
  have hact : ∀ l e, Inv l → (∀ r, e ≠ .leave g r) → ∀ m ∈ l.groups, m.addr = g → m.now = true → m.st = .notMember →
      (act l e m).1.now = true ∧ (act l e m).1.st = .notMember ∧ (act l e m).2 = [] := by
    intro l e hi hl m hm hg hn hst
    have hcan : ∀ v, (cancelIf l v m).st = .notMember ∧ (cancelIf l v m).now = true := by
      intro v
      unfold cancelIf cancel1; simp only [hst]; split
      · exact ⟨rfl, hn⟩
      · exact ⟨hst, hn⟩
    cases e with
    | join g' r => rw [act_join hm hn]; exact ⟨hn, hst, rfl⟩
    | leave g' r =>
      simp only [act]
      rw [if_neg (by rw [hg]; intro h; exact hl r (by rw [h]))]
      exact ⟨hn, hst, rfl⟩
    | query1 r =>
      simp only [act, update1, (hcan 1).1]
      split <;> exact ⟨(hcan 1).2, (hcan 1).1, by simp⟩
    | query2 to c r =>
      simp only [act]; split
      · exact ⟨hn, hst, rfl⟩
      · simp only [update2, (hcan 2).1]; split <;> exact ⟨(hcan 2).2, (hcan 2).1, by simp⟩
    | query3 c v q r =>
      simp only [act]; split
      · exact ⟨hn, hst, rfl⟩
      · exact ⟨(hcan 3).2, (hcan 3).1, rfl⟩
    | query3g g' c v q s hh r =>
      simp only [act]; split
      · exact ⟨hn, hst, rfl⟩
      · split
        · simp only [groupQuery, (hcan 3).1]; split <;> exact ⟨(hcan 3).2, (hcan 3).1, by simp⟩
        · exact ⟨(hcan 3).2, (hcan 3).1, rfl⟩
    | heard1 g' s =>
      simp only [act]; split
      · simp only [heard1, hst, suppress3]
        split
        · cases s <;> simp [hn, hst]
        · simp [hn]
      · exact ⟨hn, hst, rfl⟩
    | heard2 g' s =>
      simp only [act]; split
      · simp only [heard2, hst, suppress3]
        split
        · cases s <;> simp [hn, hst]
        · simp [hn]
      · exact ⟨hn, hst, rfl⟩
    | tick r =>
      have hg3 : general3 m = (m, []) := by simp only [general3, hst]
      have hx : (if l.ifcRun = true ∧ l.v3timer = 1 then general3 m else (m, [])) = (m, []) := by
        rw [hg3]; simp
      simp only [act, hx, List.nil_append]
      split
      · exact ⟨hn, hst, rfl⟩
      · split
        · unfold timers3 answer3 resend3
          simp only [hst]
          simp [hn]
        · unfold timer12
          split
          · exact ⟨hn, hst, rfl⟩
          · simp only [hst]
            simp [hn]
  obtain ⟨a, b⟩ := never (g := g) (P := Only (· = .notMember) g) (Q := fun e => ∀ r, e ≠ .leave g r)
    (fun l e hi h hq => (only_step h (hact l e hi hq)).1) (fun l e hi h hq => (only_step h (hact l e hi hq)).2)
    l es hr.inv h hq
  obtain ⟨⟨m, hm, hg⟩, hall⟩ := a
  exact ⟨⟨m, hm, hg, (hall m hm hg).1⟩, b⟩

/-- Such links exist: join, wait, leave and join at once, wait. -/
example : Reachable (run (Link.init false true 3) [.join 0xef010203 0, .tick 0, .tick 0, .leave 0xef010203 0,
      .join 0xef010203 0, .tick 0, .tick 0]).1 ∧
    Only (· = .notMember) 0xef010203 (run (Link.init false true 3) [.join 0xef010203 0, .tick 0, .tick 0,
      .leave 0xef010203 0, .join 0xef010203 0, .tick 0, .tick 0]).1 := by
  refine ⟨⟨false, true, 3, _, .inr (.inr rfl), rfl⟩, ?_⟩
  have h : (run (Link.init false true 3) [.join 0xef010203 0, .tick 0, .tick 0,
      .leave 0xef010203 0, .join 0xef010203 0, .tick 0, .tick 0]).1.groups =
      [⟨0xef010203, true, true, .notMember, 0, 0, 0, none, false⟩] := by decide +kernel
  unfold Only
  rw [h]; simp

/-! ## Reports of version 1 and 2 that are not sent -/

/-- A member that reports only when asked. -/
def Resting (st : St) : Prop := st = .idle ∨ st = .lazy ∨ st = .sleeping ∨ st = .awakening

/-- No query for `g`, and it is not left. -/
def Unasked (g : Nat) : Ev → Prop
  | .leave g' _ => g' ≠ g
  | .query1 _ => False
  | .query2 to _ _ => to ≠ none ∧ to ≠ some g
  | _ => True

theorem resting_act {g : Nat} {l : Link} {e : Ev} (hi : Inv l) (h3 : l.version ≠ 3) (hq : Unasked g e) (m : Mem)
    (hm : m ∈ l.groups) (hg : m.addr = g) (hn : m.now = true) (hst : Resting m.st) :
    (act l e m).1.now = true ∧ Resting (act l e m).1.st ∧ (act l e m).2 = [] := by
  cases e with
  | join g' r => rw [act_join hm hn]; exact ⟨hn, hst, rfl⟩
  | leave g' r =>
    simp only [act]
    rw [if_neg (by rw [hg]; intro h; exact hq h.symm)]
    exact ⟨hn, hst, rfl⟩
  | query1 r => exact absurd hq (by simp [Unasked])
  | query2 to c r =>
    simp only [act]; split
    · exact ⟨hn, hst, rfl⟩
    · rename_i h1
      have h2 : l.version = 2 := by
        rcases hi.ver.1 with h | h | h
        · exact absurd h h1
        · exact h
        · exact absurd h h3
      have hs : (setVersion l 2).version = l.version := by rw [(setVersion2 l).1, h2]; simp
      rw [cancelIf_same hs]
      rw [if_neg (by rw [hg]; intro h; rcases h with h | h; exact hq.1 h; exact hq.2 h)]
      exact ⟨hn, hst, rfl⟩
  | query3 c v q r => simp only [act]; rw [if_pos h3]; exact ⟨hn, hst, rfl⟩
  | query3g g' c v q s hh r => simp only [act]; rw [if_pos h3]; exact ⟨hn, hst, rfl⟩
  | heard1 g' s =>
    simp only [act]; split
    · simp only [heard1, if_neg h3]
      rcases hst with h | h | h | h <;> simp [h, hn, Resting]
    · exact ⟨hn, hst, rfl⟩
  | heard2 g' s =>
    simp only [act]; split
    · simp only [heard2, if_neg h3]
      rcases hst with h | h | h | h <;> simp [h, hn, Resting]
    · exact ⟨hn, hst, rfl⟩
  | tick r =>
    have hx : (if l.ifcRun = true ∧ l.v3timer = 1 then general3 m else (m, [])) = (m, []) := by
      rw [hi.old h3]; simp
    simp only [act, hx, List.nil_append, if_neg h3]
    split
    · exact ⟨hn, hst, rfl⟩
    · unfold timer12
      split
      · exact ⟨hn, hst, rfl⟩
      · rcases hst with h | h | h | h <;> simp [h, hn, Resting]

/-- A resting member sends nothing unless asked. -/
theorem resting_silent {g : Nat} {l : Link} (hi : Inv l) (h3 : l.version ≠ 3) (h : Only Resting g l) (es : List Ev)
    (hq : ∀ e ∈ es, Unasked g e) : ∀ x ∈ (run l es).2, x.group ≠ g := by
  refine (never (g := g) (P := fun l => l.version ≠ 3 ∧ Only Resting g l) (Q := Unasked g)
    (fun l e hi h hq => ⟨?_, (only_step h.2 (resting_act hi h.1 hq)).1⟩)
    (fun l e hi h hq => (only_step h.2 (resting_act hi h.1 hq)).2) l es hi ⟨h3, h⟩ hq).2
  rw [step_version hi.ver e]
  cases e <;> simp only <;> first | exact h.1 | (split <;> first | exact h.1 | decide)

/-- **C207, violated**: on a link of version 1 or 2 the one report sent when a group is joined is never repeated, although a
timer is set for that: after the join nothing is sent about the group until a query comes, however long it takes. -/
theorem join_not_repeated_violated {l : Link} (hr : Reachable l) (h3 : l.version ≠ 3) (g r : Nat)
    (hnew : ∀ m ∈ l.groups, m.addr ≠ g) (hl : l.loopif = false) (hrep : isReported l.sendlocal g = true) (es : List Ev)
    (hq : ∀ e ∈ es, Unasked g e) :
    (step l (.join g r)).2 = [⟨g, kind12 l.version⟩] ∧ ∀ x ∈ (run (step l (.join g r)).1 es).2, x.group ≠ g := by
  have hany : l.groups.any (fun m => decide (m.addr = g)) = false := by
    rw [List.any_eq_false]; intro m hm; simpa using hnew m hm
  have hany2 : ¬ l.groups.any (fun m => decide (m.addr = g ∧ m.now = true)) = true := by
    intro h
    obtain ⟨m, hm, hd⟩ := List.any_eq_true.mp h
    simp at hd; exact hnew m hm hd.1
  have hact : act l (.join g r) ⟨g, false, false, .notMember, 0, 0, 0, none, false⟩ =
      (⟨g, true, true, .idle, delay 50 r, 0, 0, none, false⟩, [⟨g, kind12 l.version⟩]) := by
    simp only [act, if_neg hany2, if_true, changeState, initialJoin]
    rw [if_pos (show true ≠ false by decide), if_neg (by simp [hl, hrep])]
    rw [if_neg h3]
    simp only [Mem.commit, kind12]
    rw [if_neg (show ¬ (l.version = 3 ∧ St.notMember = St.leaving) from fun h => h3 h.1)]
  have hbase : base l (.join g r) = l.groups ++ [⟨g, false, false, .notMember, 0, 0, 0, none, false⟩] := by
    simp only [base, hany]; rfl
  have hother : ∀ m ∈ l.groups, act l (.join g r) m = (m, []) := by
    intro m hm
    simp only [act, if_neg hany2, if_neg (hnew m hm)]
  refine ⟨?_, ?_⟩
  · simp only [step, join, if_neg hany2, hany]
    simp only [Bool.false_eq_true, if_false, onGroup]
    rw [List.filter_append]
    have h1 : l.groups.filter (fun m => decide (m.addr = g)) = [] := by
      rw [List.filter_eq_nil_iff]; intro m hm; simpa using hnew m hm
    rw [h1]
    have := hact
    simp only [act, if_neg hany2, if_true] at this
    simp
    exact congrArg Prod.snd this
  · refine resting_silent (step_inv hr.inv _) ?_ ?_ es hq
    · rw [step_version hr.inv.ver]; exact h3
    · have hkeep := step_keep (l := l) (e := .join g r) (m := ⟨g, false, false, .notMember, 0, 0, 0, none, false⟩)
        (by rw [hbase]; simp) (by rw [hact]; exact Or.inl rfl)
      rw [hact] at hkeep
      refine ⟨⟨_, hkeep, rfl⟩, fun m hm hg => ?_⟩
      obtain ⟨m0, h0, rfl⟩ := step_mem hm
      rw [hbase] at h0
      rcases List.mem_append.mp h0 with h0 | h0
      · rw [hother m0 h0] at hg; exact absurd hg (hnew m0 h0)
      · simp at h0; rw [h0, hact]; exact ⟨rfl, .inl rfl⟩

/-- The hypotheses are met. -/
example : Reachable (Link.init false true 2) ∧ (Link.init false true 2).version ≠ 3 ∧
    isReported true 0xef010203 = true ∧ Unasked 0xef010203 (.tick 0) :=
  ⟨⟨false, true, 2, [], .inr (.inl rfl), rfl⟩, by decide, by decide, trivial⟩

/-- **C201, violated**: a member that another host's version 1 report has put to sleep is not woken by the next query of
version 2, only made ready: nothing is sent, however long it takes, until a second query comes. -/
theorem query2_sleeping_violated {l : Link} (hr : Reachable l) (hv : l.version = 2) {g : Nat}
    (h : Only (· = .sleeping) g l) (to : Option Nat) (c : Nat) (r : Nat → Nat) (es : List Ev)
    (hq : ∀ e ∈ es, Unasked g e) : ∀ x ∈ (run l (.query2 to c r :: es)).2, x.group ≠ g := by
  have hs : (setVersion l 2).version = l.version := by rw [(setVersion2 l).1, hv]; simp
  have h' : Only Resting g l := ⟨h.1, fun m hm hg => ⟨(h.2 m hm hg).1, .inr (.inr (.inl (h.2 m hm hg).2))⟩⟩
  have hst := only_step (e := .query2 to c r) h' (fun m hm hg hn _ => by
    have hsl := (h.2 m hm hg).2
    simp only [act, cancelIf_same hs]
    rw [if_neg (by omega)]
    refine ⟨?_, ?_, rfl⟩
    · simp only [update2, hsl]; split <;> exact hn
    · simp only [update2, hsl]
      split
      · exact .inr (.inr (.inr rfl))
      · exact .inr (.inr (.inl hsl)))
  intro x hx
  simp only [run, List.mem_append] at hx
  rcases hx with hx | hx
  · exact hst.2 x hx
  · refine resting_silent (step_inv hr.inv _) ?_ hst.1 es hq x hx
    simp only [step]; rw [(query2_set (by omega)).1, hs, hv]; decide

/-- Such a link. -/
example : Reachable (run (Link.init false true 2) [.join 0xef010203 0, .heard1 0xef010203 false]).1 ∧
    Only (· = .sleeping) 0xef010203 (run (Link.init false true 2) [.join 0xef010203 0, .heard1 0xef010203 false]).1 := by
  refine ⟨⟨false, true, 2, _, .inr (.inl rfl), rfl⟩, ?_⟩
  have h : (run (Link.init false true 2) [.join 0xef010203 0, .heard1 0xef010203 false]).1.groups =
      [⟨0xef010203, true, true, .sleeping, 0, 0, 0, none, false⟩] := by decide +kernel
  unfold Only
  rw [h]; simp

/-- **C201, violated**: a query of version 1 that comes while the timer set by the join runs (up to 10 s) is not answered,
however long it takes. -/
theorem query1_joining_violated {l : Link} (hr : Reachable l) (hv : l.version = 1) {g : Nat}
    (h : Only (· = .idle) g l) (ht : ∀ m ∈ l.groups, m.addr = g → m.timer ≠ 0) (r : Nat → Nat) (es : List Ev)
    (hq : ∀ e ∈ es, Unasked g e) : ∀ x ∈ (run l (.query1 r :: es)).2, x.group ≠ g := by
  have hs : (setVersion l 1).version = l.version := by rw [(setVersion1 l).1, hv]; simp
  have h' : Only Resting g l := ⟨h.1, fun m hm hg => ⟨(h.2 m hm hg).1, .inl (h.2 m hm hg).2⟩⟩
  have hst := only_step (e := .query1 r) h' (fun m hm hg hn hres => by
    simp only [act, cancelIf_same hs, update1]
    rw [if_pos (ht m hm hg)]
    exact ⟨hn, hres, trivial⟩)
  intro x hx
  simp only [run, List.mem_append] at hx
  rcases hx with hx | hx
  · exact hst.2 x hx
  · refine resting_silent (step_inv hr.inv _) ?_ hst.1 es hq x hx
    show (setVersion l 1).version ≠ 3
    rw [hs, hv]; decide

/-- Such a link. -/
example : Reachable (run (Link.init false true 1) [.join 0xef010203 9]).1 ∧
    (run (Link.init false true 1) [.join 0xef010203 9]).1.groups =
      [⟨0xef010203, true, true, .idle, 10, 0, 0, none, false⟩] :=
  ⟨⟨false, true, 1, _, .inl rfl, rfl⟩, by decide +kernel⟩

end Verif.Igmp.Host

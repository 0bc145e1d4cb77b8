import Verif.Igmp.HostAct
/-!
# Invariants of the IGMP host state machine
-/
namespace Verif.Igmp.Host

theorem setTimers_same (l : Link) (v : Nat) : (setTimers l v).loopif = l.loopif ∧
    (setTimers l v).sendlocal = l.sendlocal ∧ (setTimers l v).version = l.version ∧
    (setTimers l v).curRun = l.curRun ∧ (setTimers l v).scRun = l.scRun ∧ (setTimers l v).ifcRun = l.ifcRun ∧
    (setTimers l v).v3timer = l.v3timer ∧ (setTimers l v).rv = l.rv ∧ (setTimers l v).groups = l.groups := by
  obtain ⟨a, b, h⟩ := setTimers_eq l v
  rw [h]; exact ⟨rfl, rfl, rfl, rfl, rfl, rfl, rfl, rfl, rfl⟩

theorem pick_same (l : Link) : (pick l).loopif = l.loopif ∧
    (pick l).sendlocal = l.sendlocal ∧
    (pick l).curRun = l.curRun ∧ (pick l).scRun = l.scRun ∧ (pick l).ifcRun = l.ifcRun ∧ (pick l).rv = l.rv ∧
    ((pick l).v3timer = l.v3timer ∨ (pick l).v3timer = 0) := by
  unfold pick cancelTimers
  split
  · split <;> simp
  · split
    · split <;> simp
    · simp

theorem setVersion_same (l : Link) (v : Nat) : (setVersion l v).loopif = l.loopif ∧
    (setVersion l v).sendlocal = l.sendlocal ∧
    (setVersion l v).curRun = l.curRun ∧ (setVersion l v).scRun = l.scRun ∧ (setVersion l v).ifcRun = l.ifcRun ∧
    (setVersion l v).rv = l.rv ∧
    ((setVersion l v).v3timer = l.v3timer ∨ (setVersion l v).v3timer = 0) := by
  obtain ⟨a1, a2, a3, a4, a5, a6, a7, a8, a9⟩ := setTimers_same l v
  obtain ⟨b1, b2, b3, b4, b5, b6, b7⟩ := pick_same (setTimers l v)
  unfold setVersion
  rw [b1, b2, b3, b4, b5, b6, a1, a2, a4, a5, a6, a8]
  rw [a7] at b7
  exact ⟨rfl, rfl, rfl, rfl, rfl, rfl, b7⟩

theorem query2_set {l : Link} {g : Option Nat} {c : Nat} {r : Nat → Nat} (hv : l.version ≠ 1) :
    (query2 l g c r).version = (setVersion l 2).version ∧ (query2 l g c r).v1timer = (setVersion l 2).v1timer ∧
    (query2 l g c r).v2timer = (setVersion l 2).v2timer ∧ (query2 l g c r).v3timer = (setVersion l 2).v3timer ∧
    (query2 l g c r).ifcRun = (setVersion l 2).ifcRun := by
  simp [query2, if_neg hv]

theorem tickLink_const (l : Link) : (tickLink l).1.loopif = l.loopif ∧ (tickLink l).1.sendlocal = l.sendlocal ∧
    (tickLink l).1.version = l.version ∧ (tickLink l).1.v1timer = l.v1timer ∧ (tickLink l).1.v2timer = l.v2timer ∧
    (tickLink l).1.rv = l.rv := by
  unfold tickLink
  split
  · simp
  · split
    · simp
    · split <;> simp

theorem tickGroups_const (l : Link) (r : Nat) : (tickGroups l r).1.loopif = l.loopif ∧
    (tickGroups l r).1.sendlocal = l.sendlocal ∧
    (tickGroups l r).1.version = l.version ∧ (tickGroups l r).1.v1timer = l.v1timer ∧
    (tickGroups l r).1.v2timer = l.v2timer ∧ (tickGroups l r).1.rv = l.rv := by
  unfold tickGroups
  split <;> simp

/-- The interface stays what it is. -/
theorem step_const (l : Link) (e : Ev) : (step l e).1.loopif = l.loopif ∧ (step l e).1.sendlocal = l.sendlocal := by
  cases e with
  | join g r =>
    simp only [step, join]
    split
    · exact ⟨rfl, rfl⟩
    · simp only [onGroup]
      split <;> exact ⟨rfl, rfl⟩
  | leave g r => exact ⟨rfl, rfl⟩
  | query1 r => exact ⟨(setVersion_same l 1).1, (setVersion_same l 1).2.1⟩
  | query2 g c r =>
    simp only [step, query2]
    split
    · exact ⟨rfl, rfl⟩
    · exact ⟨(setVersion_same l 2).1, (setVersion_same l 2).2.1⟩
  | query3 c v q r =>
    simp only [step, query3]
    split
    · exact ⟨rfl, rfl⟩
    · split <;> exact ⟨(setVersion_same l 3).1, (setVersion_same l 3).2.1⟩
  | query3g g c v q s h r =>
    simp only [step, query3g]
    split
    · exact ⟨rfl, rfl⟩
    · split <;> exact ⟨(setVersion_same l 3).1, (setVersion_same l 3).2.1⟩
  | heard1 g s => exact ⟨rfl, rfl⟩
  | heard2 g s => exact ⟨rfl, rfl⟩
  | tick r =>
    obtain ⟨a1, a2, _⟩ := tickLink_const l
    obtain ⟨b1, b2, _⟩ := tickGroups_const (tickLink l).1 r
    exact ⟨b1.trans a1, b2.trans a2⟩

/-- What the link itself becomes: the version changes with old queries only; timers of older queriers. -/
def VerInv (l : Link) : Prop :=
  (l.version = 1 ∨ l.version = 2 ∨ l.version = 3) ∧ (l.version = 3 → l.v1timer = 0 ∧ l.v2timer = 0)

theorem pick_version (l : Link) : (pick l).version = (if l.v1timer = 0 ∧ l.v2timer > 0 then 2
      else if l.v1timer > 0 then 1 else l.version) ∧ (pick l).v1timer = l.v1timer ∧ (pick l).v2timer = l.v2timer := by
  unfold pick cancelTimers
  split
  · split
    · simp
    · simp; rename_i h; simpa using h
  · split
    · split
      · simp
      · simp; rename_i h; simpa using h
    · simp

theorem setVersion1 (l : Link) : (setVersion l 1).version = (if l.rv * l.qi + l.qri > 0 then 1 else l.version) ∧
    (setVersion l 1).v1timer = (l.rv * l.qi + l.qri) * 2 ∧ (setVersion l 1).v2timer = 0 := by
  unfold setVersion
  obtain ⟨h1, h2, h3⟩ := pick_version (setTimers l 1)
  rw [h1, h2, h3]
  simp [setTimers]

theorem setVersion2 (l : Link) : (setVersion l 2).version = (if l.rv * l.qi + l.qri > 0 then 2 else l.version) ∧
    (setVersion l 2).v2timer = (l.rv * l.qi + l.qri) * 2 ∧ (setVersion l 2).v1timer = 0 := by
  unfold setVersion
  obtain ⟨h1, h2, h3⟩ := pick_version (setTimers l 2)
  rw [h1, h2, h3]
  simp [setTimers]

theorem setVersion3 {l : Link} (h : VerInv l) (hv : l.version = 3) : setVersion l 3 = l := by
  obtain ⟨h1, h2⟩ := h.2 hv
  simp [setVersion, setTimers, pick, h1, h2]

theorem tick_ver (l : Link) (r : Nat) : (tick l r).1.version = l.version ∧ (tick l r).1.v1timer = l.v1timer ∧
    (tick l r).1.v2timer = l.v2timer := by
  obtain ⟨_, _, a1, a2, a3, _⟩ := tickLink_const l
  obtain ⟨_, _, b1, b2, b3, _⟩ := tickGroups_const (tickLink l).1 r
  exact ⟨b1.trans a1, b2.trans a2, b3.trans a3⟩

theorem join_ver (l : Link) (g r : Nat) : (join l g r).1.version = l.version ∧ (join l g r).1.v1timer = l.v1timer ∧
    (join l g r).1.v2timer = l.v2timer ∧ (join l g r).1.v3timer = l.v3timer ∧ (join l g r).1.ifcRun = l.ifcRun ∧
    (join l g r).1.rv = l.rv := by
  simp only [join]
  split
  · exact ⟨rfl, rfl, rfl, rfl, rfl, rfl⟩
  · simp only [onGroup]
    split <;> exact ⟨rfl, rfl, rfl, rfl, rfl, rfl⟩

/-- The version after an event. -/
theorem step_version {l : Link} (hi : VerInv l) (e : Ev) : (step l e).1.version = match e with
    | .query1 _ => if l.rv * l.qi + l.qri > 0 then 1 else l.version
    | .query2 _ _ _ => if l.version ≠ 1 ∧ l.rv * l.qi + l.qri > 0 then 2 else l.version
    | _ => l.version := by
  cases e with
  | join g r => exact (join_ver l g r).1
  | leave g r => rfl
  | query1 r => exact (setVersion1 l).1
  | query2 g c r =>
    simp only [step]
    by_cases hv : l.version = 1
    · simp [query2, hv]
    · rw [(query2_set hv).1, (setVersion2 l).1]; simp [hv]
  | query3 c v q r =>
    simp only [step, query3]
    split
    · rfl
    · rename_i hv
      have hv : l.version = 3 := by simpa using hv
      rw [setVersion3 hi hv]; split <;> rfl
  | query3g g c v q s h r =>
    simp only [step, query3g]
    split
    · rfl
    · rename_i hv
      have hv : l.version = 3 := by simpa using hv
      rw [setVersion3 hi hv]; split <;> rfl
  | heard1 g s => rfl
  | heard2 g s => rfl
  | tick r => exact (tick_ver l r).1

theorem step_verInv {l : Link} (hi : VerInv l) (e : Ev) : VerInv (step l e).1 := by
  obtain ⟨h1, h2⟩ := hi
  have hs := step_version ⟨h1, h2⟩ e
  cases e with
  | join g r =>
    obtain ⟨a, b, c, _⟩ := join_ver l g r
    unfold VerInv; simp only [step]; rw [a, b, c]; exact ⟨h1, h2⟩
  | leave g r => exact ⟨h1, h2⟩
  | query1 r =>
    have hh : (step l (.query1 r)).1.v1timer = (setVersion l 1).v1timer ∧
      (step l (.query1 r)).1.v2timer = (setVersion l 1).v2timer := ⟨rfl, rfl⟩
    unfold VerInv
    rw [hs, hh.1, hh.2, (setVersion1 l).2.1, (setVersion1 l).2.2]
    simp only
    split
    · exact ⟨by simp, by simp⟩
    · rename_i h0
      exact ⟨h1, fun _ => ⟨by omega, trivial⟩⟩
  | query2 g c r =>
    by_cases hv : l.version = 1
    · simp only [step, query2, hv, if_true]; exact ⟨h1, h2⟩
    · have hh : (step l (.query2 g c r)).1.v1timer = (setVersion l 2).v1timer ∧
        (step l (.query2 g c r)).1.v2timer = (setVersion l 2).v2timer := by
        simp only [step]
        exact ⟨(query2_set hv).2.1, (query2_set hv).2.2.1⟩
      unfold VerInv
      rw [hs, hh.1, hh.2, (setVersion2 l).2.1, (setVersion2 l).2.2]
      simp only
      split
      · exact ⟨by simp, by simp⟩
      · rename_i h0
        exact ⟨h1, fun _ => ⟨trivial, by
          rcases Nat.eq_zero_or_pos (l.rv * l.qi + l.qri) with h | h
          · rw [h]
          · exact absurd ⟨hv, h⟩ h0⟩⟩
  | query3 c v q r =>
    simp only [step, query3]
    split
    · exact ⟨h1, h2⟩
    · rename_i hv
      have hv : l.version = 3 := by simpa using hv
      rw [setVersion3 ⟨h1, h2⟩ hv]; split <;> exact ⟨h1, h2⟩
  | query3g g c v q s h r =>
    simp only [step, query3g]
    split
    · exact ⟨h1, h2⟩
    · rename_i hv
      have hv : l.version = 3 := by simpa using hv
      rw [setVersion3 ⟨h1, h2⟩ hv]; split <;> exact ⟨h1, h2⟩
  | heard1 g s => exact ⟨h1, h2⟩
  | heard2 g s => exact ⟨h1, h2⟩
  | tick r =>
    obtain ⟨a, b, c⟩ := tick_ver l r
    unfold VerInv; simp only [step]; rw [a, b, c]; exact ⟨h1, h2⟩

/-- A timer that runs is noted. -/
def RunInv (l : Link) : Prop := ∀ m ∈ l.groups, m.timer ≠ 0 → l.curRun = true

theorem cancelIf_timer (l : Link) (v : Nat) (m : Mem) : (cancelIf l v m).timer = m.timer ∨ (cancelIf l v m).timer = 0 := by
  unfold cancelIf cancel1
  split
  · cases m.st <;> simp
  · simp

theorem heard1_timer (v : Nat) (s : Bool) (m : Mem) : (heard1 v s m).timer = m.timer ∨ (heard1 v s m).timer = 0 := by
  unfold heard1 suppress3
  split
  · split
    · split <;> simp
    · simp
  · simp only
    split
    all_goals first | (simp; done) | skip
    split
    · simp
    · split <;> simp

theorem heard2_timer (v : Nat) (s : Bool) (m : Mem) : (heard2 v s m).timer = m.timer ∨ (heard2 v s m).timer = 0 := by
  unfold heard2 suppress3
  split
  · split
    · split <;> simp
    · simp
  · simp only
    split <;> simp

theorem finalLeave_timer (l : Link) (m : Mem) : (finalLeave l m).1.timer = m.timer ∨ (finalLeave l m).1.timer = 0 := by
  unfold finalLeave Mem.commit
  split
  all_goals first | (simp; done) | skip
  all_goals
    split
    · simp
    · split
      · split <;> simp
      · simp

theorem handleChange_timer (l : Link) (m : Mem) : (handleChange l m).timer = m.timer := by
  unfold handleChange Mem.commit
  split <;> rfl

theorem general3_same (m : Mem) : (general3 m).1.timer = m.timer ∧ (general3 m).1.now = m.now ∧
    (general3 m).1.addr = m.addr ∧ (general3 m).1.sctimer = m.sctimer ∧ (general3 m).1.hold = m.hold ∧
    (general3 m).1.scrv = m.scrv ∧ (general3 m).1.scq = m.scq ∧ (general3 m).1.old = m.old := by
  unfold general3; split <;> exact ⟨rfl, rfl, rfl, rfl, rfl, rfl, rfl, rfl⟩

theorem step_runInv {l : Link} (hr : RunInv l) (e : Ev) : RunInv (step l e).1 := by
  intro m hm ht
  cases e with
  | join g r =>
    simp only [step, join] at hm ⊢
    split at hm
    · rename_i hn
      simp only [if_pos hn]; exact hr m hm ht
    · rename_i hn
      simp only [if_neg hn]
      rw [Bool.or_eq_true]; right
      exact List.any_eq_true.mpr ⟨m, hm, by simpa using ht⟩
  | leave g r =>
    obtain ⟨m0, h0, h1⟩ := onGroup_mem hm
    have : (step l (.leave g r)).1.curRun = l.curRun := rfl
    rw [this]
    refine hr m0 h0 fun hz => ht ?_
    rw [h1]
    split
    · split
      · unfold changeState
        split
        · rename_i hne
          split
          · rename_i hw; simp_all
          · rcases finalLeave_timer l { m0 with now := false } with h | h
            · rw [h]; exact hz
            · exact h
        · rw [handleChange_timer]; exact hz
      · exact hz
    · exact hz
  | query1 r =>
    simp only [step, query1] at hm ⊢
    obtain ⟨m1, h1, rfl⟩ := List.mem_map.mp hm
    rw [Bool.or_eq_true]
    by_cases heq : (update1 r m1).timer = m1.timer
    · left
      rw [(setVersion_same l 1).2.2.1]
      obtain ⟨m0, h0, rfl⟩ := setVersion_mem h1
      refine hr m0 h0 fun hz => ht ?_
      rw [heq]
      rcases cancelIf_timer l 1 m0 with h | h
      · rw [h]; exact hz
      · exact h
    · right
      exact List.any_eq_true.mpr ⟨m1, h1, by simpa using heq⟩
  | query2 g c r =>
    simp only [step, query2] at hm ⊢
    by_cases hv : l.version = 1
    · simp only [if_pos hv] at hm ⊢; exact hr m hm ht
    · simp only [if_neg hv] at hm ⊢
      obtain ⟨m1, h1, rfl⟩ := List.mem_map.mp hm
      rw [Bool.or_eq_true]
      by_cases heq : (if g = none ∨ g = some m1.addr then update2 (ticks2 c) r m1 else m1) = m1
      · left
        rw [(setVersion_same l 2).2.2.1]
        rw [heq] at ht
        obtain ⟨m0, h0, rfl⟩ := setVersion_mem h1
        refine hr m0 h0 fun hz => ht ?_
        rcases cancelIf_timer l 2 m0 with h | h
        · rw [h]; exact hz
        · exact h
      · right
        exact List.any_eq_true.mpr ⟨m1, h1, by simpa using heq⟩
  | query3 c v q r =>
    simp only [step, query3] at hm ⊢
    split at hm
    · rename_i hv; simp only [if_pos hv]; exact hr m hm ht
    · rename_i hv
      simp only [if_neg hv]
      have hm' : m ∈ (setVersion l 3).groups := by split at hm <;> exact hm
      have hc := (setVersion_same l 3).2.2.1
      obtain ⟨m0, h0, rfl⟩ := setVersion_mem hm'
      have : l.curRun = true := by
        refine hr m0 h0 fun hz => ht ?_
        rcases cancelIf_timer l 3 m0 with h | h
        · rw [h]; exact hz
        · exact h
      split <;> (rw [← this, ← hc])
  | query3g g c v q s h r =>
    simp only [step, query3g] at hm ⊢
    split at hm
    · rename_i hv; simp only [if_pos hv]; exact hr m hm ht
    · rename_i hv
      simp only [if_neg hv]
      split at hm
      · rename_i hh; simp only [if_pos hh]
      · rename_i hh; simp only [if_neg hh]
        have hc := (setVersion_same l 3).2.2.1
        obtain ⟨m0, h0, rfl⟩ := setVersion_mem hm
        have : l.curRun = true := by
          refine hr m0 h0 fun hz => ht ?_
          rcases cancelIf_timer l 3 m0 with h | h
          · rw [h]; exact hz
          · exact h
        rw [hc, this]
  | heard1 g s =>
    obtain ⟨m0, h0, h1⟩ := onGroup_mem hm
    show l.curRun = true
    refine hr m0 h0 fun hz => ht ?_
    rw [h1]
    split
    · rcases heard1_timer l.version s m0 with h | h
      · rw [h]; exact hz
      · exact h
    · exact hz
  | heard2 g s =>
    obtain ⟨m0, h0, h1⟩ := onGroup_mem hm
    show l.curRun = true
    refine hr m0 h0 fun hz => ht ?_
    rw [h1]
    split
    · rcases heard2_timer l.version s m0 with h | h
      · rw [h]; exact hz
      · exact h
    · exact hz
  | tick r =>
    simp only [step, tick] at hm ⊢
    obtain ⟨f1, f2, f3⟩ := tickLink_flags l
    unfold tickGroups at hm ⊢
    split at hm
    · rename_i hc
      rw [tickLink_groups] at hm
      obtain ⟨m0, h0, rfl⟩ := List.mem_map.mp hm
      have : m0.timer ≠ 0 := by
        intro hz; apply ht
        split
        · rw [(general3_same m0).1]; exact hz
        · exact hz
      rw [f1] at hc
      have := hr m0 h0 this
      simp [this] at hc
    · rename_i hc
      simp only [if_neg hc]
      exact List.any_eq_true.mpr ⟨m, (mem_reap.mp hm).1, by simpa using ht⟩

/-- A timer of the interface that runs is noted. -/
def IfcInv (l : Link) : Prop := l.v3timer ≠ 0 → l.ifcRun = true

theorem tickGroups_ifc (l : Link) (r : Nat) : (tickGroups l r).1.v3timer = l.v3timer ∧
    (tickGroups l r).1.ifcRun = l.ifcRun ∧ (tickGroups l r).1.rv = l.rv := by
  unfold tickGroups; split <;> exact ⟨rfl, rfl, rfl⟩

theorem setVersion_ifc {l : Link} (h : IfcInv l) (v : Nat) : IfcInv (setVersion l v) := by
  unfold IfcInv
  rw [(setVersion_same l v).2.2.2.2.1]
  rcases (setVersion_same l v).2.2.2.2.2.2 with h1 | h1
  · rw [h1]; exact h
  · rw [h1]; simp

theorem step_ifcInv {l : Link} (h : IfcInv l) (e : Ev) : IfcInv (step l e).1 := by
  cases e with
  | join g r =>
    obtain ⟨_, _, _, a, b, _⟩ := join_ver l g r
    unfold IfcInv; simp only [step]; rw [a, b]; exact h
  | leave g r => exact h
  | query1 r => exact setVersion_ifc h 1
  | query2 g c r =>
    simp only [step]
    by_cases hv : l.version = 1
    · simp only [query2, if_pos hv]; exact h
    · unfold IfcInv; rw [(query2_set hv).2.2.2.1, (query2_set hv).2.2.2.2]
      exact setVersion_ifc h 2
  | query3 c v q r =>
    simp only [step, query3]
    split
    · exact h
    · split
      · intro _; rfl
      · exact setVersion_ifc h 3
  | query3g g c v q s hh r =>
    simp only [step, query3g]
    split
    · exact h
    · split <;> exact setVersion_ifc h 3
  | heard1 g s => exact h
  | heard2 g s => exact h
  | tick r =>
    simp only [step, tick]
    unfold IfcInv
    rw [(tickGroups_ifc _ r).1, (tickGroups_ifc _ r).2.1]
    unfold tickLink
    split
    · exact h
    · split
      · rename_i hz; intro hn; exact absurd hz hn
      · split
        · intro hn; exact absurd rfl hn
        · intro _; rfl

/-- The interface has a timer in version 3 only. -/
def OldInv (l : Link) : Prop := l.version ≠ 3 → l.v3timer = 0

theorem pick_old {l : Link} (h : OldInv l) : OldInv (pick l) := by
  unfold pick cancelTimers
  split
  · split
    · intro _; rfl
    · exact h
  · split
    · split
      · intro _; rfl
      · exact h
    · exact h

theorem setVersion_old {l : Link} (h : OldInv l) (v : Nat) : OldInv (setVersion l v) := by
  apply pick_old
  obtain ⟨a, b, hh⟩ := setTimers_eq l v
  rw [hh]; exact h

theorem step_oldInv {l : Link} (hw : VerInv l) (h : OldInv l) (e : Ev) : OldInv (step l e).1 := by
  cases e with
  | join g r =>
    obtain ⟨a, _, _, b, _⟩ := join_ver l g r
    unfold OldInv; simp only [step]; rw [a, b]; exact h
  | leave g r => exact h
  | query1 r => exact setVersion_old h 1
  | query2 g c r =>
    simp only [step]
    by_cases hv : l.version = 1
    · simp only [query2, if_pos hv]; exact h
    · unfold OldInv; rw [(query2_set hv).2.2.2.1, (query2_set hv).1]
      exact setVersion_old h 2
  | query3 c v q r =>
    simp only [step, query3]
    split
    · exact h
    · rename_i hv
      have hv : l.version = 3 := by simpa using hv
      rw [setVersion3 hw hv]
      split
      · intro hne; exact absurd hv hne
      · exact h
  | query3g g c v q s hh r =>
    simp only [step, query3g]
    split
    · exact h
    · split <;> exact setVersion_old h 3
  | heard1 g s => exact h
  | heard2 g s => exact h
  | tick r =>
    simp only [step, tick]
    unfold OldInv
    rw [(tickGroups_ifc _ r).1, (tickGroups_const _ r).2.2.1, (tickLink_const l).2.2.1]
    intro hv
    unfold tickLink
    split
    · exact h hv
    · split
      · exact h hv
      · split
        · rfl
        · rw [h hv]

/-- All four. -/
structure Inv (l : Link) : Prop where
  ver : VerInv l
  run : RunInv l
  ifc : IfcInv l
  old : OldInv l

theorem step_inv {l : Link} (h : Inv l) (e : Ev) : Inv (step l e).1 :=
  ⟨step_verInv h.ver e, step_runInv h.run e, step_ifcInv h.ifc e, step_oldInv h.ver h.old e⟩

theorem run_inv {l : Link} (h : Inv l) (es : List Ev) : Inv (run l es).1 := by
  induction es generalizing l with
  | nil => exact h
  | cons e es ih => exact ih (step_inv h e)

theorem init_inv {a b : Bool} {v : Nat} (hv : v = 1 ∨ v = 2 ∨ v = 3) : Inv (Link.init a b v) :=
  ⟨⟨hv, fun _ => ⟨rfl, rfl⟩⟩, fun m hm => by simp [Link.init] at hm, fun h => absurd rfl h, fun _ => rfl⟩

theorem run_append (l : Link) (xs ys : List Ev) :
    run l (xs ++ ys) = ((run (run l xs).1 ys).1, (run l xs).2 ++ (run (run l xs).1 ys).2) := by
  induction xs generalizing l with
  | nil => simp [run]
  | cons e es ih => simp [run, ih]

end Verif.Igmp.Host

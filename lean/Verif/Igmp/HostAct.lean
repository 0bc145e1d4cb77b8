import Verif.Igmp.Host
/-!
# What an event does to one group
-/
namespace Verif.Igmp.Host

/-- Does the version change (`igmp_v3_cancel_link_timers` is called)? -/
def cancels (l : Link) (v : Nat) : Bool := (setVersion l v).version != l.version

/-- `cancel1` if the version changes. -/
def cancelIf (l : Link) (v : Nat) (m : Mem) : Mem := if cancels l v then cancel1 m else m

/-- The effect of an event on one group, and what is sent about it. -/
def act (l : Link) : Ev → Mem → Mem × List Msg
  | .join g r, m =>
    if l.groups.any (fun m => m.addr = g ∧ m.now) then (m, [])
    else if m.addr = g then changeState l r { m with now := true } else (m, [])
  | .leave g r, m =>
    if m.addr = g then (if m.now then changeState l r { m with now := false } else (m, [])) else (m, [])
  | .query1 r, m => (update1 r (cancelIf l 1 m), [])
  | .query2 g c r, m =>
    if l.version = 1 then (m, [])
    else (if g = none ∨ g = some m.addr then update2 (ticks2 c) r (cancelIf l 2 m) else cancelIf l 2 m, [])
  | .query3 _ _ _ _, m => if l.version ≠ 3 then (m, []) else (cancelIf l 3 m, [])
  | .query3g g c _ _ s h r, m =>
    if l.version ≠ 3 then (m, [])
    else if (setVersion l 3).v3timer = 0 ∨ (setVersion l 3).v3timer ≥ ticks3 c then
      (if m.addr = g then groupQuery (ticks3 c) s h r (cancelIf l 3 m) else cancelIf l 3 m, [])
    else (cancelIf l 3 m, [])
  | .heard1 g s, m => if m.addr = g then (heard1 l.version s m, []) else (m, [])
  | .heard2 g s, m => if m.addr = g then (heard2 l.version s m, []) else (m, [])
  | .tick r, m =>
    let x := if l.ifcRun = true ∧ l.v3timer = 1 then general3 m else (m, [])
    let y := if l.curRun = false ∧ l.scRun = false then (x.1, [])
      else if l.version = 3 then timers3 (delay 15 r) x.1 else timer12 l.version x.1
    (y.1, x.2 ++ y.2)

/-- The groups an event finds: `join` may add one. -/
def base (l : Link) : Ev → List Mem
  | .join g _ =>
    if l.groups.any (fun m => m.addr = g) then l.groups
    else l.groups ++ [⟨g, false, false, .notMember, 0, 0, 0, none, false⟩]
  | _ => l.groups

/-- Somebody refers to the group. -/
def Mem.kept (m : Mem) : Prop := m.now = true ∨ m.hold = true

theorem mem_reap {gs : List Mem} {m : Mem} : m ∈ reap gs ↔ m ∈ gs ∧ m.kept := by
  simp [reap, Mem.kept]

theorem pick_groups (l : Link) :
    (pick l).groups = if ((pick l).version != l.version) = true then reap (l.groups.map cancel1) else l.groups := by
  unfold pick
  split
  · split
    · rename_i h; simp [cancelTimers, Ne.symm h]
    · simp
  · split
    · split
      · rename_i h; simp [cancelTimers, Ne.symm h]
      · simp
    · simp

theorem setTimers_eq (l : Link) (v : Nat) :
    ∃ a b, setTimers l v = { l with v1timer := a, v2timer := b } := by
  unfold setTimers
  split
  · exact ⟨_, _, rfl⟩
  · split
    · exact ⟨_, _, rfl⟩
    · exact ⟨_, _, rfl⟩

theorem setVersion_groups (l : Link) (v : Nat) :
    (setVersion l v).groups = if cancels l v then reap (l.groups.map cancel1) else l.groups := by
  unfold cancels setVersion
  rw [pick_groups]
  obtain ⟨a, b, h⟩ := setTimers_eq l v
  rw [h]

theorem setVersion_mem {l : Link} {v : Nat} {m : Mem} (h : m ∈ (setVersion l v).groups) :
    ∃ m0 ∈ l.groups, m = cancelIf l v m0 := by
  rw [setVersion_groups] at h
  unfold cancelIf
  split at h
  · obtain ⟨m0, h0, rfl⟩ := List.mem_map.mp (mem_reap.mp h).1
    exact ⟨m0, h0, by simp_all⟩
  · exact ⟨m, h, by simp_all⟩

theorem setVersion_keep {l : Link} {v : Nat} {m : Mem} (h : m ∈ l.groups) (hk : (cancelIf l v m).kept) :
    cancelIf l v m ∈ (setVersion l v).groups := by
  rw [setVersion_groups]
  unfold cancelIf at hk ⊢
  split
  · rename_i hc
    simp only [hc, if_true] at hk
    exact mem_reap.mpr ⟨List.mem_map.mpr ⟨m, h, rfl⟩, hk⟩
  · exact h

theorem update1_kept {r : Nat → Nat} {m : Mem} : (update1 r m).kept ↔ m.kept := by
  unfold update1 Mem.kept; split
  · rfl
  · split <;> rfl

theorem update2_kept {t : Nat} {r : Nat → Nat} {m : Mem} : (update2 t r m).kept ↔ m.kept := by
  unfold update2 Mem.kept; split
  all_goals first | rfl | (split <;> rfl)

theorem groupQuery_kept {t r : Nat} {s h : Bool} {m : Mem} : (groupQuery t s h r m).kept ↔ m.kept := by
  obtain ⟨a, o, n, st, ti, sc, rv, q, ho⟩ := m
  cases st <;> cases s <;> cases h <;> exact Iff.rfl

theorem heard1_kept {v : Nat} {s : Bool} {m : Mem} : (heard1 v s m).kept ↔ m.kept := by
  unfold heard1 suppress3 Mem.kept
  split
  · split
    · split <;> rfl
    · rfl
  · simp only
    split
    all_goals first | rfl | skip
    split
    · rfl
    · split <;> rfl

theorem heard2_kept {v : Nat} {s : Bool} {m : Mem} : (heard2 v s m).kept ↔ m.kept := by
  unfold heard2 suppress3 Mem.kept
  split
  · split
    · split <;> rfl
    · rfl
  · simp only
    split <;> rfl

theorem general3_kept {m : Mem} : (general3 m).1.kept ↔ m.kept := by
  unfold general3 Mem.kept; split <;> rfl

theorem onGroup_mem {l : Link} {g : Nat} {f : Mem → Mem × List Msg} {m : Mem} (h : m ∈ (onGroup l g f).1.groups) :
    ∃ m0 ∈ l.groups, m = if m0.addr = g then (f m0).1 else m0 := by
  obtain ⟨m0, h0, h1⟩ := List.mem_map.mp (mem_reap.mp h).1
  exact ⟨m0, h0, h1.symm⟩

theorem onGroup_keep {l : Link} {g : Nat} {f : Mem → Mem × List Msg} {m : Mem} (h : m ∈ l.groups)
    (hk : (if m.addr = g then (f m).1 else m).kept) : (if m.addr = g then (f m).1 else m) ∈ (onGroup l g f).1.groups :=
  mem_reap.mpr ⟨List.mem_map.mpr ⟨m, h, rfl⟩, hk⟩

theorem onGroup_msg {l : Link} {g : Nat} {f : Mem → Mem × List Msg} {x : Msg} :
    x ∈ (onGroup l g f).2 ↔ ∃ m ∈ l.groups, m.addr = g ∧ x ∈ (f m).2 := by
  simp [onGroup]
  constructor
  · rintro ⟨m, ⟨h1, h2⟩, h3⟩; exact ⟨m, h1, h2, h3⟩
  · rintro ⟨m, h1, h2, h3⟩; exact ⟨m, ⟨h1, h2⟩, h3⟩

theorem tickLink_groups (l : Link) : (tickLink l).1.groups =
    l.groups.map fun m => (if l.ifcRun = true ∧ l.v3timer = 1 then general3 m else (m, [])).1 := by
  unfold tickLink
  by_cases h1 : l.ifcRun = false
  · simp [h1]
  · have h1' : l.ifcRun = true := by simpa using h1
    rw [if_neg h1]
    by_cases h2 : l.v3timer = 0
    · simp [h2]
    · rw [if_neg h2]
      by_cases h3 : l.v3timer = 1
      · simp [h1', h3]
      · rw [if_neg h3]; simp [h3]

theorem tickLink_msgs (l : Link) : (tickLink l).2 =
    l.groups.flatMap fun m => (if l.ifcRun = true ∧ l.v3timer = 1 then general3 m else (m, [])).2 := by
  unfold tickLink
  by_cases h1 : l.ifcRun = false
  · simp [h1]
  · have h1' : l.ifcRun = true := by simpa using h1
    rw [if_neg h1]
    by_cases h2 : l.v3timer = 0
    · simp [h2]
    · rw [if_neg h2]
      by_cases h3 : l.v3timer = 1
      · simp [h1', h3]
      · rw [if_neg h3]; simp [h3]

theorem tickLink_flags (l : Link) : (tickLink l).1.curRun = l.curRun ∧ (tickLink l).1.scRun = l.scRun ∧
    (tickLink l).1.version = l.version := by
  unfold tickLink
  split
  · simp
  · split
    · simp
    · split <;> simp

/-- The group's part of `tickGroups`. -/
def tickAct (l : Link) (r : Nat) (m : Mem) : Mem × List Msg :=
  if l.curRun = false ∧ l.scRun = false then (m, [])
  else if l.version = 3 then timers3 (delay 15 r) m else timer12 l.version m

theorem tickGroups_mem {l : Link} {r : Nat} {m : Mem} (h : m ∈ (tickGroups l r).1.groups) :
    ∃ m0 ∈ l.groups, m = (tickAct l r m0).1 := by
  unfold tickGroups at h
  unfold tickAct
  split at h
  · rename_i hc; exact ⟨m, h, by rw [if_pos hc]⟩
  · rename_i hc
    obtain ⟨m0, h0, h1⟩ := List.mem_map.mp (mem_reap.mp h).1
    exact ⟨m0, h0, by rw [if_neg hc]; exact h1.symm⟩

theorem tickGroups_keep {l : Link} {r : Nat} {m : Mem} (h : m ∈ l.groups) (hk : (tickAct l r m).1.kept) :
    (tickAct l r m).1 ∈ (tickGroups l r).1.groups := by
  unfold tickGroups
  unfold tickAct at hk ⊢
  split
  · exact h
  · rename_i hc
    rw [if_neg hc] at hk
    exact mem_reap.mpr ⟨List.mem_map.mpr ⟨m, h, rfl⟩, hk⟩

theorem tickGroups_msg {l : Link} {r : Nat} {x : Msg} :
    x ∈ (tickGroups l r).2 ↔ ∃ m ∈ l.groups, x ∈ (tickAct l r m).2 := by
  unfold tickGroups tickAct
  split
  · simp
  · simp only [List.mem_flatMap]

theorem act_tick (l : Link) (r : Nat) (m : Mem) :
    let x := if l.ifcRun = true ∧ l.v3timer = 1 then general3 m else (m, [])
    act l (.tick r) m = ((tickAct (tickLink l).1 r x.1).1, x.2 ++ (tickAct (tickLink l).1 r x.1).2) := by
  obtain ⟨h1, h2, h3⟩ := tickLink_flags l
  simp only [act, tickAct, h1, h2, h3]

/-- Every group after an event comes from one before. -/
theorem step_mem {l : Link} {e : Ev} {m : Mem} (h : m ∈ (step l e).1.groups) :
    ∃ m0 ∈ base l e, m = (act l e m0).1 := by
  cases e with
  | join g r =>
    simp only [step, join] at h
    simp only [base, act]
    split at h
    · rename_i hn
      refine ⟨m, ?_, by rw [if_pos hn]⟩
      rw [if_pos]
      · exact h
      · rw [List.any_eq_true] at hn ⊢
        obtain ⟨x, hx, hd⟩ := hn
        exact ⟨x, hx, by simp at hd; simp [hd.1]⟩
    · rename_i hn
      obtain ⟨m0, h0, h1⟩ := onGroup_mem h
      have h0' : m0 ∈ (if l.groups.any (fun m => decide (m.addr = g)) = true then l.groups
          else l.groups ++ [⟨g, false, false, .notMember, 0, 0, 0, none, false⟩]) := by
        split at h0 <;> rename_i hh <;> simp [hh] <;> simpa using h0
      refine ⟨m0, h0', ?_⟩
      rw [if_neg hn, h1]
      by_cases hg : m0.addr = g
      · simp only [hg, if_true]
        split <;> rfl
      · simp only [hg, if_false]
  | leave g r =>
    obtain ⟨m0, h0, h1⟩ := onGroup_mem h
    refine ⟨m0, h0, ?_⟩
    rw [h1]; simp only [act]
    split <;> rfl
  | query1 r =>
    simp only [step, query1] at h
    obtain ⟨m1, h1, rfl⟩ := List.mem_map.mp h
    obtain ⟨m0, h0, rfl⟩ := setVersion_mem h1
    exact ⟨m0, h0, rfl⟩
  | query2 g c r =>
    simp only [step, query2] at h
    simp only [act, base]
    split at h
    · rename_i hv; exact ⟨m, h, by rw [if_pos hv]⟩
    · rename_i hv
      obtain ⟨m1, h1, rfl⟩ := List.mem_map.mp h
      obtain ⟨m0, h0, rfl⟩ := setVersion_mem h1
      refine ⟨m0, h0, ?_⟩
      have : (cancelIf l 2 m0).addr = m0.addr := by
        unfold cancelIf cancel1; split
        · cases m0.st <;> rfl
        · rfl
      rw [if_neg hv, this]
  | query3 c v q r =>
    simp only [step, query3] at h
    simp only [act, base]
    split at h
    · rename_i hv; exact ⟨m, h, by rw [if_pos hv]⟩
    · rename_i hv
      have h' : m ∈ (setVersion l 3).groups := by split at h <;> exact h
      obtain ⟨m0, h0, rfl⟩ := setVersion_mem h'
      exact ⟨m0, h0, by rw [if_neg hv]⟩
  | query3g g c v q s hh r =>
    simp only [step, query3g] at h
    simp only [act, base]
    split at h
    · rename_i hv; exact ⟨m, h, by rw [if_pos hv]⟩
    · rename_i hv
      split at h
      · rename_i ht
        obtain ⟨m1, h1, rfl⟩ := List.mem_map.mp h
        obtain ⟨m0, h0, rfl⟩ := setVersion_mem h1
        refine ⟨m0, h0, ?_⟩
        have : (cancelIf l 3 m0).addr = m0.addr := by
          unfold cancelIf cancel1; split
          · cases m0.st <;> rfl
          · rfl
        rw [if_neg hv, if_pos ht, this]
      · rename_i ht
        obtain ⟨m0, h0, rfl⟩ := setVersion_mem h
        exact ⟨m0, h0, by rw [if_neg hv, if_neg ht]⟩
  | heard1 g s =>
    obtain ⟨m0, h0, h1⟩ := onGroup_mem h
    refine ⟨m0, h0, ?_⟩
    rw [h1]; simp only [act]
    split <;> rfl
  | heard2 g s =>
    obtain ⟨m0, h0, h1⟩ := onGroup_mem h
    refine ⟨m0, h0, ?_⟩
    rw [h1]; simp only [act]
    split <;> rfl
  | tick r =>
    obtain ⟨m1, h1, rfl⟩ := tickGroups_mem h
    rw [tickLink_groups] at h1
    obtain ⟨m0, h0, rfl⟩ := List.mem_map.mp h1
    exact ⟨m0, h0, by rw [act_tick]⟩

/-- What is sent in an event is sent for one of the groups. -/
theorem step_msg {l : Link} {e : Ev} {x : Msg} : x ∈ (step l e).2 ↔ ∃ m ∈ base l e, x ∈ (act l e m).2 := by
  cases e with
  | join g r =>
    simp only [step, join, base, act]
    by_cases hn : l.groups.any (fun m => decide (m.addr = g ∧ m.now = true)) = true
    · simp only [if_pos hn]; simp
    · simp only [if_neg hn]
      rw [onGroup_msg]
      constructor
      · rintro ⟨m, h1, h2, h3⟩
        refine ⟨m, ?_, ?_⟩
        · split at h1 <;> rename_i hh <;> simp [hh] <;> simpa using h1
        · rw [if_pos h2]
          split at h3 <;> exact h3
      · rintro ⟨m, h1, h3⟩
        by_cases h2 : m.addr = g
        · refine ⟨m, ?_, h2, ?_⟩
          · split at h1 <;> rename_i hh <;> simp [hh] <;> simpa using h1
          · rw [if_pos h2] at h3
            split <;> exact h3
        · rw [if_neg h2] at h3; simp at h3
  | leave g r =>
    simp only [step, leave, base, act]
    rw [onGroup_msg]
    constructor
    · rintro ⟨m, h1, h2, h3⟩; exact ⟨m, h1, by rw [if_pos h2]; exact h3⟩
    · rintro ⟨m, h1, h3⟩
      by_cases h2 : m.addr = g
      · rw [if_pos h2] at h3; exact ⟨m, h1, h2, h3⟩
      · rw [if_neg h2] at h3; simp at h3
  | query1 r => simp [step, act]
  | query2 g c r =>
    simp only [step, act]
    split <;> simp
  | query3 c v q r =>
    simp only [step, act]
    split <;> simp
  | query3g g c v q s hh r =>
    simp only [step, act]
    split
    · simp
    · split <;> simp
  | heard1 g s =>
    simp only [step, act, onGroup_msg]
    constructor
    · rintro ⟨m, _, _, h⟩; simp at h
    · rintro ⟨m, _, h⟩; split at h <;> simp at h
  | heard2 g s =>
    simp only [step, act, onGroup_msg]
    constructor
    · rintro ⟨m, _, _, h⟩; simp at h
    · rintro ⟨m, _, h⟩; split at h <;> simp at h
  | tick r =>
    simp only [step, tick, List.mem_append, tickGroups_msg, tickLink_msgs, tickLink_groups, base]
    constructor
    · rintro (h | ⟨m, h1, h2⟩)
      · obtain ⟨m, h1, h2⟩ := List.mem_flatMap.mp h
        exact ⟨m, h1, by rw [act_tick]; exact List.mem_append_left _ h2⟩
      · obtain ⟨m0, h0, rfl⟩ := List.mem_map.mp h1
        exact ⟨m0, h0, by rw [act_tick]; exact List.mem_append_right _ h2⟩
    · rintro ⟨m, h1, h2⟩
      rw [act_tick] at h2
      rcases List.mem_append.mp h2 with h2 | h2
      · exact Or.inl (List.mem_flatMap.mpr ⟨m, h1, h2⟩)
      · exact Or.inr ⟨_, List.mem_map.mpr ⟨m, h1, rfl⟩, h2⟩

/-- A group somebody refers to stays. -/
theorem step_keep {l : Link} {e : Ev} {m : Mem} (h : m ∈ base l e) (hk : (act l e m).1.kept) :
    (act l e m).1 ∈ (step l e).1.groups := by
  cases e with
  | join g r =>
    simp only [step, join]
    simp only [base, act] at h hk ⊢
    by_cases hn : l.groups.any (fun m => decide (m.addr = g ∧ m.now = true)) = true
    · simp only [if_pos hn] at hk ⊢
      have : l.groups.any (fun m => decide (m.addr = g)) = true := by
        rw [List.any_eq_true] at hn ⊢
        obtain ⟨x, hx, hd⟩ := hn
        exact ⟨x, hx, by simp at hd; simp [hd.1]⟩
      rw [if_pos this] at h
      exact h
    · simp only [if_neg hn] at hk ⊢
      by_cases hh : l.groups.any (fun m => decide (m.addr = g)) = true
      · rw [if_pos hh] at h
        simp only [if_pos hh]
        have := onGroup_keep (l := l) (g := g) (f := fun m => changeState l r { m with now := true }) h
        by_cases hg : m.addr = g
        · simp only [if_pos hg] at hk this ⊢; exact this hk
        · simp only [if_neg hg] at hk this ⊢; exact this hk
      · rw [if_neg hh] at h
        simp only [if_neg hh]
        have := onGroup_keep (l := { l with groups := l.groups ++ [⟨g, false, false, .notMember, 0, 0, 0, none, false⟩] })
          (g := g) (f := fun m => changeState { l with groups := l.groups ++ [⟨g, false, false, .notMember, 0, 0, 0, none, false⟩] }
            r { m with now := true }) h
        by_cases hg : m.addr = g
        · simp only [if_pos hg] at hk this ⊢; exact this hk
        · simp only [if_neg hg] at hk this ⊢; exact this hk
  | leave g r =>
    simp only [step, leave]
    simp only [base, act] at h hk ⊢
    have := onGroup_keep (l := l) (g := g)
      (f := fun m => if m.now = true then changeState l r { m with now := false } else (m, [])) h
    by_cases hg : m.addr = g
    · simp only [if_pos hg] at hk this ⊢; exact this hk
    · simp only [if_neg hg] at hk this ⊢; exact this hk
  | query1 r =>
    simp only [step, query1]
    exact List.mem_map.mpr ⟨cancelIf l 1 m, setVersion_keep h (update1_kept.mp hk), rfl⟩
  | query2 g c r =>
    simp only [step, query2]
    simp only [base, act] at h hk ⊢
    have ha : (cancelIf l 2 m).addr = m.addr := by
      unfold cancelIf cancel1; split
      · cases m.st <;> rfl
      · rfl
    split
    · rename_i hv; rw [if_pos hv] at hk; exact h
    · rename_i hv
      simp only [if_neg hv] at hk
      refine List.mem_map.mpr ⟨cancelIf l 2 m, setVersion_keep h ?_, by rw [ha]⟩
      split at hk
      · exact update2_kept.mp hk
      · exact hk
  | query3 c v q r =>
    simp only [step, query3]
    simp only [base, act] at h hk ⊢
    by_cases hv : l.version ≠ 3
    · simp only [if_pos hv] at hk ⊢; exact h
    · simp only [if_neg hv] at hk ⊢
      have := setVersion_keep h hk
      split <;> exact this
  | query3g g c v q s hh r =>
    simp only [step, query3g]
    simp only [base, act] at h hk ⊢
    have ha : (cancelIf l 3 m).addr = m.addr := by
      unfold cancelIf cancel1; split
      · cases m.st <;> rfl
      · rfl
    by_cases hv : l.version ≠ 3
    · simp only [if_pos hv] at hk ⊢; exact h
    · simp only [if_neg hv] at hk ⊢
      by_cases ht : (setVersion l 3).v3timer = 0 ∨ (setVersion l 3).v3timer ≥ ticks3 c
      · simp only [if_pos ht] at hk ⊢
        refine List.mem_map.mpr ⟨cancelIf l 3 m, setVersion_keep h ?_, by rw [ha]⟩
        split at hk
        · exact groupQuery_kept.mp hk
        · exact hk
      · simp only [if_neg ht] at hk ⊢
        exact setVersion_keep h hk
  | heard1 g s =>
    simp only [step]
    simp only [base, act] at h hk ⊢
    have := onGroup_keep (l := l) (g := g) (f := fun m => (heard1 l.version s m, [])) h
    by_cases hg : m.addr = g
    · simp only [if_pos hg] at hk this ⊢; exact this hk
    · simp only [if_neg hg] at hk this ⊢; exact this hk
  | heard2 g s =>
    simp only [step]
    simp only [base, act] at h hk ⊢
    have := onGroup_keep (l := l) (g := g) (f := fun m => (heard2 l.version s m, [])) h
    by_cases hg : m.addr = g
    · simp only [if_pos hg] at hk this ⊢; exact this hk
    · simp only [if_neg hg] at hk this ⊢; exact this hk
  | tick r =>
    rw [act_tick] at hk ⊢
    simp only [step, tick]
    apply tickGroups_keep _ hk
    rw [tickLink_groups]
    exact List.mem_map.mpr ⟨m, h, rfl⟩

end Verif.Igmp.Host

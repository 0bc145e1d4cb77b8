import Verif.Igmp.HostProps3
import Verif.Igmp.HostStuck
/-!
# How often a change of state is reported
-/
namespace Verif.Igmp.Host

theorem sum_filter (gs : List Mem) (p : Mem → Bool) (f : Mem → Nat) :
    ((gs.filter p).map f).sum = (gs.map fun m => if p m then f m else 0).sum := by
  induction gs with
  | nil => rfl
  | cons a gs ih =>
    simp only [List.filter_cons, List.map_cons, List.sum_cons]
    cases h : p a
    · simpa using ih
    · simp [ih]

theorem onGroup_count (l : Link) (g : Nat) (f : Mem → Mem × List Msg) (x : Msg) :
    (onGroup l g f).2.count x = (l.groups.map fun m => if m.addr = g then (f m).2.count x else 0).sum := by
  unfold onGroup
  rw [List.count_flatMap, sum_filter]
  simp [Function.comp_def]

theorem sum_zero (gs : List Mem) : (gs.map fun _ => 0).sum = 0 := by
  induction gs with
  | nil => rfl
  | cons a gs ih => simpa using ih

theorem sum_add (gs : List Mem) (a b : Mem → Nat) :
    (gs.map a).sum + (gs.map b).sum = (gs.map fun m => a m + b m).sum := by
  induction gs with
  | nil => rfl
  | cons x gs ih => simp only [List.map_cons, List.sum_cons]; omega

/-- How often a message is sent in an event. -/
theorem step_count (l : Link) (e : Ev) (x : Msg) :
    (step l e).2.count x = ((base l e).map fun m => (act l e m).2.count x).sum := by
  have hnil : ∀ (f : Mem → Mem × List Msg) (gs : List Mem), (∀ m, (f m).2 = []) →
      (gs.map fun m => (f m).2.count x).sum = 0 := by
    intro f gs h
    rw [← sum_zero gs]
    congr 1
    apply List.map_congr_left
    intro m _; rw [h m]; rfl
  cases e with
  | join g r =>
    simp only [step, join]
    by_cases hn : l.groups.any (fun m => decide (m.addr = g ∧ m.now = true)) = true
    · simp only [if_pos hn, act]
      exact (hnil (fun m => (m, [])) _ (fun _ => rfl)).symm
    · simp only [if_neg hn, act, onGroup_count]
      have hb : (if l.groups.any (fun m => decide (m.addr = g)) = true then l else
          { l with groups := l.groups ++ [⟨g, false, false, .notMember, 0, 0, 0, none, false⟩] }).groups =
          base l (.join g r) := by
        simp only [base]; split <;> rfl
      rw [hb]
      congr 1
      apply List.map_congr_left
      intro m _
      by_cases hg : m.addr = g
      · simp only [if_pos hg]
        split <;> rfl
      · simp only [if_neg hg]; rfl
  | leave g r =>
    simp only [step, leave, act, base, onGroup_count]
    congr 1
    apply List.map_congr_left
    intro m _
    by_cases hg : m.addr = g
    · simp only [if_pos hg]
    · simp only [if_neg hg]; rfl
  | query1 r => exact (hnil (act l (.query1 r)) _ (fun _ => rfl)).symm
  | query2 g c r =>
    refine (hnil (act l (.query2 g c r)) _ (fun m => ?_)).symm
    simp only [act]; split <;> rfl
  | query3 c v q r =>
    refine (hnil (act l (.query3 c v q r)) _ (fun m => ?_)).symm
    simp only [act]; split <;> rfl
  | query3g g c v q s h r =>
    refine (hnil (act l (.query3g g c v q s h r)) _ (fun m => ?_)).symm
    simp only [act]; split
    · rfl
    · split <;> rfl
  | heard1 g s =>
    have h1 := hnil (act l (.heard1 g s)) (base l (.heard1 g s)) (fun m => by simp only [act]; split <;> rfl)
    rw [h1]
    simp only [step, onGroup_count]
    refine (congrArg List.sum (List.map_congr_left (g := fun _ => 0) fun m _ => ?_)).trans (sum_zero l.groups)
    simp
  | heard2 g s =>
    have h1 := hnil (act l (.heard2 g s)) (base l (.heard2 g s)) (fun m => by simp only [act]; split <;> rfl)
    rw [h1]
    simp only [step, onGroup_count]
    refine (congrArg List.sum (List.map_congr_left (g := fun _ => 0) fun m _ => ?_)).trans (sum_zero l.groups)
    simp
  | tick r =>
    have hg : (tickGroups (tickLink l).1 r).2 = (tickLink l).1.groups.flatMap fun m => (tickAct (tickLink l).1 r m).2 := by
      unfold tickGroups tickAct
      split
      · simp
      · rfl
    simp only [step, tick, List.count_append, hg, tickLink_msgs, List.count_flatMap, tickLink_groups, List.map_map, base]
    rw [sum_add]
    congr 1
    apply List.map_congr_left
    intro m _
    rw [act_tick]
    simp [List.count_append]

theorem reap_sub (gs : List Mem) (f : Mem → Mem) (h : ∀ m, (f m).addr = m.addr) :
    ((reap (gs.map f)).map (·.addr)).Sublist (gs.map (·.addr)) := by
  have h1 : ((reap (gs.map f)).map (·.addr)).Sublist ((gs.map f).map (·.addr)) :=
    List.filter_sublist.map _
  refine h1.trans ?_
  rw [List.map_map]
  have : (gs.map ((·.addr) ∘ f)) = gs.map (·.addr) := by
    apply List.map_congr_left; intro m _; exact h m
  rw [this]; exact List.Sublist.refl _

theorem map_sub (gs : List Mem) (f : Mem → Mem) (h : ∀ m, (f m).addr = m.addr) :
    ((gs.map f).map (·.addr)) = (gs.map (·.addr)) := by
  rw [List.map_map]; apply List.map_congr_left; intro m _; exact h m

theorem setVersion_sub (l : Link) (v : Nat) :
    ((setVersion l v).groups.map (·.addr)).Sublist (l.groups.map (·.addr)) := by
  rw [setVersion_groups]
  split
  · apply reap_sub; intro m; unfold cancel1; cases m.st <;> rfl
  · exact List.Sublist.refl _

/-- No event adds addresses, but `join` one. -/
theorem step_sub (l : Link) (e : Ev) :
    ((step l e).1.groups.map (·.addr)).Sublist ((base l e).map (·.addr)) := by
  cases e with
  | join g r =>
    have hb : (if l.groups.any (fun m => decide (m.addr = g)) = true then l else
        { l with groups := l.groups ++ [⟨g, false, false, .notMember, 0, 0, 0, none, false⟩] }).groups =
        base l (.join g r) := by
      simp only [base]; split <;> rfl
    simp only [step, join]
    by_cases hn : l.groups.any (fun m => decide (m.addr = g ∧ m.now = true)) = true
    · simp only [if_pos hn]
      simp only [base]; split
      · exact List.Sublist.refl _
      · rw [List.map_append]; exact List.sublist_append_left _ _
    · simp only [if_neg hn, onGroup]
      rw [hb]
      apply reap_sub; intro m; split
      · exact (changeState_addr _ r { m with now := true }).1
      · rfl
  | leave g r =>
    simp only [step, leave, onGroup, base]
    apply reap_sub; intro m; split
    · split
      · exact (changeState_addr _ r { m with now := false }).1
      · rfl
    · rfl
  | query1 r =>
    simp only [step, query1, base]
    rw [map_sub]
    · exact setVersion_sub l 1
    · intro m; unfold update1; split
      · rfl
      · split <;> rfl
  | query2 g c r =>
    simp only [step, query2, base]
    split
    · exact List.Sublist.refl _
    · simp only
      rw [map_sub]
      · exact setVersion_sub l 2
      · intro m; split
        · unfold update2; split
          all_goals first | rfl | (split <;> rfl)
        · rfl
  | query3 c v q r =>
    simp only [step, query3, base]
    split
    · exact List.Sublist.refl _
    · split <;> exact setVersion_sub l 3
  | query3g g c v q s h r =>
    simp only [step, query3g, base]
    split
    · exact List.Sublist.refl _
    · split
      · simp only
        rw [map_sub]
        · exact setVersion_sub l 3
        · intro m; split
          · obtain ⟨a, o, n, st, ti, sc, rv, q, ho⟩ := m
            cases st <;> cases s <;> cases h <;> rfl
          · rfl
      · exact setVersion_sub l 3
  | heard1 g s =>
    simp only [step, onGroup, base]
    apply reap_sub; intro m
    have h := (act_addr l (.heard1 g s) m).1
    simp only [act] at h
    by_cases hg : m.addr = g
    · rw [if_pos hg] at h ⊢; exact h
    · rw [if_neg hg]
  | heard2 g s =>
    simp only [step, onGroup, base]
    apply reap_sub; intro m
    have h := (act_addr l (.heard2 g s) m).1
    simp only [act] at h
    by_cases hg : m.addr = g
    · rw [if_pos hg] at h ⊢; exact h
    · rw [if_neg hg]
  | tick r =>
    have h1 : ((tickGroups (tickLink l).1 r).1.groups.map (·.addr)).Sublist ((tickLink l).1.groups.map (·.addr)) := by
      unfold tickGroups
      split
      · exact List.Sublist.refl _
      · apply reap_sub; intro m; split
        · exact (timers3_addr _ m).1
        · exact (timer12_addr _ m).1
    refine h1.trans ?_
    rw [tickLink_groups, map_sub]
    · exact List.Sublist.refl _
    · intro m; split
      · exact (general3_same m).2.2.1
      · rfl

/-- No address twice. -/
def Uniq (l : Link) : Prop := (l.groups.map (·.addr)).Nodup

theorem base_uniq {l : Link} (h : Uniq l) (e : Ev) : ((base l e).map (·.addr)).Nodup := by
  cases e with
  | join g r =>
    simp only [base]
    split
    · exact h
    · rename_i hn
      rw [List.map_append, List.nodup_append]
      refine ⟨h, by simp, ?_⟩
      intro a ha b hb
      obtain ⟨m, hm, rfl⟩ := List.mem_map.mp ha
      simp at hb
      subst hb
      intro heq
      exact hn (List.any_eq_true.mpr ⟨m, hm, by simpa using heq⟩)
  | _ => exact h

theorem step_uniq {l : Link} (h : Uniq l) (e : Ev) : Uniq (step l e).1 :=
  (base_uniq h e).sublist (step_sub l e)

theorem Reachable.uniq {l : Link} (h : Reachable l) : Uniq l := by
  obtain ⟨a, b, v, es, _, rfl⟩ := h
  have : ∀ l, Uniq l → Uniq (run l es).1 := by
    induction es with
    | nil => exact fun _ h => h
    | cons e es ih => exact fun l h => ih _ (step_uniq h e)
  exact this _ (by simp [Uniq, Link.init])

theorem sum_uniq {gs : List Mem} (h : (gs.map (·.addr)).Nodup) {m : Mem} (hm : m ∈ gs) (f : Mem → Nat)
    (hf : ∀ m' ∈ gs, m'.addr ≠ m.addr → f m' = 0) : (gs.map f).sum = f m := by
  induction gs with
  | nil => simp at hm
  | cons a gs ih =>
    simp only [List.map_cons, List.nodup_cons] at h
    simp only [List.map_cons, List.sum_cons]
    rcases List.mem_cons.mp hm with rfl | hm
    · have : (gs.map f).sum = 0 := by
        rw [← sum_zero gs]; congr 1
        apply List.map_congr_left
        intro m' hm'
        refine hf m' (by simp [hm']) ?_
        intro heq
        exact h.1 (heq ▸ List.mem_map.mpr ⟨m', hm', rfl⟩)
      omega
    · have h0 : f a = 0 := by
        refine hf a (by simp) ?_
        intro heq
        exact h.1 (heq ▸ List.mem_map.mpr ⟨m, hm, rfl⟩)
      rw [ih h.2 hm (fun m' hm' => hf m' (by simp [hm']))]
      omega

theorem uniq_eq {l : Link} (h : Uniq l) {m m' : Mem} (hm : m ∈ l.groups) (hm' : m' ∈ l.groups)
    (ha : m.addr = m'.addr) : m = m' := by
  unfold Uniq at h
  generalize l.groups = gs at *
  induction gs with
  | nil => simp at hm
  | cons a gs ih =>
    simp only [List.map_cons, List.nodup_cons] at h
    rcases List.mem_cons.mp hm with h1 | h1 <;> rcases List.mem_cons.mp hm' with h2 | h2
    · rw [h1, h2]
    · subst h1; exact absurd (ha ▸ List.mem_map.mpr ⟨m', h2, rfl⟩) h.1
    · subst h2; exact absurd (ha ▸ List.mem_map.mpr ⟨m, h1, rfl⟩) h.1
    · exact ih h.2 h1 h2

/-- The messages about `g` sent in an event are those of its group. -/
theorem step_count_one {l : Link} (h : Uniq l) (e : Ev) {m : Mem} (hm : m ∈ base l e) (k : Kind) :
    (step l e).2.count ⟨m.addr, k⟩ = (act l e m).2.count ⟨m.addr, k⟩ := by
  rw [step_count]
  refine sum_uniq (base_uniq h e) hm (fun m' => (act l e m').2.count ⟨m.addr, k⟩) ?_
  intro m' _ hne
  rw [List.count_eq_zero]
  intro hx
  exact hne ((act_addr l e m').2 _ hx).symm

theorem step_count_none {l : Link} {e : Ev} {g : Nat} (hm : ∀ m ∈ base l e, m.addr ≠ g) (k : Kind) :
    (step l e).2.count ⟨g, k⟩ = 0 := by
  rw [List.count_eq_zero]
  intro hx
  obtain ⟨m, h0, hx⟩ := step_msg.mp hx
  exact hm m h0 ((act_addr l e m).2 _ hx).symm

end Verif.Igmp.Host

import Verif.Igmp.HostProps
/-!
# What is never sent
-/
namespace Verif.Igmp.Host

/-- Induction over histories: a condition kept by the events allowed, under which nothing about `g` is sent. -/
theorem never {g : Nat} {P : Link → Prop} {Q : Ev → Prop}
    (hs : ∀ l e, Inv l → P l → Q e → P (step l e).1)
    (hm : ∀ l e, Inv l → P l → Q e → ∀ x ∈ (step l e).2, x.group ≠ g)
    (l : Link) (es : List Ev) (hi : Inv l) (hP : P l) (hq : ∀ e ∈ es, Q e) :
    P (run l es).1 ∧ ∀ x ∈ (run l es).2, x.group ≠ g := by
  induction es generalizing l with
  | nil => exact ⟨hP, by simp [run]⟩
  | cons e es ih =>
    have h1 := hs l e hi hP (hq e (by simp))
    obtain ⟨a, b⟩ := ih _ (step_inv hi e) h1 (fun e' he => hq e' (by simp [he]))
    refine ⟨a, fun x hx => ?_⟩
    simp only [run, List.mem_append] at hx
    rcases hx with hx | hx
    · exact hm l e hi hP (hq e (by simp)) x hx
    · exact b x hx

theorem cancelIf_addr (l : Link) (v : Nat) (m : Mem) : (cancelIf l v m).addr = m.addr := by
  unfold cancelIf cancel1; split
  · cases m.st <;> rfl
  · rfl

theorem changeState_addr (l : Link) (r : Nat) (m : Mem) : (changeState l r m).1.addr = m.addr ∧
    ∀ x ∈ (changeState l r m).2, x.group = m.addr := by
  unfold changeState
  split
  · split
    · unfold initialJoin Mem.commit
      split
      · simp
      · by_cases hl : l.version = 3 ∧ m.st = .leaving
        · simp [hl]
        · simp only [if_neg hl]; split <;> simp
    · unfold finalLeave Mem.commit
      split
      all_goals first | (simp; done) | skip
      all_goals
        split
        · simp
        · split
          · split <;> simp
          · simp
  · unfold handleChange Mem.commit
    split <;> simp

theorem timers3_addr (u : Nat) (m : Mem) : (timers3 u m).1.addr = m.addr ∧ ∀ x ∈ (timers3 u m).2, x.group = m.addr := by
  have ha : ∀ m, (answer3 m).1.addr = m.addr ∧ ∀ x ∈ (answer3 m).2, x.group = m.addr := by
    intro m; unfold answer3; split
    · simp
    · split <;> simp
  have hr : ∀ m, (resend3 u m).1.addr = m.addr ∧ ∀ x ∈ (resend3 u m).2, x.group = m.addr := by
    intro m; unfold resend3 Mem.commit; simp only
    have : ∀ x : Msg, x ∈ (match m.scq with | none => [] | some k => [(⟨m.addr, k⟩ : Msg)]) → x.group = m.addr := by
      intro x hx; split at hx <;> simp_all
    split
    · split
      · exact ⟨rfl, this⟩
      · exact ⟨rfl, this⟩
    · simp
  unfold timers3
  simp only
  generalize hm' : ({ m with timer := m.timer - 1, sctimer := m.sctimer - 1 } : Mem) = m'
  have h0 : m'.addr = m.addr := by rw [← hm']
  generalize hx : (if (m.timer == 1) = true then answer3 m' else (m', [])) = x
  have h1 : x.1.addr = m.addr ∧ ∀ y ∈ x.2, y.group = m.addr := by
    rw [← hx, ← h0]; split
    · exact ha m'
    · simp
  generalize hy : (if (m.sctimer == 1) = true then resend3 u x.1 else (x.1, [])) = y
  have h2 : y.1.addr = m.addr ∧ ∀ z ∈ y.2, z.group = m.addr := by
    rw [← hy, ← h1.1]; split
    · exact hr x.1
    · simp
  refine ⟨h2.1, fun z hz => ?_⟩
  rcases List.mem_append.mp hz with hz | hz
  · exact h1.2 z hz
  · exact h2.2 z hz

theorem timer12_addr (v : Nat) (m : Mem) : (timer12 v m).1.addr = m.addr ∧ ∀ x ∈ (timer12 v m).2, x.group = m.addr := by
  unfold timer12
  split
  · simp
  · simp only
    split
    · simp
    · split <;> simp

theorem general3_msg (m : Mem) : ∀ x ∈ (general3 m).2, x.group = m.addr := by
  unfold general3
  split
  all_goals first | (simp; done) | skip
  all_goals
    intro x hx
    simp only at hx
    split at hx <;> simp_all

/-- An event keeps the addresses, and what it sends for a group is about it. -/
theorem act_addr (l : Link) (e : Ev) (m : Mem) : (act l e m).1.addr = m.addr ∧
    ∀ x ∈ (act l e m).2, x.group = m.addr := by
  cases e with
  | join g r =>
    simp only [act]
    split
    · simp
    · split
      · exact changeState_addr l r { m with now := true }
      · simp
  | leave g r =>
    simp only [act]
    split
    · split
      · exact changeState_addr l r { m with now := false }
      · simp
    · simp
  | query1 r =>
    refine ⟨?_, by simp [act]⟩
    simp only [act]
    rw [← cancelIf_addr l 1 m]
    unfold update1; split
    · rfl
    · split <;> rfl
  | query2 g c r =>
    simp only [act]
    split
    · simp
    · refine ⟨?_, by simp⟩
      simp only
      split
      · rw [← cancelIf_addr l 2 m]
        unfold update2; split
        all_goals first | rfl | (split <;> rfl)
      · exact cancelIf_addr l 2 m
  | query3 c v q r =>
    simp only [act]
    split
    · simp
    · exact ⟨cancelIf_addr l 3 m, by simp⟩
  | query3g g c v q s h r =>
    simp only [act]
    split
    · simp
    · split
      · refine ⟨?_, by simp⟩
        simp only
        split
        · rw [← cancelIf_addr l 3 m]
          obtain ⟨a, o, n, st, ti, sc, rv, q, ho⟩ := cancelIf l 3 m
          cases st <;> cases s <;> cases h <;> rfl
        · exact cancelIf_addr l 3 m
      · exact ⟨cancelIf_addr l 3 m, by simp⟩
  | heard1 g s =>
    simp only [act]
    split
    · refine ⟨?_, by simp⟩
      unfold heard1 suppress3
      split
      · split
        · split <;> rfl
        · rfl
      · simp only
        split
        all_goals first | rfl | skip
        split
        · rfl
        · split <;> rfl
    · simp
  | heard2 g s =>
    simp only [act]
    split
    · refine ⟨?_, by simp⟩
      unfold heard2 suppress3
      split
      · split
        · split <;> rfl
        · rfl
      · simp only
        split <;> rfl
    · simp
  | tick r =>
    simp only [act]
    generalize hx : (if l.ifcRun = true ∧ l.v3timer = 1 then general3 m else (m, [])) = x
    have h1 : x.1.addr = m.addr ∧ ∀ y ∈ x.2, y.group = m.addr := by
      rw [← hx]; split
      · exact ⟨(general3_same m).2.2.1, general3_msg m⟩
      · simp
    generalize hy : (if l.curRun = false ∧ l.scRun = false then (x.1, [])
      else if l.version = 3 then timers3 (delay 15 r) x.1 else timer12 l.version x.1) = y
    have h2 : y.1.addr = m.addr ∧ ∀ z ∈ y.2, z.group = m.addr := by
      rw [← hy, ← h1.1]; split
      · simp
      · split
        · exact timers3_addr _ _
        · exact timer12_addr _ _
    refine ⟨h2.1, fun z hz => ?_⟩
    rcases List.mem_append.mp hz with hz | hz
    · exact h1.2 z hz
    · exact h2.2 z hz

/-! ## Groups that are not to be reported -/

/-- A group on an interface not for multicast, or not to be reported, is silent. -/
def Mute (l : Link) (m : Mem) : Prop := (l.loopif = true ∨ isReported l.sendlocal m.addr = false) → m.st = .silent

theorem mute_act {l : Link} {e : Ev} {m : Mem} (hb : m ∈ base l e) (h : ∀ m ∈ l.groups, Mute l m)
    (hloc : l.loopif = true ∨ isReported l.sendlocal m.addr = false) :
    (act l e m).1.st = .silent ∧ (act l e m).2 = [] := by
  -- `join` finds a silent group, or makes a new one
  have hcase : m.st = .silent ∨ (∃ g r, e = .join g r ∧ m = ⟨g, false, false, .notMember, 0, 0, 0, none, false⟩ ∧
      l.groups.any (fun m => decide (m.addr = g)) = false) := by
    cases e with
    | join g r =>
      simp only [base] at hb
      split at hb
      · exact Or.inl (h m hb hloc)
      · rcases List.mem_append.mp hb with hb | hb
        · exact Or.inl (h m hb hloc)
        · right; exact ⟨g, r, rfl, by simpa using hb, by simp_all⟩
    | _ => exact Or.inl (h m hb hloc)
  rcases hcase with hst | ⟨g, r, rfl, rfl, hno⟩
  · have hcan : ∀ v, (cancelIf l v m).st = .silent ∧ (cancelIf l v m).addr = m.addr := by
      intro v; refine ⟨?_, cancelIf_addr l v m⟩
      unfold cancelIf cancel1; simp only [hst]; split
      · rfl
      · exact hst
    have hcs : ∀ r b, ((changeState l r { m with now := b }).1.st = .silent) ∧ (changeState l r { m with now := b }).2 = [] := by
      intro r b
      unfold changeState
      split
      · split
        · unfold initialJoin
          rw [if_pos (show l.loopif = true ∨ isReported l.sendlocal m.addr = false from hloc)]
          exact ⟨rfl, rfl⟩
        · unfold finalLeave; simp only [hst]; exact ⟨rfl, trivial⟩
      · refine ⟨?_, rfl⟩
        unfold handleChange Mem.commit; split <;> exact hst
    cases e with
    | join g r =>
      simp only [act]; split
      · exact ⟨hst, rfl⟩
      · split
        · exact hcs r true
        · exact ⟨hst, rfl⟩
    | leave g r =>
      simp only [act]; split
      · split
        · exact hcs r false
        · exact ⟨hst, rfl⟩
      · exact ⟨hst, rfl⟩
    | query1 r =>
      refine ⟨?_, rfl⟩
      simp only [act, update1, (hcan 1).1]; split <;> exact (hcan 1).1
    | query2 g c r =>
      simp only [act]; split
      · exact ⟨hst, rfl⟩
      · refine ⟨?_, rfl⟩
        simp only [update2, (hcan 2).1]; split <;> exact (hcan 2).1
    | query3 c v q r =>
      simp only [act]; split
      · exact ⟨hst, rfl⟩
      · exact ⟨(hcan 3).1, rfl⟩
    | query3g g c v q s hh r =>
      simp only [act]; split
      · exact ⟨hst, rfl⟩
      · split
        · refine ⟨?_, rfl⟩
          simp only [groupQuery, (hcan 3).1]; split <;> exact (hcan 3).1
        · exact ⟨(hcan 3).1, rfl⟩
    | heard1 g s =>
      simp only [act]; split
      · refine ⟨?_, rfl⟩
        unfold heard1 suppress3
        split
        · split
          · split
            · exact hst
            · simp_all
          · exact hst
        · simp only [hst]
      · exact ⟨hst, rfl⟩
    | heard2 g s =>
      simp only [act]; split
      · refine ⟨?_, rfl⟩
        unfold heard2 suppress3
        split
        · split
          · split
            · exact hst
            · simp_all
          · exact hst
        · simp only [hst]
      · exact ⟨hst, rfl⟩
    | tick r =>
      have hg : general3 m = (m, []) := by simp only [general3, hst]
      have hx : (if l.ifcRun = true ∧ l.v3timer = 1 then general3 m else (m, [])) = (m, []) := by
        rw [hg]; simp
      simp only [act, hx, List.nil_append]
      split
      · exact ⟨hst, rfl⟩
      · split
        · unfold timers3 answer3 resend3
          simp only [hst]
          simp
        · unfold timer12
          split
          · exact ⟨hst, rfl⟩
          · simp only [hst]
            simp
  · simp only [act]
    split
    · rename_i hc
      obtain ⟨x, hx, hd⟩ := List.any_eq_true.mp hc
      have := List.any_eq_false.mp hno x hx
      simp at hd this
      exact absurd hd.1 this
    · simp only [if_true, changeState, initialJoin]
      rw [if_pos (show true ≠ false by decide), if_pos hloc]
      exact ⟨rfl, rfl⟩

/-- **C204**: whatever happens, nothing is ever sent about 224.0.0.1, about 224.0.0.0/24 unless so configured, nor on an
interface that is not for multicast. -/
theorem never_reported (loopif sendlocal : Bool) (v : Nat) (hv : v = 1 ∨ v = 2 ∨ v = 3) (es : List Ev) :
    ∀ x ∈ (run (Link.init loopif sendlocal v) es).2,
      loopif = false ∧ x.group ≠ 0xe0000001 ∧ (sendlocal = false → x.group / 256 ≠ 0xe00000) := by
  have key : ∀ (l : Link) (es : List Ev), (∀ m ∈ l.groups, Mute l m) → l.loopif = loopif → l.sendlocal = sendlocal →
      ∀ x ∈ (run l es).2, loopif = false ∧ isReported sendlocal x.group = true := by
    intro l es
    induction es generalizing l with
    | nil => intro _ _ _ x hx; simp [run] at hx
    | cons e es ih =>
      intro h h1 h2 x hx
      simp only [run, List.mem_append] at hx
      rcases hx with hx | hx
      · obtain ⟨m, hm, hx⟩ := step_msg.mp hx
        have hg := (act_addr l e m).2 x hx
        by_cases hl : l.loopif = true ∨ isReported l.sendlocal m.addr = false
        · rw [(mute_act hm h hl).2] at hx; simp at hx
        · rw [h1, h2] at hl
          rw [hg]; simpa using hl
      · obtain ⟨c1, c2⟩ := step_const l e
        refine ih (step l e).1 ?_ (c1.trans h1) (c2.trans h2) x hx
        intro m hm
        obtain ⟨m0, h0, rfl⟩ := step_mem hm
        intro hl
        rw [c1, c2, (act_addr l e m0).1] at hl
        exact (mute_act h0 h hl).1
  intro x hx
  obtain ⟨a, b⟩ := key (Link.init loopif sendlocal v) es (by simp [Link.init]) rfl rfl x hx
  refine ⟨a, ?_, ?_⟩
  · intro h; rw [h] at b; simp [isReported] at b
  · intro hs h
    simp [isReported, hs, h] at b

/-- A reported group, and one that is not, joined together. -/
example : (run (Link.init false false 2) [.join 0xe0000005 0, .join 0xef010203 0, .query2 none 4 (fun _ => 0), .tick 0]).2
    = [⟨0xef010203, .report2⟩, ⟨0xef010203, .report2⟩] := by decide +kernel

/-! ## Compatibility modes -/

/-- **C206, violated**: once a query of version 1 or 2 has been seen, the host never speaks version 3 again, whatever comes
and however long it waits; once it speaks version 1, it does so for ever (`ofp_igmp_slowtimo` is never called). -/
theorem compatibility_forever_violated {l : Link} (hr : Reachable l) (es : List Ev) :
    (l.version ≠ 3 → (run l es).1.version ≠ 3) ∧ (l.version = 1 → (run l es).1.version = 1) := by
  have hi := hr.inv
  clear hr
  induction es generalizing l with
  | nil => exact ⟨id, id⟩
  | cons e es ih =>
    have h := step_version hi.ver e
    obtain ⟨a, b⟩ := ih (l := (step l e).1) (step_inv hi e)
    refine ⟨fun h3 => a ?_, fun h1 => b ?_⟩
    · rw [h]
      cases e <;> simp only <;> first | exact h3 | (split <;> first | exact h3 | decide)
    · rw [h]
      cases e <;> simp only <;> first | exact h1 | (split <;> first | exact h1 | rfl | (rename_i hh; exact absurd h1 hh.1))

/-- **C206**: and no record of version 3 is sent from then on. -/
theorem compatibility_no_records {l : Link} (hr : Reachable l) (h3 : l.version ≠ 3) (es : List Ev) :
    ∀ x ∈ (run l es).2, x.kind = .report1 ∨ x.kind = .report2 ∨ x.kind = .leave2 := by
  have hi := hr.inv
  clear hr
  induction es generalizing l with
  | nil => simp [run]
  | cons e es ih =>
    have hv := step_version hi.ver e
    have h3' : (step l e).1.version ≠ 3 := by
      rw [hv]
      cases e <;> simp only <;> first | exact h3 | (split <;> first | exact h3 | decide)
    intro x hx
    simp only [run, List.mem_append] at hx
    rcases hx with hx | hx
    · obtain ⟨m, hm, hx⟩ := step_msg.mp hx
      have hcs : ∀ r b, x ∈ (changeState l r { m with now := b }).2 →
          x.kind = .report1 ∨ x.kind = .report2 ∨ x.kind = .leave2 := by
        intro r b hx
        unfold changeState at hx
        split at hx
        · split at hx
          · unfold initialJoin at hx
            split at hx
            · simp at hx
            · simp only [if_neg h3] at hx
              simp at hx
              rw [hx]; simp only
              split
              · right; left; rfl
              · left; rfl
          · unfold finalLeave at hx
            split at hx
            all_goals first | (simp at hx; done) | skip
            all_goals
              split at hx
              · simp at hx; rw [hx]; right; right; rfl
              · simp [h3] at hx
        · simp at hx
      cases e with
      | join g r =>
        simp only [act] at hx
        split at hx
        · simp at hx
        · split at hx
          · exact hcs r true hx
          · simp at hx
      | leave g r =>
        simp only [act] at hx
        split at hx
        · split at hx
          · exact hcs r false hx
          · simp at hx
        · simp at hx
      | query1 r => simp [act] at hx
      | query2 g c r =>
        simp only [act] at hx
        split at hx <;> simp at hx
      | query3 c v q r =>
        simp only [act] at hx
        split at hx <;> simp at hx
      | query3g g c v q s hh r =>
        simp only [act] at hx
        rw [if_pos h3] at hx; simp at hx
      | heard1 g s => simp only [act] at hx; split at hx <;> simp at hx
      | heard2 g s => simp only [act] at hx; split at hx <;> simp at hx
      | tick r =>
        have h0 := hi.old h3
        simp only [act, h0] at hx
        simp only [Nat.zero_ne_one, and_false, if_false, List.nil_append, if_neg h3] at hx
        split at hx
        · simp at hx
        · unfold timer12 at hx
          split at hx
          · simp at hx
          · simp only at hx
            split at hx
            · simp at hx
            · split at hx
              · simp at hx
                rw [hx]; simp only
                split
                · right; left; rfl
                · left; rfl
              · simp at hx
    · exact ih h3' (step_inv hi e) x hx

/-- One old query is enough. -/
example : Reachable (run (Link.init false true 3) [.join 0xef010203 0, .query2 none 100 (fun _ => 0)]).1 ∧
    (run (Link.init false true 3) [.join 0xef010203 0, .query2 none 100 (fun _ => 0)]).1.version = 2 :=
  ⟨⟨false, true, 3, _, .inr (.inr rfl), rfl⟩, by decide +kernel⟩

end Verif.Igmp.Host

import Verif.Igmp.HostInv
/-!
# Answers to queries

Time is counted in ticks of 200 ms.  `ticks` counts those in a history, whatever else happens in it.
-/
namespace Verif.Igmp.Host

/-- How many ticks pass in a history. -/
def ticks : List Ev → Nat
  | [] => 0
  | .tick _ :: es => ticks es + 1
  | _ :: es => ticks es

/-- Links the code can get to. -/
def Reachable (l : Link) : Prop :=
  ∃ a b v es, (v = 1 ∨ v = 2 ∨ v = 3) ∧ l = (run (Link.init a b v) es).1

theorem Reachable.inv {l : Link} (h : Reachable l) : Inv l := by
  obtain ⟨a, b, v, es, hv, rfl⟩ := h
  exact run_inv (init_inv hv) es

theorem Reachable.step {l : Link} (h : Reachable l) (e : Ev) : Reachable (step l e).1 := by
  obtain ⟨a, b, v, es, hv, rfl⟩ := h
  refine ⟨a, b, v, es ++ [e], hv, ?_⟩
  rw [run_append]; simp [run]

/-- The host is a member of the group `g` and takes part in the protocol for it. -/
def member (l : Link) (g : Nat) (st : St) : Prop := ∃ m ∈ l.groups, m.addr = g ∧ m.now = true ∧ m.st = st

/-- Nothing that ends the host's duty to report the group in version `v`: it does not leave, no other host reports the
group, no query of an older version comes. -/
def Undisturbed12 (v g : Nat) : Ev → Prop
  | .leave g' _ => g' ≠ g
  | .heard1 g' _ => g' ≠ g
  | .heard2 g' _ => g' ≠ g
  | .query1 _ => v = 1
  | _ => True

theorem mem_base {l : Link} {m : Mem} (h : m ∈ l.groups) (e : Ev) : m ∈ base l e := by
  cases e with
  | join g r => simp only [base]; split <;> simp [h]
  | _ => exact h

theorem joined_any {l : Link} {m : Mem} (h : m ∈ l.groups) (hn : m.now = true) :
    l.groups.any (fun m' => decide (m'.addr = m.addr ∧ m'.now = true)) = true :=
  List.any_eq_true.mpr ⟨m, h, by simp [hn]⟩

/-- `join` leaves a group that is joined. -/
theorem act_join {l : Link} {m : Mem} (h : m ∈ l.groups) (hn : m.now = true) (g r : Nat) :
    act l (.join g r) m = (m, []) := by
  simp only [act]
  split
  · rfl
  · split
    · rename_i h1 h2
      subst h2
      exact absurd (joined_any h hn) h1
    · rfl

theorem cancelIf_same {l : Link} {v : Nat} (h : (setVersion l v).version = l.version) (m : Mem) : cancelIf l v m = m := by
  simp [cancelIf, cancels, h]

/-- The ticks left after an event. -/
def left (k : Nat) : Ev → Nat
  | .tick _ => k
  | _ => k + 1

/-- If a condition with a number of ticks lasts until the message is sent, the message is sent. -/
theorem answered {x : Msg} {P : Nat → Link → Prop} {Q : Ev → Prop}
    (h0 : ∀ l, ¬ P 0 l)
    (hs : ∀ k l e, Inv l → P (k + 1) l → Q e →
      x ∈ (step l e).2 ∨ P (left k e) (step l e).1)
    (k : Nat) (l : Link) (es : List Ev) (hi : Inv l) (hP : P k l) (hq : ∀ e ∈ es, Q e) (ht : k ≤ ticks es) :
    x ∈ (run l es).2 := by
  induction es generalizing k l with
  | nil =>
    have : k = 0 := by simpa [ticks] using ht
    subst this; exact absurd hP (h0 l)
  | cons e es ih =>
    cases k with
    | zero => exact absurd hP (h0 l)
    | succ k =>
      simp only [run, List.mem_append]
      rcases hs k l e hi hP (hq e (by simp)) with h | h
      · exact Or.inl h
      · refine Or.inr (ih _ _ (step_inv hi e) h (fun e' he => hq e' (by simp [he])) ?_)
        cases e <;> simp only [ticks, left] at ht ⊢ <;> omega

/-- Waiting to report the group, for `k` ticks at most. -/
def Waits12 (v g k : Nat) (l : Link) : Prop :=
  l.version = v ∧ ∃ m ∈ l.groups, m.addr = g ∧ m.now = true ∧ m.st = .reporting ∧ 1 ≤ m.timer ∧ m.timer ≤ k

/-- The kind of a report in version `v`. -/
def kind12 (v : Nat) : Kind := if v = 2 then .report2 else .report1

theorem waits12_step {v g k : Nat} (hv : v = 1 ∨ v = 2) {l : Link} {e : Ev} (hi : Inv l) (h : Waits12 v g (k + 1) l)
    (hq : Undisturbed12 v g e) :
    (⟨g, kind12 v⟩ : Msg) ∈ (step l e).2 ∨ Waits12 v g (left k e) (step l e).1 := by
  obtain ⟨hver, m, hm, ha, hn, hst, ht1, ht2⟩ := h
  have hb := mem_base hm e
  have hversion := step_version hi.ver e
  -- the group after the event, and what is sent about it
  have key : ∀ m', (act l e m).1 = m' → m'.addr = g → m'.now = true → m'.st = .reporting → 1 ≤ m'.timer →
      m'.timer ≤ (left k e) → (step l e).1.version = v →
      Waits12 v g (left k e) (step l e).1 := by
    intro m' h1 h2 h3 h4 h5 h6 h7
    refine ⟨h7, m', ?_, h2, h3, h4, h5, h6⟩
    rw [← h1]
    exact step_keep hb (by rw [h1]; exact Or.inl h3)
  have h3 : l.version ≠ 3 := by rw [hver]; omega
  cases e with
  | join g' r => exact Or.inr (key m (by rw [act_join hm hn]) ha hn hst ht1 ht2 (hversion.trans hver))
  | leave g' r =>
    refine Or.inr (key m ?_ ha hn hst ht1 ht2 (hversion.trans hver))
    simp only [act]; rw [if_neg (by rw [ha]; exact fun h => hq h.symm)]
  | query1 r =>
    have h1 : v = 1 := hq
    subst h1
    have hs : (setVersion l 1).version = l.version := by rw [(setVersion1 l).1, hver]; simp
    refine Or.inr (key m ?_ ha hn hst ht1 ht2 (hs.trans hver))
    simp only [act, cancelIf_same hs, update1]
    rw [if_pos (by omega)]
  | query2 g' c r =>
    rcases hv with rfl | rfl
    · refine Or.inr (key m ?_ ha hn hst ht1 ht2 ?_)
      · simp only [act, if_pos hver]
      · simp only [step, query2, if_pos hver]; exact hver
    · have hs : (setVersion l 2).version = l.version := by rw [(setVersion2 l).1, hver]; simp
      have hvv : (step l (.query2 g' c r)).1.version = 2 := by
        simp only [step]; rw [(query2_set (by omega)).1, hs, hver]
      have h1 : l.version ≠ 1 := by omega
      by_cases hg : g' = none ∨ g' = some m.addr
      · by_cases htt : m.timer ≠ 0 ∧ m.timer ≤ ticks2 c
        · refine Or.inr (key m ?_ ha hn hst ht1 ht2 hvv)
          simp only [act, if_neg h1, if_pos hg, cancelIf_same hs, update2, hst, if_pos htt]
        · refine Or.inr (key { m with st := .reporting, timer := delay (ticks2 c) (r m.addr) } ?_ ha hn rfl ?_ ?_ hvv)
          · simp only [act, if_neg h1, if_pos hg, cancelIf_same hs, update2, hst, if_neg htt]
          · simp [delay]
          · have : delay (ticks2 c) (r m.addr) ≤ ticks2 c := by
              have h0 : 0 < ticks2 c := by unfold ticks2; split <;> omega
              unfold delay; have := Nat.mod_lt (r m.addr) h0; omega
            show delay (ticks2 c) (r m.addr) ≤ k + 1
            omega
      · refine Or.inr (key m ?_ ha hn hst ht1 ht2 hvv)
        simp only [act, if_neg h1, if_neg hg, cancelIf_same hs]
  | query3 c v' q r =>
    refine Or.inr (key m ?_ ha hn hst ht1 ht2 (hversion.trans hver))
    simp only [act]; rw [if_pos h3]
  | query3g g' c v' q s h r =>
    refine Or.inr (key m ?_ ha hn hst ht1 ht2 (hversion.trans hver))
    simp only [act]; rw [if_pos h3]
  | heard1 g' s =>
    refine Or.inr (key m ?_ ha hn hst ht1 ht2 (hversion.trans hver))
    simp only [act]; rw [if_neg (by rw [ha]; exact fun h => hq h.symm)]
  | heard2 g' s =>
    refine Or.inr (key m ?_ ha hn hst ht1 ht2 (hversion.trans hver))
    simp only [act]; rw [if_neg (by rw [ha]; exact fun h => hq h.symm)]
  | tick r =>
    have hc : l.curRun = true := hi.run m hm (by omega)
    have hg3 : general3 m = (m, if m.now then [⟨m.addr, .current⟩] else []) := by
      simp only [general3, hst]; rw [← hst]
    have hx : (if l.ifcRun = true ∧ l.v3timer = 1 then general3 m else (m, [])).1 = m := by
      split
      · rw [hg3]
      · rfl
    have hact : (act l (.tick r) m).1 = (timer12 v m).1 ∧ ∀ x ∈ (timer12 v m).2, x ∈ (act l (.tick r) m).2 := by
      simp only [act, hx, hc, hver]
      rw [if_neg (by simp), if_neg (by omega)]
      exact ⟨rfl, fun x hx => List.mem_append_right _ hx⟩
    by_cases h1 : m.timer = 1
    · left
      refine step_msg.mpr ⟨m, hb, hact.2 _ ?_⟩
      simp [timer12, h1, hst, ha, kind12]
    · right
      refine key { m with timer := m.timer - 1 } ?_ ha hn hst ?_ ?_ (hversion.trans hver)
      · rw [hact.1]; simp only [timer12]
        rw [if_neg (by omega), if_pos (show m.timer - 1 ≠ 0 by omega)]
      · show 1 ≤ m.timer - 1; omega
      · show m.timer - 1 ≤ k; omega

theorem waits12_answered {v g : Nat} (hv : v = 1 ∨ v = 2) (k : Nat) (l : Link) (es : List Ev) (hi : Inv l)
    (hP : Waits12 v g k l) (hq : ∀ e ∈ es, Undisturbed12 v g e) (ht : k ≤ ticks es) :
    (⟨g, kind12 v⟩ : Msg) ∈ (run l es).2 := by
  refine answered (P := Waits12 v g) (Q := Undisturbed12 v g) ?_ ?_ k l es hi hP hq ht
  · rintro l ⟨_, m, _, _, _, _, h1, h2⟩; omega
  · intro k l e hi h hq; exact waits12_step hv hi h hq

/-- The states of a member that has not been told to sleep by a version 1 report, and takes part in the protocol. -/
def Awake (st : St) : Prop := st ≠ .notMember ∧ st ≠ .silent ∧ st ≠ .leaving ∧ st ≠ .sleeping

/-- **C201**: a link on which version 2 is spoken gets a query of version 2 with the maximum response time `c` (tenths of a
second) for all groups or for `g`.  The host is a member of `g` and awake.  Whatever else happens, unless it leaves, hears
another report or a version 1 query, the report is sent within `c` tenths of a second (at least one tick). -/
theorem query2_answered {l : Link} (hr : Reachable l) (hv : l.version = 2) {g c : Nat} {st : St} (hm : member l g st)
    (hst : Awake st) (r : Nat → Nat) (to : Option Nat) (hto : to = none ∨ to = some g) (es : List Ev)
    (hq : ∀ e ∈ es, Undisturbed12 2 g e) (ht : max 1 (c / 2) ≤ ticks es) :
    (⟨g, .report2⟩ : Msg) ∈ (run l (.query2 to c r :: es)).2 := by
  obtain ⟨m, hm, ha, hn, rfl⟩ := hm
  have hs : (setVersion l 2).version = l.version := by rw [(setVersion2 l).1, hv]; simp
  have hticks : ticks2 c = max 1 (c / 2) := by unfold ticks2; split <;> omega
  have h0 : 0 < ticks2 c := by omega
  have hd : ∀ n, delay (ticks2 c) n ≤ ticks2 c ∧ 1 ≤ delay (ticks2 c) n := by
    intro n; unfold delay; have := Nat.mod_lt n h0; omega
  have hact : (act l (.query2 to c r) m).1 = update2 (ticks2 c) r m := by
    simp only [act, cancelIf_same hs]
    rw [if_neg (by omega)]
    rw [if_pos (by rw [ha]; exact hto)]
  have hu : (update2 (ticks2 c) r m).addr = g ∧ (update2 (ticks2 c) r m).now = true ∧
      (update2 (ticks2 c) r m).st = .reporting ∧ 1 ≤ (update2 (ticks2 c) r m).timer ∧
      (update2 (ticks2 c) r m).timer ≤ ticks2 c := by
    obtain ⟨a1, a2, a3, a4⟩ := hst
    unfold update2
    split
    · exact absurd ‹_› a1
    · exact absurd ‹_› a2
    · exact absurd ‹_› a3
    · exact absurd ‹_› a4
    · split
      · rename_i h1 h2; exact ⟨ha, hn, h1, by omega, h2.2⟩
      · exact ⟨ha, hn, rfl, (hd _).2, (hd _).1⟩
    · exact ⟨ha, hn, rfl, (hd _).2, (hd _).1⟩
  have hw : Waits12 2 g (ticks2 c) (step l (.query2 to c r)).1 := by
    refine ⟨?_, update2 (ticks2 c) r m, ?_, hu⟩
    · simp only [step]; rw [(query2_set (by omega)).1, hs, hv]
    · rw [← hact]
      exact step_keep (mem_base hm _) (by rw [hact]; exact Or.inl hu.2.1)
  simp only [run, List.mem_append]
  exact Or.inr (waits12_answered (.inr rfl) _ _ es (step_inv hr.inv _) hw hq (by omega))

/-- **C201**: the same for version 1, where the time is 10 s; but the timer of the member must not run. -/
theorem query1_answered_partial {l : Link} (hr : Reachable l) (hv : l.version = 1) {g : Nat} {st : St}
    (hm : ∃ m ∈ l.groups, m.addr = g ∧ m.now = true ∧ m.st = st ∧ (m.timer = 0 ∨ m.st = .reporting ∧ m.timer ≤ 50))
    (hst : st ≠ .notMember ∧ st ≠ .silent ∧ st ≠ .leaving) (r : Nat → Nat) (es : List Ev)
    (hq : ∀ e ∈ es, Undisturbed12 1 g e) (ht : 50 ≤ ticks es) :
    (⟨g, .report1⟩ : Msg) ∈ (run l (.query1 r :: es)).2 := by
  obtain ⟨m, hm, ha, hn, rfl, h50⟩ := hm
  have hs : (setVersion l 1).version = l.version := by rw [(setVersion1 l).1, hv]; simp
  have hd : ∀ n, delay 50 n ≤ 50 ∧ 1 ≤ delay 50 n := by
    intro n; unfold delay; have := Nat.mod_lt n (show 0 < 50 by decide); omega
  have hact : (act l (.query1 r) m).1 = update1 r m := by simp only [act, cancelIf_same hs]
  have hu : (update1 r m).addr = g ∧ (update1 r m).now = true ∧
      (update1 r m).st = .reporting ∧ 1 ≤ (update1 r m).timer ∧ (update1 r m).timer ≤ 50 := by
    obtain ⟨a1, a2, a3⟩ := hst
    unfold update1
    split
    · rename_i h; exact ⟨ha, hn, by rcases h50 with h' | h'; exact absurd h' h; exact h'.1, by omega, by omega⟩
    · split
      · exact absurd ‹_› a1
      · exact absurd ‹_› a2
      · exact absurd ‹_› a3
      · exact ⟨ha, hn, rfl, (hd _).2, (hd _).1⟩
  have hw : Waits12 1 g 50 (step l (.query1 r)).1 := by
    refine ⟨?_, update1 r m, ?_, hu⟩
    · simp only [step]; exact hs.trans hv
    · rw [← hact]
      exact step_keep (mem_base hm _) (by rw [hact]; exact Or.inl hu.2.1)
  simp only [run, List.mem_append]
  exact Or.inr (waits12_answered (.inl rfl) _ _ es (step_inv hr.inv _) hw hq ht)

end Verif.Igmp.Host

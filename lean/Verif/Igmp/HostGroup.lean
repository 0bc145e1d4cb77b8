import Verif.Igmp.HostProps3
/-!
# A pending group query is answered, whatever other queries of version 3 come
-/
namespace Verif.Igmp.Host

/-- The host does not leave the group, and no query of an older version comes. -/
def Stays3 (g : Nat) : Ev → Prop
  | .leave g' _ => g' ≠ g
  | .query1 _ => False
  | .query2 _ _ _ => False
  | _ => True

/-- Waiting to answer a query for the group alone, for `k` ticks at most. -/
def WaitsG (g k : Nat) (l : Link) : Prop :=
  l.version = 3 ∧ ∃ m ∈ l.groups, m.addr = g ∧ m.now = true ∧ m.st = .gPending ∧ 1 ≤ m.timer ∧ m.timer ≤ k

theorem waitsG_step {g k : Nat} {l : Link} {e : Ev} (hi : Inv l) (h : WaitsG g (k + 1) l) (hq : Stays3 g e) :
    (⟨g, .current⟩ : Msg) ∈ (step l e).2 ∨ WaitsG g (left k e) (step l e).1 := by
  obtain ⟨hver, m, hm, ha, hn, hw⟩ := h
  have hb := mem_base hm e
  have hversion := step_version hi.ver e
  have h3 : ¬ (l.version ≠ 3) := by simp [hver]
  have hset := setVersion3 hi.ver hver
  have key : ∀ m', (act l e m).1 = m' → m'.addr = g → m'.now = true → (step l e).1.version = 3 →
      (m'.st = .gPending ∧ 1 ≤ m'.timer ∧ m'.timer ≤ left k e) → WaitsG g (left k e) (step l e).1 := by
    intro m' h1 h2 h3 h4 h5
    refine ⟨h4, m', ?_, h2, h3, h5⟩
    rw [← h1]
    exact step_keep hb (by rw [h1]; exact Or.inl h3)
  have hcan : ∀ m, cancelIf l 3 m = m := cancelIf_same (by rw [hset])
  obtain ⟨a, b, d⟩ := hw
  cases e with
  | join g' r => exact Or.inr (key m (by rw [act_join hm hn]) ha hn (hversion.trans hver) ⟨a, b, d⟩)
  | leave g' r =>
    refine Or.inr (key m ?_ ha hn (hversion.trans hver) ⟨a, b, d⟩)
    simp only [act]; rw [if_neg (by rw [ha]; exact fun h => hq h.symm)]
  | query1 r => exact absurd hq (by simp [Stays3])
  | query2 g' c r => exact absurd hq (by simp [Stays3])
  | query3 c v' q r =>
    refine Or.inr (key m ?_ ha hn (hversion.trans hver) ⟨a, b, d⟩)
    simp only [act, if_neg h3, hcan]
  | query3g g' c v' q s h r =>
    right
    by_cases hc : l.v3timer = 0 ∨ l.v3timer ≥ ticks3 c
    · by_cases hg : m.addr = g'
      · have hb3 := (ticks3_bounds c).1
        have hact : (act l (.query3g g' c v' q s h r) m).1 = groupQuery (ticks3 c) s h r m := by
          simp only [act, if_neg h3, hset, if_pos hc, if_pos hg, hcan]
        have hd := delay_bounds (show 1 ≤ min m.timer (ticks3 c) by omega) r
        refine key { m with st := .gPending, timer := delay (min m.timer (ticks3 c)) r } ?_ ha hn (hversion.trans hver)
          ⟨rfl, hd.1, ?_⟩
        · rw [hact]
          cases s
          · simp [groupQuery, a]
          · simp only [groupQuery, a, Bool.true_eq_false, if_false, if_true]
        · show delay (min m.timer (ticks3 c)) r ≤ k + 1; omega
      · refine key m ?_ ha hn (hversion.trans hver) ⟨a, b, d⟩
        simp only [act, if_neg h3, hset, if_pos hc, if_neg hg, hcan]
    · refine key m ?_ ha hn (hversion.trans hver) ⟨a, b, d⟩
      simp only [act, if_neg h3, hset, if_neg hc, hcan]
  | heard1 g' s =>
    refine Or.inr (key m ?_ ha hn (hversion.trans hver) ⟨a, b, d⟩)
    simp only [act, hver, (heard_same3 m s).1]; split <;> rfl
  | heard2 g' s =>
    refine Or.inr (key m ?_ ha hn (hversion.trans hver) ⟨a, b, d⟩)
    simp only [act, hver, (heard_same3 m s).2]; split <;> rfl
  | tick r =>
    have hc : l.curRun = true := hi.run m hm (by omega)
    have hg3 : general3 m = (m, []) := by simp only [general3, a]
    have hact : act l (.tick r) m = timers3 (delay 15 r) m := by
      simp only [act, hg3, hc, hver]
      simp
    by_cases h1 : m.timer = 1
    · left
      refine step_msg.mpr ⟨m, hb, ?_⟩
      rw [hact, ← ha]
      exact timers3_answer _ _ h1 a
    · right
      obtain ⟨x, y, z, w⟩ := timers3_rest (delay 15 r) m (.inl h1) (by rw [a]; decide)
      refine key _ (by rw [hact]) (x.trans ha) (y.trans hn) (hversion.trans hver) ⟨z.trans a, ?_⟩
      rw [w]
      show 1 ≤ m.timer - 1 ∧ m.timer - 1 ≤ k
      omega

/-- **C203**: once a query for a group is waiting to be answered, no other query of version 3 keeps it from being answered
in time: neither general ones, nor ones for the group, nor for sources of it. -/
theorem query3g_kept {l : Link} (hr : Reachable l) (hv : l.version = 3) {g : Nat} (hm : member l g .reporting)
    (h0 : l.v3timer = 0) (c qrv qqi : Nat) (hit : Bool) (r : Nat) (es : List Ev) (hq : ∀ e ∈ es, Stays3 g e)
    (ht : max 1 (rfcTenths c / 2) ≤ ticks es) :
    (⟨g, .current⟩ : Msg) ∈ (run l (.query3g g c qrv qqi false hit r :: es)).2 := by
  obtain ⟨m, hm, ha, hn, hst⟩ := hm
  have h3 : ¬ (l.version ≠ 3) := by simp [hv]
  have hset := setVersion3 hr.inv.ver hv
  have hcan : ∀ m, cancelIf l 3 m = m := cancelIf_same (by rw [hset])
  have hb := ticks3_bounds c
  have hd := delay_bounds hb.1 r
  have hw : WaitsG g (max 1 (rfcTenths c / 2)) (step l (.query3g g c qrv qqi false hit r)).1 := by
    have hact : (act l (.query3g g c qrv qqi false hit r) m).1 =
        { m with st := .gPending, timer := delay (ticks3 c) r } := by
      simp only [act, if_neg h3, hset, if_pos (Or.inl h0 : l.v3timer = 0 ∨ l.v3timer ≥ ticks3 c), if_pos ha, hcan]
      simp [groupQuery, hst]
    refine ⟨(step_version hr.inv.ver _).trans hv, { m with st := .gPending, timer := delay (ticks3 c) r }, ?_, ha, hn,
      rfl, hd.1, Nat.le_trans hd.2 hb.2⟩
    rw [← hact]
    exact step_keep (mem_base hm _) (by rw [hact]; exact Or.inl hn)
  simp only [run, List.mem_append]
  refine Or.inr (answered (P := WaitsG g) (Q := Stays3 g) ?_ ?_ _ _ es (step_inv hr.inv _) hw hq ht)
  · rintro l ⟨_, m, _, _, _, _, h⟩; omega
  · intro k l e hi h hq; exact waitsG_step hi h hq

/-- It meets its hypotheses; sources are asked for all the time. -/
example : (⟨0xef010203, .current⟩ : Msg) ∈
    (run joined3 (.query3g 0xef010203 20 2 125 false false 7 :: nag 0xef010203 10)).2 := by
  refine query3g_kept joined3_reachable (by decide +kernel)
    ⟨⟨0xef010203, true, true, .reporting, 0, 0, 0, none, false⟩, by decide +kernel⟩ (by decide +kernel) 20 2 125 false 7 _
    ?_ (by decide +kernel)
  have hs : ∀ n, ∀ e ∈ nag 0xef010203 n, Stays3 0xef010203 e := by
    intro n
    induction n with
    | zero => simp [nag]
    | succ n ih =>
      intro e he
      simp only [nag, List.mem_cons] at he
      rcases he with rfl | rfl | he
      · trivial
      · trivial
      · exact ih e he
  exact hs 10

end Verif.Igmp.Host

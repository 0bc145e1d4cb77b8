import Verif.Tw.Thm

/-!
# Every answer from TIME_WAIT repeats the numbers of the closed connection
-/

namespace Verif.Tw

/-- What an answer for connection `c` at clock `k` must look like: next number to send, next
number expected, the window last promised (in units of its scale, nothing if it is used up), and
the timestamps if they were in use. -/
structure Speaks (k : W) (c : Closing) (r : Resp) : Prop where
  who : r.inp = c.inp
  seq : r.seq = c.sndNxt
  ack : r.ack = c.rcvNxt
  win : r.win = (if 0 < (c.rcvAdv - c.rcvNxt).toInt then (c.rcvAdv - c.rcvNxt).toNat / 2 ^ c.rcvScale else 0) % 65536
  ts : r.ts = if c.tsOn = true ∧ c.tsRecent ≠ 0 then some (k + c.tsOff, c.tsRecent) else none

/-- The entry still has what the closing connection handed over. -/
def From (c : Closing) (t : Tw) : Prop := ∃ a b, t = { entry c with time := a, since := b }

theorem speaks_of_from (k : W) {c : Closing} {t : Tw} (h : From c t) : Speaks k c (respond k t) := by
  obtain ⟨a, b, rfl⟩ := h
  refine ⟨rfl, rfl, rfl, ?_, ?_⟩
  · unfold respond entry seqGt
    dsimp only
    by_cases h : 0 < (c.rcvAdv - c.rcvNxt).toInt
    · rw [if_pos h, if_pos (by simpa using h), Nat.shiftRight_eq_div_pow, Nat.mod_mod]
    · rw [if_neg h, if_neg (by simpa using h)]
  · unfold respond entry
    dsimp only
    cases h : c.tsOn with
    | false => simp
    | true =>
      by_cases hr : c.tsRecent = 0
      · simp [hr]
      · simp [hr]

theorem from_stamp {c : Closing} {t : Tw} (s : St) (h : From c t) : From c (stamp s t) := by
  obtain ⟨a, b, rfl⟩ := h
  exact ⟨_, _, rfl⟩

/-- Every entry comes from one of the closings `p`. -/
def All (p : Closing → Prop) (s : St) : Prop := ∀ t ∈ s.q, ∃ c, p c ∧ From c t

theorem step_from (k : W) (s : St) (o : Op) (p : Closing → Prop) (hp : ∀ c, o = .start c → p c) (hi : All p s) : All p (step k s o).1 := by
  cases o with
  | start c =>
    have hn : ∃ c', p c' ∧ From c' (stamp s (entry c)) := ⟨c, hp c rfl, _, _, rfl⟩
    show All p (twstart k s c).1
    unfold twstart
    dsimp only
    by_cases hl : s.q.length < s.cap
    · rw [if_pos hl]
      intro t ht
      rcases List.mem_append.mp ht with ht | ht
      · exact hi t ht
      · rw [List.mem_singleton] at ht; subst ht; exact hn
    · rw [if_neg hl]
      match hq : s.q with
      | [] => exact hi
      | o :: r =>
        intro t ht
        rcases List.mem_append.mp ht with ht | ht
        · exact hi t (by rw [hq]; exact List.mem_cons_of_mem _ ht)
        · rw [List.mem_singleton] at ht; subst ht; exact hn
  | seg i g =>
    rcases step_seg k s i g with e | ⟨t, hf, ⟨_, e⟩ | e⟩
    · rw [e]; exact hi
    · rw [e]; intro t ht; exact hi t (List.mem_filter.mp ht).1
    · rw [e]
      intro t' ht
      rcases List.mem_append.mp ht with ht | ht
      · exact hi t' (List.mem_filter.mp ht).1
      · rw [List.mem_singleton] at ht; subst ht
        obtain ⟨c, hc, hf'⟩ := hi t (List.mem_of_find?_eq_some hf)
        exact ⟨c, hc, from_stamp s hf'⟩
  | slowtimo =>
    obtain ⟨d, h1, _⟩ := scan_suffix (ticks s) s.q
    intro t ht
    refine hi t ?_
    rw [h1]
    exact List.mem_append_right _ ht
  | pass d => exact hi
  | setMsl m => exact hi
  | setMax n =>
    show All p (if n ≥ 32 then _ else _)
    by_cases h : n ≥ 32
    · rw [if_pos h]; exact hi
    · rw [if_neg h]; exact hi

theorem run_from (p : Closing → Prop) : ∀ (h : List (W × Op)) (s : St), (∀ k c, (k, .start c) ∈ h → p c) → All p s → All p (run s h) := by
  intro h
  induction h with
  | nil => intro s _ hi; exact hi
  | cons x h ih =>
    obtain ⟨k, o⟩ := x
    intro s hp hi
    refine ih _ (fun k' c hc => hp k' c (List.mem_cons_of_mem _ hc)) (step_from k s o p ?_ hi)
    rintro c rfl
    exact hp k c (List.mem_cons_self ..)

/-- **C143.**  Whenever something is sent for a connection in TIME_WAIT, it repeats the numbers
with which that connection was closed, whatever has happened since. -/
theorem answers_repeat (now msl : Int) (cap : Nat) (h : List (W × Op)) (k : W) (o : Op) (r : Resp)
    (hr : .sent r ∈ (step k (run (init now msl cap) h) o).2) :
    ∃ c, ((∃ k', (k', .start c) ∈ h) ∨ o = .start c) ∧ Speaks k c r := by
  have hi : All (fun c => ∃ k', (k', .start c) ∈ h) (run (init now msl cap) h) :=
    run_from _ h _ (fun k' c hc => ⟨k', hc⟩) (fun t ht => by cases ht)
  revert hi hr
  generalize run (init now msl cap) h = s
  intro hr hi
  cases o with
  | start c =>
    refine ⟨c, .inr rfl, ?_⟩
    change .sent r ∈ (twstart k s c).2 at hr
    unfold twstart at hr
    dsimp only at hr
    have key : .sent r ∈ (if c.ackNow then [Out.sent (respond k (stamp s (entry c)))] else []) → Speaks k c r := by
      intro hh
      by_cases ha : c.ackNow = true
      · rw [if_pos ha, List.mem_singleton, Out.sent.injEq] at hh
        subst hh
        exact speaks_of_from k ⟨_, _, rfl⟩
      · rw [if_neg ha] at hh; cases hh
    by_cases hl : s.q.length < s.cap
    · rw [if_pos hl] at hr; exact key hr
    · rw [if_neg hl] at hr
      match hq : s.q with
      | [] => rw [hq] at hr; simp at hr
      | o :: q =>
        rw [hq] at hr
        dsimp only at hr
        rcases List.mem_cons.mp hr with e | e
        · cases e
        · exact key e
  | seg i g =>
    unfold step at hr
    dsimp only at hr
    match hf : s.q.find? (fun t => t.inp == i) with
    | none => rw [hf] at hr; cases hr
    | some t =>
      rw [hf] at hr
      dsimp only at hr
      match hv : twcheck t g with
      | .drop => rw [hv] at hr; cases hr
      | .startOver => rw [hv] at hr; simp at hr
      | .go a b =>
        rw [hv] at hr
        cases b with
        | false => simp at hr
        | true =>
          simp only [if_true, List.mem_singleton, Out.sent.injEq] at hr
          subst hr
          obtain ⟨c, hc, hfr⟩ := hi t (List.mem_of_find?_eq_some hf)
          exact ⟨c, .inl hc, speaks_of_from k hfr⟩
  | slowtimo =>
    obtain ⟨d, _, _, h3, _⟩ := scan_suffix (ticks s) s.q
    change .sent r ∈ (scan (ticks s) s.q).2 at hr
    rw [h3] at hr
    obtain ⟨x, _, he⟩ := List.mem_map.mp hr
    cases he
  | pass d => cases hr
  | setMsl m => cases hr
  | setMax n => cases hr

/-- A repeated FIN, two closings earlier. -/
example : .sent ⟨7, 100, 200, 50, some (82, 9)⟩ ∈ (step 77 (run (init 0 300 4)
    [(1, .start ⟨7, 100, 200, 300, 1, true, 9, 5, false⟩), (2, .start ⟨8, 1, 2, 3, 0, false, 0, 0, true⟩), (3, .pass 10)])
    (.seg 7 ⟨199, 100, false, true, true, false, false, 0⟩)).2 := by decide +kernel

end Verif.Tw

import Verif.Stat.Model
/-!
# Properties of the packet rate
-/
namespace Verif.Stat

/-! ## What is measured -/

/-- Packets of several threads. -/
def rxs (s : St) (l : List (Nat × Nat)) : St := l.foldl (fun s a => rx s a.1 a.2) s

/-- How many. -/
def count (l : List (Nat × Nat)) : Nat := (l.map Prod.snd).sum

theorem total_rx (s : St) (t n k : Nat) : total (rx s t n).ctr k = total s.ctr k + if t < k then n else 0 := by
  induction k with
  | zero => simp [total]
  | succ k ih =>
    simp only [total]
    rw [ih]
    show total s.ctr k + _ + (if k = t then s.ctr k + n else s.ctr k) = _
    by_cases h : k = t
    · rw [if_pos h, if_neg (by omega), if_pos (by omega)]; omega
    · rw [if_neg h]
      by_cases h2 : t < k
      · rw [if_pos h2, if_pos (by omega)]; omega
      · rw [if_neg h2, if_neg (by omega)]; omega

theorem rxs_same (l : List (Nat × Nat)) (s : St) : (rxs s l).rate = s.rate ∧ (rxs s l).prev = s.prev ∧ (rxs s l).poll = s.poll ∧
    (rxs s l).flag = s.flag ∧ (rxs s l).timers = s.timers := by
  induction l generalizing s with
  | nil => exact ⟨rfl, rfl, rfl, rfl, rfl⟩
  | cons a l ih => exact ih (rx s a.1 a.2)

theorem total_rxs (l : List (Nat × Nat)) (s : St) (k : Nat) :
    total (rxs s l).ctr k = total s.ctr k + count (l.filter fun a => a.1 < k) := by
  induction l generalizing s with
  | nil => simp [rxs, count]
  | cons a l ih =>
    show total (rxs (rx s a.1 a.2) l).ctr k = _
    rw [ih, total_rx]
    by_cases h : a.1 < k
    · simp [h, count]; omega
    · simp [h, count]

/-- After a timer has run off what was counted is remembered. -/
theorem fire_sync {k now : Nat} {s s' : St} (h : fire k now s = some s') :
    s'.prev = total s'.ctr k % 2 ^ 64 ∧ s'.poll = now ∧ s'.ctr = s.ctr := by
  unfold fire at h
  simp only at h
  split at h
  · simp at h; subst h; exact ⟨rfl, rfl, rfl⟩
  · split at h
    · simp at h
    · simp at h; subst h; exact ⟨rfl, rfl, rfl⟩

/-- **C241**: what is measured, at the end of a period of at most a second, are the packets since the last time, per second, of the
threads whose number is below that of threads; the rate is the mean of this and the old one. -/
theorem measured_exact {k : Nat} {s : St} (hs : s.prev = total s.ctr k % 2 ^ 64) (l : List (Nat × Nat)) {n d : Nat}
    (hn : count (l.filter fun a => a.1 < k) = n) (hn' : n * 10 ^ 9 < 2 ^ 63) (hr : s.rate < 2 ^ 63) (hd : 0 < d) (hd' : d ≤ 10 ^ 9) :
    ∃ s', fire k (s.poll + d) (rxs s l) = some s' ∧ s'.rate = (s.rate + n * 10 ^ 9 / d) / 2 ∧ s'.rate < 2 ^ 63 ∧
      s'.prev = total s'.ctr k % 2 ^ 64 ∧ s'.poll = s.poll + d := by
  obtain ⟨e1, e2, e3, e4, e5⟩ := rxs_same l s
  have ht := total_rxs l s k
  rw [hn] at ht
  have hp : (total (rxs s l).ctr k % 2 ^ 64 + 2 ^ 64 - s.prev) % 2 ^ 64 = n := by
    rw [ht, hs]
    generalize total s.ctr k = t
    omega
  have hq : n * 10 ^ 9 / d ≤ n * 10 ^ 9 := Nat.div_le_self _ _
  have hm : n * 10 ^ 9 % 2 ^ 64 = n * 10 ^ 9 := Nat.mod_eq_of_lt (by omega)
  have hf : ∃ s', fire k (s.poll + d) (rxs s l) = some s' ∧ s'.rate = (s.rate + n * 10 ^ 9 / d) / 2 := by
    unfold fire
    simp only [e1, e2, e3]
    rw [Nat.add_sub_cancel_left, if_neg (by omega), if_neg (by omega), hp, hm]
    refine ⟨_, rfl, ?_⟩
    simp only
    rw [Nat.mod_eq_of_lt (by omega)]
  obtain ⟨s', h1, h2⟩ := hf
  obtain ⟨h3, h4, _⟩ := fire_sync h1
  exact ⟨s', h1, h2, by rw [h2]; omega, h3, h4⟩

/-- Periods one after the other: what was received, and how long they are. -/
def rounds (k : Nat) (s : St) : List (List (Nat × Nat) × Nat) → Option St
  | [] => some s
  | a :: l => (fire k (s.poll + a.2) (rxs s a.1)).bind fun s => rounds k s l

/-- **C241**: if as many packets arrive per second in every period, by threads that are counted, the rate comes closer to that by
half in each: after `m` periods it is off by less than the first difference through 2^m, plus one. -/
theorem rate_partial {k p : Nat} (l : List (List (Nat × Nat) × Nat)) {s : St} (hs : s.prev = total s.ctr k % 2 ^ 64)
    (hr : s.rate < 2 ^ 63) (hl : ∀ a ∈ l, (∀ b ∈ a.1, b.1 < k) ∧ 0 < a.2 ∧ a.2 ≤ 10 ^ 9 ∧ count a.1 * 10 ^ 9 < 2 ^ 63 ∧
      count a.1 * 10 ^ 9 / a.2 = p) :
    ∃ s', rounds k s l = some s' ∧ (p - s'.rate) * 2 ^ l.length < (p - s.rate) + 2 ^ l.length ∧
      (s'.rate - p) * 2 ^ l.length ≤ s.rate - p := by
  induction l generalizing s with
  | nil => exact ⟨s, rfl, by simp, by simp⟩
  | cons a l ih =>
    obtain ⟨h1, h2, h3, h4, h5⟩ := hl a List.mem_cons_self
    have hfil : a.1.filter (fun b => decide (b.1 < k)) = a.1 := by
      rw [List.filter_eq_self]; intro b hb; simpa using h1 b hb
    obtain ⟨s1, g1, g2, g3, g4, _⟩ := measured_exact hs a.1 (by rw [hfil]) h4 hr h2 h3
    rw [h5] at g2
    obtain ⟨s', f1, f2, f3⟩ := ih g4 g3 fun b hb => hl b (List.mem_cons_of_mem _ hb)
    refine ⟨s', by unfold rounds; rw [g1]; exact f1, ?_, ?_⟩
    · simp only [List.length_cons, Nat.pow_succ]
      generalize 2 ^ l.length = q at *
      have e : (p - s'.rate) * (q * 2) = (p - s'.rate) * q * 2 := by rw [Nat.mul_assoc]
      rw [e]
      omega
    · simp only [List.length_cons, Nat.pow_succ]
      generalize 2 ^ l.length = q at *
      have e : (s'.rate - p) * (q * 2) = (s'.rate - p) * q * 2 := by rw [Nat.mul_assoc]
      rw [e]
      omega

/-- **C241, violated**: packets of threads whose number is not below the number of threads (numbers are not always given without
gaps) are not seen: nothing is measured. -/
theorem missed_violated {k : Nat} {s : St} (hs : s.prev = total s.ctr k % 2 ^ 64) (hr : s.rate < 2 ^ 63) (l : List (Nat × Nat))
    (hl : ∀ b ∈ l, k ≤ b.1) {d : Nat} (hd : 0 < d) (hd' : d ≤ 10 ^ 9) :
    ∃ s', fire k (s.poll + d) (rxs s l) = some s' ∧ s'.rate = s.rate / 2 := by
  have hfil : l.filter (fun b => decide (b.1 < k)) = [] := by
    rw [List.filter_eq_nil_iff]; intro b hb; simpa using hl b hb
  obtain ⟨s', h1, h2, _⟩ := measured_exact hs l (n := 0) (by rw [hfil]; rfl) (by rw [Nat.zero_mul]; exact Nat.two_pow_pos 63) hr hd hd'
  exact ⟨s', h1, by rw [h2]; simp⟩

/-! ## The timer -/

/-- The flag is only switched on again when the timer that was running has run off. -/
def Calm : St → List Ev → Prop
  | _, [] => True
  | s, e :: l => (∀ b, e = .set b → b = true → s.flag = false → s.timers = 0) ∧ ∀ s', step s e = some s' → Calm s' l

theorem fire_timers {k now : Nat} {s s' : St} (h : fire k now s = some s') :
    s'.timers = s.timers - 1 + (if s.flag then 1 else 0) ∧ s'.flag = s.flag := by
  unfold fire at h
  simp only at h
  split at h
  · simp at h; subst h; exact ⟨rfl, rfl⟩
  · split at h
    · simp at h
    · simp at h; subst h; exact ⟨rfl, rfl⟩

/-- **C242**: then there is never more than one timer, and there is one as long as the flag is on. -/
theorem one_partial (l : List Ev) {s : St} (hc : Calm St.init l) (h : run St.init l = some s) :
    s.timers ≤ 1 ∧ (s.flag = true → s.timers = 1) := by
  have key : ∀ (l : List Ev) (s0 : St), (s0.timers ≤ 1 ∧ (s0.flag = true → s0.timers = 1)) → Calm s0 l → run s0 l = some s →
      s.timers ≤ 1 ∧ (s.flag = true → s.timers = 1) := by
    intro l
    induction l with
    | nil => intro s0 hi _ h; simp [run] at h; subst h; exact hi
    | cons e l ih =>
      intro s0 hi hc h
      unfold run at h
      cases hs : step s0 e with
      | none => rw [hs] at h; simp at h
      | some s1 =>
        rw [hs] at h
        refine ih s1 ?_ (hc.2 s1 hs) h
        cases e with
        | rx t n => simp [step, rx] at hs; subst hs; exact hi
        | set b =>
          simp only [step, set, Option.some.injEq] at hs
          subst hs
          cases b with
          | false => simp; exact hi.1
          | true =>
            cases hfl : s0.flag with
            | true => simp; have := hi.2 hfl; omega
            | false =>
              have := hc.1 true rfl rfl hfl
              simp [this]
        | fire k now =>
          simp only [step] at hs
          split at hs
          · simp at hs; subst hs; exact hi
          · obtain ⟨f1, f2⟩ := fire_timers hs
            rw [f1, f2]
            cases hfl : s0.flag with
            | true => simp; have := hi.1; omega
            | false => simp; omega
  exact key l _ ⟨by simp [St.init], by simp [St.init]⟩ hc h

/-- **C242, violated**: switched off and on again before the timer has run off, there is one more, and that stays so as long as the
flag is on. -/
theorem two_violated {s : St} (h1 : s.flag = true) (h2 : s.timers = 1) (l : List Ev) (hl : ∀ b, .set b ∈ l → b = true) {s' : St}
    (h : run s (.set false :: .set true :: l) = some s') : s'.timers = 2 := by
  have key : ∀ (l : List Ev) (s0 : St), s0.flag = true → s0.timers = 2 → (∀ b, .set b ∈ l → b = true) → run s0 l = some s' →
      s'.timers = 2 := by
    intro l
    induction l with
    | nil => intro s0 _ h2 _ h; simp [run] at h; subst h; exact h2
    | cons e l ih =>
      intro s0 h1 h2 hl h
      unfold run at h
      cases hs : step s0 e with
      | none => rw [hs] at h; simp at h
      | some s1 =>
        rw [hs] at h
        have : s1.flag = true ∧ s1.timers = 2 := by
          cases e with
          | rx t n => simp [step, rx] at hs; subst hs; exact ⟨h1, h2⟩
          | set b =>
            have := hl b List.mem_cons_self
            subst this
            simp only [step, set, Option.some.injEq] at hs
            subst hs
            simp [h1, h2]
          | fire k now =>
            simp only [step] at hs
            rw [if_neg (by omega)] at hs
            obtain ⟨f1, f2⟩ := fire_timers hs
            rw [f1, f2, h1, h2]
            simp
        exact ih s1 this.1 this.2 (fun b hb => hl b (List.mem_cons_of_mem _ hb)) h
  refine key l (set (set s false) true) rfl ?_ hl ?_
  · simp [set, h1, h2]
  · simpa [run, step] using h

/-- **C243**: a timer that runs off does not stop the program if the clock has advanced since the last one did. -/
theorem fire_partial {k now : Nat} {s : St} (h : s.poll < now) : (fire k now s).isSome = true := by
  unfold fire
  simp only
  split
  · rfl
  · rw [if_neg (by omega)]; rfl

/-- **C243, violated**: with two timers that run off at the same time it does. -/
theorem zero_violated {k now : Nat} {s s' : St} (h : fire k now s = some s') : fire k now s' = none := by
  obtain ⟨_, h2, _⟩ := fire_sync h
  unfold fire
  simp only [h2, Nat.sub_self]
  simp

/-! ## Cases -/

/-- Three packets by two threads in a third of a second: the mean of 0 and 9. -/
example : (run St.init [.set true, .fire 2 5000000000, .rx 0 1, .rx 1 2, .fire 2 5333333333]).map St.rate = some 4 := by
  decide +kernel

/-- Two timers, that run off at the same time. -/
example : (run St.init [.set true, .set false, .set true, .fire 2 5000000000]).map St.timers = some 2 ∧
    (run St.init [.set true, .set false, .set true, .fire 2 5000000000, .fire 2 5000000000]).isNone = true := by decide +kernel

end Verif.Stat

import Verif.Vxlan.TabAge
/-! # C178: forgetting -/
namespace Verif.Vxlan

/-- Life-time invariant: the timer is at slot `tick mod 8192`, and an occupied slot that was
inspected `d` ticks ago had not expired then. -/
structure Aged (t : Tab) : Prop where
  chk : t.check = t.tick % N
  seen : ∀ d, 1 ≤ d → d ≤ N → d ≤ t.tick → (t.slot ((t.tick - d) % N)).key ≠ FREE →
    (t.slot ((t.tick - d) % N)).key ≠ RECYC → t.tick - d ≤ (t.slot ((t.tick - d) % N)).tmo + AGE
  fut : ∀ s, (t.slot s).key ≠ FREE → (t.slot s).key ≠ RECYC → (t.slot s).tmo ≤ t.tick + AGE

theorem aged_init : Aged init := ⟨rfl, fun d h1 _ h3 => by simp [init] at h3; omega,
  fun s h => absurd rfl h⟩

/-- After learning, a slot is as before or holds the new entry or is free. -/
theorem set_slot (t : Tab) (m : Mac) (d s : Nat) :
    (setMac t m d).slot s = t.slot s ∨ ((setMac t m d).slot s).key = FREE ∨
    (setMac t m d).slot s = ⟨m.val, d, (t.tick + AGE) % 2 ^ 32⟩ := by
  rcases set_effect t m d with e | ⟨k, _, _, k2, _, e⟩ | ⟨k, _, _, _, _, e⟩
  · rw [e]; exact Or.inl rfl
  · by_cases c : s = probe m k
    · right; left; rw [e, smear_key, c]; exact k2
    · left; rw [e]; exact put_other _ _ c
  · by_cases c : s = probe m k
    · right; right; rw [e, c, fill_slot]
    · left; rw [e, fill_other _ _ _ c]

theorem aged_set {t : Tab} (h : Aged t) (m : Mac) (d : Nat) (hw : t.tick + AGE < 2 ^ 32) :
    Aged (setMac t m d) := by
  obtain ⟨h1, h2, h3⟩ := h
  refine ⟨?_, ?_, ?_⟩
  · rw [set_check, set_tick]; exact h1
  · rw [set_tick]
    intro x x1 x2 x3
    rcases set_slot t m d ((t.tick - x) % N) with e | e | e
    · rw [e]; exact h2 x x1 x2 x3
    · intro y; exact absurd e y
    · intro _ _; rw [e]; simp only; rw [Nat.mod_eq_of_lt hw]; omega
  · rw [set_tick]
    intro s
    rcases set_slot t m d s with e | e | e
    · rw [e]; exact h3 s
    · intro y; exact absurd e y
    · intro _ _; rw [e]; simp only; rw [Nat.mod_eq_of_lt hw]

theorem aged_tick {t : Tab} (h : Aged t) (hw : t.tick + 1 < 2 ^ 32) : Aged (tickTab t) := by
  obtain ⟨h1, h2, h3⟩ := h
  have ht : (tickTab t).tick = t.tick + 1 := Nat.mod_eq_of_lt hw
  have hc : (tickTab t).check = (t.check + 1) % N := rfl
  refine ⟨?_, ?_, ?_⟩
  · rw [hc, ht, h1]; unfold N; omega
  · rw [ht]
    intro d d1 d2 d3 k1 k2
    have keep : (tickTab t).slot ((t.tick + 1 - d) % N) = t.slot ((t.tick + 1 - d) % N) := by
      rcases tick_slot t ((t.tick + 1 - d) % N) with e | ⟨_, _, _, _, e⟩
      · exact e
      · rw [e] at k2; exact absurd rfl k2
    rw [keep] at k1 k2 ⊢
    by_cases hd : d = 1
    · subst hd
      have e0 : t.tick + 1 - 1 = t.tick := by omega
      rw [e0] at k1 k2 keep ⊢
      rcases Nat.lt_or_ge ((t.slot (t.tick % N)).tmo + AGE) t.tick with c | c
      · exfalso
        have hx : (tickTab t).slot (t.tick % N) = { t.slot (t.tick % N) with key := RECYC } := by
          unfold tickTab
          simp only [h1]
          rw [if_pos ⟨k1, k2, c⟩, put_slot]
        rw [hx] at keep
        have := congrArg Slot.key keep
        exact k2 this.symm
      · exact c
    · have e0 : t.tick + 1 - d = t.tick - (d - 1) := by omega
      rw [e0] at k1 k2 ⊢
      exact h2 (d - 1) (by omega) (by omega) (by omega) k1 k2
  · rw [ht]
    intro s k1 k2
    rcases tick_slot t s with e | ⟨_, _, _, _, e⟩
    · rw [e] at k1 k2 ⊢
      have := h3 s k1 k2
      omega
    · rw [e] at k2; exact absurd rfl k2

theorem aged_run {ops : List Op} : ∀ {t : Tab}, Aged t → t.tick + ticks ops + AGE < 2 ^ 32 →
    Aged (run t ops) := by
  induction ops with
  | nil => intro t h _; exact h
  | cons o ops ih =>
    intro t h hw
    rw [run_cons]
    cases o with
    | tick =>
      have e : ticks (Op.tick :: ops) = ticks ops + 1 := by simp [ticks]
      rw [e] at hw
      have e2 : (step t .tick).tick = t.tick + 1 := by
        simp only [step, tickTab]; exact Nat.mod_eq_of_lt (by omega)
      exact ih (aged_tick h (by omega)) (by rw [e2]; omega)
    | set m d =>
      have e : ticks (Op.set m d :: ops) = ticks ops := by simp [ticks]
      rw [e] at hw
      have e2 : (step t (.set m d)).tick = t.tick := set_tick t m d
      exact ih (aged_set h m d (by omega)) (by rw [e2]; omega)

theorem bound_run {ops : List Op} {m : Mac} (hm : m ≠ 0) {B : Nat} : ¬ Learned ops m → ∀ {t : Tab},
    (∀ s, (t.slot s).key = m.val → (t.slot s).tmo ≤ B) →
    ∀ s, ((run t ops).slot s).key = m.val → ((run t ops).slot s).tmo ≤ B := by
  induction ops with
  | nil => intro _ t h; exact h
  | cons o ops ih =>
    intro hl t h
    rw [run_cons]
    refine ih (fun ⟨d, hd⟩ => hl ⟨d, List.mem_cons_of_mem _ hd⟩) ?_
    intro s hs
    cases o with
    | tick =>
      simp only [step] at hs ⊢
      rcases tick_slot t s with e | ⟨_, _, _, _, e⟩
      · rw [e] at hs ⊢; exact h s hs
      · rw [e] at hs; exact absurd hs.symm (RECYC_ne m)
    | set m' d =>
      simp only [step] at hs ⊢
      rcases set_slot t m' d s with e | e | e
      · rw [e] at hs ⊢; exact h s hs
      · rw [e] at hs; exact absurd hs.symm (nz hm)
      · rw [e] at hs
        exact absurd ⟨d, by rw [Fin.ext hs]; exact List.mem_cons_self⟩ hl

/-- C178, second half: an address that has not been learned for two hours and 164 seconds (360000
ticks and one round of the timer over the table) is not known any more, whatever the history, as
long as the tick counter has not wrapped.  The documented life time is one hour; see
`forgotten_after_an_hour_violated`. -/
theorem forgotten_after_two_hours_partial (pre post : List Op) (m : Mac) (hm : m ≠ 0)
    (hno : ¬ Learned post m) (ht : 2 * AGE + N < ticks post)
    (hw : ticks (pre ++ post) + AGE < 2 ^ 32) :
    getMac (run init (pre ++ post)) m = 0 := by
  have et : ticks (pre ++ post) = ticks pre + ticks post := by simp [ticks]
  rw [et] at hw
  have hpre : Aged (run init pre) := aged_run aged_init (by simp only [init]; omega)
  have tpre : (run init pre).tick = ticks pre := by
    rw [step_tick_val (t := init) (by simp only [init]; omega)]; simp [init]
  have hall : Aged (run init (pre ++ post)) :=
    aged_run aged_init (by rw [et]; simp only [init]; omega)
  have tall : (run init (pre ++ post)).tick = ticks pre + ticks post := by
    rw [step_tick_val (t := init) (by rw [et]; simp only [init]; omega), et]; simp [init]
  apply get_unknown
  intro k ⟨_, h1, _⟩
  have hb := bound_run hm hno (t := run init pre) (B := ticks pre + AGE) (fun s hs => by
    rw [← tpre]
    exact hpre.fut s (by rw [hs]; exact nz hm) (by rw [hs]; exact RECYC_ne m))
  rw [← run_append] at hb
  have hp := probe_lt m k
  have hb' := hb _ h1
  generalize hs : probe m k = s at h1 hp hb'
  obtain ⟨x, x1, x2, x3⟩ : ∃ x, 1 ≤ x ∧ x ≤ N ∧ ((ticks pre + ticks post) - x) % N = s := by
    have hN : N ≤ ticks pre + ticks post := by omega
    generalize ticks pre + ticks post = T at hN
    refine ⟨(T + N - 1 - s) % N + 1, by omega, ?_, ?_⟩ <;> unfold N at * <;> omega
  have := hall.seen x x1 x2 (by rw [tall]; omega)
  rw [tall, x3, h1] at this
  have := this (nz hm) (RECYC_ne m)
  omega

theorem ticks_replicate (n : Nat) : ticks (List.replicate n .tick) = n := by simp [ticks]

/-- The table of a quiet system. -/
theorem quiet (n : Nat) : run init (List.replicate n .tick) =
    ⟨fun _ => ⟨FREE, 0, 0⟩, n % N, n % 2 ^ 32⟩ := by
  induction n with
  | zero => rfl
  | succ n ih =>
    rw [List.replicate_succ', run_snoc, ih]
    simp only [step, tickTab, ne_eq, not_true_eq_false, false_and, if_false]
    apply Tab.ext'
    · intro i; rfl
    · simp only [N]; omega
    · simp only; omega

/-- C178 refuted, too late: after an hour and a full round of the timer without any frame from
the address, it is still known (for every address and every time up to two hours). -/
theorem forgotten_after_an_hour_violated (m : Mac) (hm : m ≠ 0) (d : Nat) (hd : d ≠ 0) (n : Nat)
    (hn : n ≤ 2 * AGE) :
    getMac (run init ([.set m d] ++ List.replicate n .tick)) m = d := by
  have hl := (learn_home init m d (Or.inl rfl)).2
  have := known_for_two_hours_partial [] (List.replicate n .tick) m d hm
    (by rintro ⟨e, he⟩; simp [List.mem_replicate] at he; exact hm he.1.symm) {m}
    (by rintro x ⟨e, he⟩; simp [List.mem_replicate] at he; simp [he.1]) (by simp [N])
    (by show getMac (setMac init m d) m ≠ 0; rw [hl]; exact hd)
    (by rintro ⟨e, he⟩; simp [List.mem_replicate] at he)
    (by rw [ticks_replicate]; exact hn) (by simp [ticks, AGE])
  exact this

/-- In particular well after one hour and one round. -/
example : AGE + N < 2 * AGE := by unfold AGE N; omega

/-- An address with hash 8191. -/
def macZ : Mac := ⟨0x1fff00000002, by decide⟩

/-- C178 refuted, too early: an address learned in the last hour before the 32-bit tick counter
wraps is forgotten at the next inspection, here after 20 ms. -/
theorem known_for_an_hour_violated (n d : Nat) (hn : n + 1 = 2 ^ 32) :
    getMac (run init (List.replicate n .tick ++ [.set macZ d])) macZ = d ∧
    getMac (run init (List.replicate n .tick ++ [.set macZ d] ++ [.tick])) macZ = 0 := by
  have q := quiet n
  generalize hL : List.replicate n Op.tick = L at q ⊢
  have hh : home macZ = 8191 := by decide +kernel
  have hfree : ((run init L).slot (home macZ)).key = FREE := by rw [q]
  have hl := learn_home (run init L) macZ d (Or.inl hfree)
  have tk : (run init L).tick = 4294967295 := by rw [q]; simp only; omega
  have ck : (run init L).check = 8191 := by rw [q]; simp only [N]; omega
  rw [run_snoc, run_snoc]
  refine ⟨hl.2, ?_⟩
  rw [run_snoc]
  simp only [step]
  have hk : ∀ s, s ≠ home macZ → ((setMac (run init L) macZ d).slot s).key = FREE := by
    intro s hs
    have : (setMac (run init L) macZ d).slot s = (run init L).slot s := by
      rcases set_effect (run init L) macZ d with e | ⟨k, _, k1, _, k3, e⟩ | ⟨k, _, _, _, k3, e⟩
      · rw [e]
      · exact absurd (Or.inl (by rw [probe_zero]; exact hfree)) (k3 0 k1)
      · rw [e]
        apply fill_other
        rcases Nat.eq_zero_or_pos k with z | z
        · subst z; rw [probe_zero]; exact hs
        · exact absurd (Or.inl (by rw [probe_zero]; exact hfree)) (k3 0 z)
    rw [this, q]
  have hsl := hl.1
  rw [tk, hh] at hsl
  have gone : ((tickTab (setMac (run init L) macZ d)).slot 8191).key = RECYC := by
    unfold tickTab
    simp only [set_check, set_tick, tk, ck, hsl]
    have a1 : macZ.val ≠ FREE := by decide
    have a2 : macZ.val ≠ RECYC := RECYC_ne macZ
    have a3 : (4294967295 + AGE) % 2 ^ 32 + AGE < 4294967295 := by unfold AGE; omega
    rw [if_pos ⟨a1, a2, a3⟩, put_slot]
  apply get_unknown
  intro k ⟨_, h1, h2⟩
  rcases tick_slot (setMac (run init L) macZ d) (probe macZ k) with e | ⟨_, _, _, _, e⟩
  · by_cases c : probe macZ k = home macZ
    · rw [c, hh, gone] at h1; exact absurd h1.symm (RECYC_ne macZ)
    · rw [e, hk _ c] at h1; exact absurd h1.symm (by decide : macZ.val ≠ FREE)
  · rw [e] at h1; exact absurd h1.symm (RECYC_ne macZ)

/-- The hypotheses of `forgotten_after_two_hours_partial` are met, e.g. by `n = 400000`. -/
example (n : Nat) (h1 : 2 * AGE + N < n) (h2 : n + AGE < 2 ^ 32) :
    getMac (run init ([.set macA 7] ++ List.replicate n .tick)) macA = 0 := by
  apply forgotten_after_two_hours_partial
  · decide
  · rintro ⟨e, he⟩; simp [List.mem_replicate] at he
  · rw [ticks_replicate]; exact h1
  · have : ticks ([.set macA 7] ++ List.replicate n .tick) = n := by
      simp [ticks]
    rw [this]; exact h2

example : 2 * AGE + N < 400000 ∧ 400000 + AGE < 2 ^ 32 := by unfold AGE N; omega

end Verif.Vxlan

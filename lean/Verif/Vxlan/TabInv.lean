import Verif.Vxlan.TabLemmas
import Mathlib.Data.Finset.Card
import Mathlib.Data.Finset.Image
/-! Invariants of the table over histories. -/
namespace Verif.Vxlan

/-- Every occupied slot can be reached from the home slot of its MAC address without meeting a
free slot. -/
def Inv (t : Tab) : Prop :=
  ∀ s, s < N → (t.slot s).key ≠ FREE → (t.slot s).key ≠ RECYC →
    ∃ (m : Mac) (k : Nat), k < N ∧ probe m k = s ∧ (t.slot s).key = m.val ∧
      ∀ i, i ≤ k → (t.slot (probe m i)).key ≠ FREE

theorem inv_init : Inv init := fun _ _ h => absurd rfl h

theorem nz {m : Mac} (h : m ≠ 0) : m.val ≠ FREE := by
  intro e; exact h (Fin.ext e)

/-- What learning does to the keys: at most one slot changes, and it then holds `m`; a free slot
is only ever taken at home. -/
theorem set_effect (t : Tab) (m : Mac) (d : Nat) :
    setMac t m d = t ∨
    (∃ k, k < N ∧ 0 < k ∧ (t.slot (probe m k)).key = FREE ∧ (∀ i, i < k → ¬ Stop t m i) ∧
      setMac t m d = smear t d (probe m k)) ∨
    (∃ k, k < N ∧ Stop t m k ∧ (0 < k → (t.slot (probe m k)).key ≠ FREE) ∧
      (∀ i, i < k → ¬ Stop t m i) ∧ setMac t m d = fill t m d (probe m k)) := by
  rcases setMac_spec t m d with ⟨_, h⟩ | ⟨k, h1, h2, h3, h4⟩
  · exact Or.inl h
  · by_cases c : 0 < k ∧ (t.slot (probe m k)).key = FREE
    · refine Or.inr (Or.inl ⟨k, h1, c.1, c.2, h3, ?_⟩)
      rw [h4, stopTab, if_pos c]
    · refine Or.inr (Or.inr ⟨k, h1, h2, fun x y => c ⟨x, y⟩, h3, ?_⟩)
      rw [h4, stopTab, if_neg c]

theorem smear_key (t : Tab) (d i j : Nat) : ((smear t d i).slot j).key = (t.slot j).key := by
  unfold smear Tab.put
  by_cases h : j = i <;> simp [h]

theorem fill_slot (t : Tab) (m : Mac) (d i : Nat) :
    (fill t m d i).slot i = ⟨m.val, d, (t.tick + AGE) % 2 ^ 32⟩ := put_slot _ _ _

theorem fill_other (t : Tab) (m : Mac) (d : Nat) {i j : Nat} (h : j ≠ i) :
    (fill t m d i).slot j = t.slot j := put_other _ _ h

theorem set_check (t : Tab) (m : Mac) (d : Nat) : (setMac t m d).check = t.check := by
  rcases set_effect t m d with h | ⟨k, _, _, _, _, h⟩ | ⟨k, _, _, _, _, h⟩ <;> rw [h] <;> rfl

theorem set_tick (t : Tab) (m : Mac) (d : Nat) : (setMac t m d).tick = t.tick := by
  rcases set_effect t m d with h | ⟨k, _, _, _, _, h⟩ | ⟨k, _, _, _, _, h⟩ <;> rw [h] <;> rfl

theorem set_nonfree {t : Tab} {m : Mac} (hm : m ≠ 0) (d s : Nat) (h : (t.slot s).key ≠ FREE) :
    ((setMac t m d).slot s).key ≠ FREE := by
  rcases set_effect t m d with e | ⟨k, _, _, _, _, e⟩ | ⟨k, _, _, _, _, e⟩
  · rw [e]; exact h
  · rw [e, smear_key]; exact h
  · rw [e]
    by_cases c : s = probe m k
    · rw [c, fill_slot]; exact nz hm
    · rw [fill_other _ _ _ c]; exact h

theorem inv_set {t : Tab} (hi : Inv t) {m : Mac} (hm : m ≠ 0) (d : Nat) : Inv (setMac t m d) := by
  have hnf := fun s h => set_nonfree (t := t) hm d s h
  have key : ∀ s, ((setMac t m d).slot s).key = (t.slot s).key ∨
      (∃ k, k < N ∧ s = probe m k ∧ ((setMac t m d).slot s).key = m.val ∧
        ∀ i, i < k → ¬ Stop t m i) := by
    intro s
    rcases set_effect t m d with e | ⟨k, _, _, _, _, e⟩ | ⟨k, h1, _, _, h3, e⟩
    · rw [e]; exact Or.inl rfl
    · rw [e, smear_key]; exact Or.inl rfl
    · by_cases c : s = probe m k
      · refine Or.inr ⟨k, h1, c, ?_, h3⟩
        rw [e, c, fill_slot]
      · rw [e, fill_other _ _ _ c]; exact Or.inl rfl
  intro s hs h1 h2
  rcases key s with e | ⟨k, hk, e1, e2, e3⟩
  · rw [e] at h1 h2 ⊢
    obtain ⟨m', k', a1, a2, a3, a4⟩ := hi s hs h1 h2
    exact ⟨m', k', a1, a2, a3, fun i hi' => hnf _ (a4 i hi')⟩
  · refine ⟨m, k, hk, e1.symm, e2, fun i hi' => ?_⟩
    by_cases c : i = k
    · rw [c, ← e1]; rw [e2]; exact nz hm
    · have := e3 i (by omega)
      simp only [Stop, not_or] at this
      exact hnf _ this.1

/-- What the timer does: at most the slot under inspection becomes a tombstone. -/
theorem tick_slot (t : Tab) (s : Nat) :
    (tickTab t).slot s = t.slot s ∨
    (s = t.check ∧ (t.slot s).key ≠ FREE ∧ (t.slot s).key ≠ RECYC ∧ (t.slot s).tmo + AGE < t.tick ∧
      (tickTab t).slot s = { t.slot s with key := RECYC }) := by
  unfold tickTab
  simp only
  by_cases c : (t.slot t.check).key ≠ FREE ∧ (t.slot t.check).key ≠ RECYC ∧
      (t.slot t.check).tmo + AGE < t.tick
  · rw [if_pos c]
    by_cases c2 : s = t.check
    · subst c2
      exact Or.inr ⟨rfl, c.1, c.2.1, c.2.2, put_slot _ _ _⟩
    · exact Or.inl (put_other _ _ c2)
  · rw [if_neg c]; exact Or.inl rfl

theorem tick_nonfree {t : Tab} (s : Nat) (h : (t.slot s).key ≠ FREE) :
    ((tickTab t).slot s).key ≠ FREE := by
  rcases tick_slot t s with e | ⟨_, _, _, _, e⟩
  · rw [e]; exact h
  · rw [e]; exact RECYC_ne_FREE

theorem tick_free {t : Tab} (s : Nat) (h : (t.slot s).key = FREE) :
    ((tickTab t).slot s).key = FREE := by
  rcases tick_slot t s with e | ⟨_, h1, _⟩
  · rw [e]; exact h
  · exact absurd h h1

theorem inv_tick {t : Tab} (hi : Inv t) : Inv (tickTab t) := by
  intro s hs h1 h2
  rcases tick_slot t s with e | ⟨_, _, _, _, e⟩
  · rw [e] at h1 h2 ⊢
    obtain ⟨m, k, a1, a2, a3, a4⟩ := hi s hs h1 h2
    exact ⟨m, k, a1, a2, a3, fun i h => tick_nonfree _ (a4 i h)⟩
  · rw [e] at h2; exact absurd rfl h2

/-- The MAC addresses learned in a history. -/
def Learned (ops : List Op) (m : Mac) : Prop := ∃ d, Op.set m d ∈ ops

theorem run_snoc (t : Tab) (ops : List Op) (o : Op) : run t (ops ++ [o]) = step (run t ops) o := by
  simp [run]

theorem run_append (t : Tab) (a b : List Op) : run t (a ++ b) = run (run t a) b := by
  simp [run]

theorem run_cons (t : Tab) (o : Op) (b : List Op) : run t (o :: b) = run (step t o) b := by
  simp [run]

theorem inv_run {ops : List Op} : (hz : ¬ Learned ops 0) → ∀ {t}, Inv t → Inv (run t ops) := by
  induction ops with
  | nil => intro _ t h; exact h
  | cons o ops ih =>
    intro hz t h
    rw [run_cons]
    apply ih
    · rintro ⟨d, hd⟩; exact hz ⟨d, List.mem_cons_of_mem _ hd⟩
    · cases o with
      | tick => exact inv_tick h
      | set m d =>
        apply inv_set h
        rintro rfl
        exact hz ⟨d, List.mem_cons_self⟩

/-- A slot is only taken from the free slots when it is the home of a learned address. -/
theorem free_run {ops : List Op} {s : Nat} : (∀ m, Learned ops m → home m ≠ s) → ∀ {t : Tab},
    s < N → (t.slot s).key = FREE → ((run t ops).slot s).key = FREE := by
  induction ops with
  | nil => intro _ t _ h; exact h
  | cons o ops ih =>
    intro hz t hs h
    rw [run_cons]
    refine ih (fun m ⟨d, hd⟩ => hz m ⟨d, List.mem_cons_of_mem _ hd⟩) hs ?_
    cases o with
    | tick => exact tick_free _ h
    | set m d =>
      have hm := hz m ⟨d, List.mem_cons_self⟩
      show ((setMac t m d).slot s).key = FREE
      rcases set_effect t m d with e | ⟨k, _, _, _, _, e⟩ | ⟨k, h1, _, h3, _, e⟩
      · rw [e]; exact h
      · rw [e, smear_key]; exact h
      · rw [e]
        by_cases c : s = probe m k
        · by_cases hk : 0 < k
          · exact absurd (by rw [← c]; exact h) (h3 hk)
          · have : k = 0 := by omega
            subst this
            rw [probe_zero] at c
            exact absurd c.symm hm
        · rw [fill_other _ _ _ c]; exact h

/-- With fewer than 8192 different learned addresses there is always a free slot. -/
theorem free_exists {ops : List Op} {F : Finset Mac} (hF : ∀ m, Learned ops m → m ∈ F)
    (hc : F.card < N) : ∃ s, s < N ∧ ((run init ops).slot s).key = FREE := by
  have : ((F.image home)).card < (Finset.range N).card := by
    rw [Finset.card_range]
    exact Nat.lt_of_le_of_lt Finset.card_image_le hc
  obtain ⟨s, h1, h2⟩ := Finset.exists_mem_notMem_of_card_lt_card this
  have hs := Finset.mem_range.mp h1
  refine ⟨s, hs, free_run (fun m hm e => h2 ?_) hs rfl⟩
  exact Finset.mem_image.mpr ⟨m, hF m hm, e⟩

/-- The first slot of `m` in the probe order, given any slot of `m` before which nothing is free. -/
theorem found_of_mem {t : Tab} {m : Mac} : ∀ k, k < N → (t.slot (probe m k)).key = m.val →
    (∀ i, i < k → (t.slot (probe m i)).key ≠ FREE) → ∃ j, j ≤ k ∧ Found t m j := by
  intro k
  induction k using Nat.strongRecOn with
  | _ k ih =>
    intro hk h1 h2
    by_cases c : ∃ i, i < k ∧ (t.slot (probe m i)).key = m.val
    · obtain ⟨i, hi, hm⟩ := c
      obtain ⟨j, hj, hf⟩ := ih i hi (by omega) hm (fun x hx => h2 x (by omega))
      exact ⟨j, by omega, hf⟩
    · refine ⟨k, Nat.le_refl _, hk, h1, fun i hi => ⟨fun e => c ⟨i, hi, e⟩, h2 i hi⟩⟩

/-- A slot that holds `m` lies behind the first one that answers for `m`. -/
theorem found_of_inv {t : Tab} (hi : Inv t) {m : Mac} (hm : m ≠ 0) {s : Nat} (hs : s < N)
    (h : (t.slot s).key = m.val) : ∃ j, Found t m j := by
  obtain ⟨m', k, a1, a2, a3, a4⟩ := hi s hs (by rw [h]; exact nz hm) (by rw [h]; exact RECYC_ne m)
  have e : m' = m := Fin.ext (by rw [← a3, h])
  subst e
  obtain ⟨j, _, hf⟩ := found_of_mem k a1 (by rw [a2]; exact h) (fun i hi' => a4 i (by omega))
  exact ⟨j, hf⟩

/-- Learning another address leaves the answering slot of `m` alone. -/
theorem set_keeps_found {t : Tab} (hi : Inv t) (hf : ∃ s, s < N ∧ (t.slot s).key = FREE)
    {m m' : Mac} (hm : m ≠ 0) (hm' : m' ≠ 0) (hne : m' ≠ m) (d : Nat) {k : Nat} (h : Found t m k) :
    Found (setMac t m' d) m k ∧ (setMac t m' d).slot (probe m k) = t.slot (probe m k) := by
  obtain ⟨hk, h1, h2⟩ := h
  have hv : m'.val ≠ m.val := fun e => hne (Fin.ext e)
  have main : (setMac t m' d).slot (probe m k) = t.slot (probe m k) := by
    rcases set_effect t m' d with e | ⟨j, _, _, b3, _, e⟩ | ⟨j, b1, b2, _, _, e⟩
    · rw [e]
    · rw [e]
      apply put_other
      intro c
      rw [← c, h1] at b3
      exact nz hm b3
    · rw [e]
      apply fill_other
      intro c
      unfold Stop at b2
      rw [← c, h1] at b2
      rcases b2 with b2 | b2 | b2 | ⟨hj, b2⟩
      · exact nz hm b2
      · exact RECYC_ne m b2
      · exact hv b2.symm
      · by_cases hk0 : k = 0
        · subst hk0
          have p : probe m' (j - 1) = probe m (N - 1) := by
            have := home_lt m
            have := home_lt m'
            unfold probe N at *; omega
          rw [p] at b2
          have hN : N - 1 < N := by decide
          obtain ⟨m2, k2, a1, a2, a3, a4⟩ := hi (probe m (N - 1)) (probe_lt _ _)
            (by rw [← b2]; exact nz hm) (by rw [← b2]; exact RECYC_ne m)
          have e2 : m2 = m := Fin.ext (by rw [← a3, b2])
          subst e2
          have e3 := probe_inj a1 hN a2
          obtain ⟨s, hs, hfr⟩ := hf
          obtain ⟨i, hi1, hi2⟩ := probe_surj m2 hs
          exact a4 i (by omega) (by rw [hi2]; exact hfr)
        · have p : probe m' (j - 1) = probe m (k - 1) := by
            have := home_lt m
            have := home_lt m'
            unfold probe N at *; omega
          rw [p] at b2
          exact (h2 (k - 1) (by omega)).1 b2.symm
  refine ⟨⟨hk, by rw [main]; exact h1, fun i hik => ⟨?_, set_nonfree hm' d _ (h2 i hik).2⟩⟩, main⟩
  rcases set_effect t m' d with e | ⟨j, _, _, _, _, e⟩ | ⟨j, _, _, _, _, e⟩
  · rw [e]; exact (h2 i hik).1
  · rw [e, smear_key]; exact (h2 i hik).1
  · rw [e]
    by_cases c : probe m i = probe m' j
    · rw [c, fill_slot]; exact hv
    · rw [fill_other _ _ _ c]; exact (h2 i hik).1

/-- Learning another address never makes `m` known. -/
theorem set_keeps_unknown {t : Tab} (hi : Inv t) {m m' : Mac} (hm : m ≠ 0) (hne : m' ≠ m) (d : Nat)
    (h : ∀ k, ¬ Found t m k) : ∀ k, ¬ Found (setMac t m' d) m k := by
  intro k ⟨hk, h1, h2⟩
  have hv : m'.val ≠ m.val := fun e => hne (Fin.ext e)
  have hkey : (t.slot (probe m k)).key = m.val := by
    rcases set_effect t m' d with e | ⟨j, _, _, _, _, e⟩ | ⟨j, _, _, _, _, e⟩
    · rw [← e]; exact h1
    · rw [e, smear_key] at h1; exact h1
    · rw [e] at h1
      by_cases c : probe m k = probe m' j
      · rw [c, fill_slot] at h1; exact absurd h1 hv
      · rw [fill_other _ _ _ c] at h1; exact h1
  obtain ⟨j, hj⟩ := found_of_inv hi hm (probe_lt m k) hkey
  exact h j hj

theorem get_unknown {t : Tab} {m : Mac} (h : ∀ k, ¬ Found t m k) : getMac t m = 0 := by
  rcases get_cases t m with ⟨e, _⟩ | ⟨k, hk⟩
  · exact e
  · exact absurd hk (h k)

end Verif.Vxlan

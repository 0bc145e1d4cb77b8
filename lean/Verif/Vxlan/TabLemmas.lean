import Verif.Vxlan.Tab
/-! Facts about the probe sequence and the exact effect of learning an address. -/
namespace Verif.Vxlan

theorem N_pos : 0 < N := by decide
theorem RECYC_big (m : Mac) : m.val < RECYC := by
  have := m.isLt; unfold RECYC; omega
theorem RECYC_ne (m : Mac) : m.val ≠ RECYC := Nat.ne_of_lt (RECYC_big m)
theorem RECYC_ne_FREE : RECYC ≠ FREE := by decide
theorem home_lt (m : Mac) : home m < N := Nat.mod_lt _ N_pos

/-- The `j`-th slot probed for `m`. -/
def probe (m : Mac) (j : Nat) : Nat := (home m + j) % N

theorem probe_lt (m : Mac) (j : Nat) : probe m j < N := Nat.mod_lt _ N_pos
theorem probe_zero (m : Mac) : probe m 0 = home m := by
  unfold probe; rw [Nat.add_zero, Nat.mod_eq_of_lt (home_lt m)]
theorem probe_succ (m : Mac) (j : Nat) : (probe m j + 1) % N = probe m (j + 1) := by
  unfold probe N; omega

theorem probe_inj {m : Mac} {i j : Nat} (hi : i < N) (hj : j < N) (h : probe m i = probe m j) :
    i = j := by
  have := home_lt m
  unfold probe N at *; omega

theorem probe_surj (m : Mac) {s : Nat} (hs : s < N) : ∃ j, j < N ∧ probe m j = s := by
  have := home_lt m
  refine ⟨(s + N - home m) % N, Nat.mod_lt _ N_pos, ?_⟩
  unfold probe N at *; omega

theorem Tab.ext' {a b : Tab} (h1 : ∀ i, a.slot i = b.slot i) (h2 : a.check = b.check)
    (h3 : a.tick = b.tick) : a = b := by
  cases a; cases b
  simp only at h1 h2 h3
  subst h2; subst h3
  congr 1; funext i; exact h1 i

/-- Slot `i` after `m` has been stored in it. -/
def fill (t : Tab) (m : Mac) (dst i : Nat) : Tab :=
  t.put i ⟨m.val, dst, (t.tick + AGE) % 2 ^ 32⟩

/-- Slot `i` after only address and time-out have been stored. -/
def smear (t : Tab) (dst i : Nat) : Tab :=
  t.put i ⟨(t.slot i).key, dst, (t.tick + AGE) % 2 ^ 32⟩

/-- A slot the search of `ofp_vxlan_set_mac_dst` stops at in round `j`. -/
def Stop (t : Tab) (m : Mac) (j : Nat) : Prop :=
  (t.slot (probe m j)).key = FREE ∨ (t.slot (probe m j)).key = RECYC ∨
  (t.slot (probe m j)).key = m.val ∨
  (0 < j ∧ (t.slot (probe m j)).key = (t.slot (probe m (j - 1))).key)

/-- What one round leaves when it stops. -/
def stopTab (t : Tab) (m : Mac) (dst j : Nat) : Tab :=
  if 0 < j ∧ (t.slot (probe m j)).key = FREE then smear t dst (probe m j)
  else fill t m dst (probe m j)

theorem put_put (t : Tab) (i : Nat) (a b : Slot) : (t.put i a).put i b = t.put i b := by
  apply Tab.ext'
  · intro j; simp only [Tab.put]; by_cases h : j = i <;> simp [h]
  · rfl
  · rfl

theorem put_slot (t : Tab) (i : Nat) (a : Slot) : (t.put i a).slot i = a := by simp [Tab.put]
theorem put_other (t : Tab) {i j : Nat} (a : Slot) (h : j ≠ i) : (t.put i a).slot j = t.slot j := by
  simp [Tab.put, h]

theorem store_put (t : Tab) (i k dst : Nat) :
    store (t.put i { t.slot i with key := k }) i dst = t.put i ⟨k, dst, (t.tick + AGE) % 2 ^ 32⟩ := by
  unfold store
  rw [put_slot, put_put]
  rfl

/-- One round that stops. -/
theorem round_stop {t : Tab} {m : Mac} {dst j old n : Nat}
    (hold : (j = 0 ∧ old = FREE) ∨
      (0 < j ∧ old = (t.slot (probe m (j - 1))).key ∧ old ≠ FREE ∧ old ≠ RECYC ∧ old ≠ m.val))
    (h : Stop t m j) :
    setLoop m.val dst (n + 1) t (probe m j) old = stopTab t m dst j := by
  have hr := RECYC_ne m
  have hf := RECYC_ne_FREE
  simp only [setLoop]
  generalize hK : (t.slot (probe m j)).key = K at h
  unfold Stop at h
  rw [hK] at h
  by_cases c1 : K = old
  · -- the first exchange succeeds
    have e1 : cas t (probe m j) old m.val =
        (t.put (probe m j) { t.slot (probe m j) with key := m.val }, old) := by
      simp only [cas, hK, c1, if_true]
    rw [e1]
    simp only
    rcases hold with ⟨hj, ho⟩ | ⟨hj, ho, n1, n2, n3⟩
    · simp only [ho, true_or, if_true]
      rw [store_put]
      simp only [stopTab, hj, Nat.lt_irrefl, false_and, if_false, fill]
    · simp only [n1, n3, or_self, if_false]
      have e2 : cas (t.put (probe m j) { t.slot (probe m j) with key := m.val }) (probe m j) RECYC
          m.val = (t.put (probe m j) { t.slot (probe m j) with key := m.val }, m.val) := by
        simp only [cas, put_slot, hr, if_false]
      rw [e2]
      simp only [or_true, if_true]
      rw [store_put]
      have : K ≠ FREE := by rw [c1]; exact n1
      simp only [stopTab, hK, this, and_false, if_false, fill]
  · have e1 : cas t (probe m j) old m.val = (t, K) := by simp only [cas, hK, c1, if_false]
    rw [e1]
    simp only
    by_cases c2 : K = FREE
    · simp only [c2, true_or, if_true]
      have hj : 0 < j := by
        rcases hold with ⟨_, ho⟩ | ⟨hj, _⟩
        · exact absurd (c2.trans ho.symm) c1
        · exact hj
      simp only [stopTab, hK, c2, hj, and_self, if_true, store, smear]
    · simp only [c2, false_or]
      by_cases c3 : K = m.val
      · simp only [c3, if_true]
        have : ¬ (0 < j ∧ K = FREE) := fun x => c2 x.2
        simp only [stopTab, hK, this, if_false, store, fill]
        rw [← c3]
      · simp only [c3, if_false]
        have c4 : K = RECYC := by
          rcases h with h | h | h | ⟨hj, h⟩
          · exact absurd h c2
          · exact h
          · exact absurd h c3
          · rcases hold with ⟨h0, _⟩ | ⟨_, ho, _⟩
            · omega
            · exact absurd (h.trans ho.symm) c1
        have e2 : cas t (probe m j) RECYC m.val =
            (t.put (probe m j) { t.slot (probe m j) with key := m.val }, RECYC) := by
          simp only [cas, hK, c4, if_true]
        rw [e2]
        simp only [true_or, if_true]
        rw [store_put]
        have : ¬ (0 < j ∧ K = FREE) := fun x => c2 x.2
        simp only [stopTab, hK, this, if_false, fill]

/-- One round that does not stop. -/
theorem round_go {t : Tab} {m : Mac} {dst j old n : Nat}
    (hold : (j = 0 ∧ old = FREE) ∨ (0 < j ∧ old = (t.slot (probe m (j - 1))).key))
    (h : ¬ Stop t m j) :
    setLoop m.val dst (n + 1) t (probe m j) old =
      setLoop m.val dst n t (probe m (j + 1)) (t.slot (probe m j)).key := by
  rw [setLoop]
  generalize hK : (t.slot (probe m j)).key = K at *
  unfold Stop at h
  rw [hK] at h
  simp only [not_or, not_and] at h
  obtain ⟨h1, h2, h3, h4⟩ := h
  have c1 : K ≠ old := by
    rcases hold with ⟨_, ho⟩ | ⟨hj, ho⟩
    · rw [ho]; exact h1
    · rw [ho]; exact h4 hj
  have e1 : cas t (probe m j) old m.val = (t, K) := by simp only [cas, hK, c1, if_false]
  have e2 : cas t (probe m j) RECYC m.val = (t, K) := by simp only [cas, hK, h2, if_false]
  simp only [e1, e2, h1, h2, h3, or_self, if_false, probe_succ]

theorem setLoop_spec (t : Tab) (m : Mac) (dst : Nat) : ∀ n j old,
    ((j = 0 ∧ old = FREE) ∨
      (0 < j ∧ old = (t.slot (probe m (j - 1))).key ∧ old ≠ FREE ∧ old ≠ RECYC ∧ old ≠ m.val)) →
    ((∀ k, j ≤ k → k < j + n → ¬ Stop t m k) ∧ setLoop m.val dst n t (probe m j) old = t) ∨
    (∃ k, j ≤ k ∧ k < j + n ∧ Stop t m k ∧ (∀ i, j ≤ i → i < k → ¬ Stop t m i) ∧
      setLoop m.val dst n t (probe m j) old = stopTab t m dst k)
  | 0, j, old, _ => Or.inl ⟨fun k h1 h2 => by omega, rfl⟩
  | n + 1, j, old, hold => by
    by_cases hs : Stop t m j
    · exact Or.inr ⟨j, Nat.le_refl _, by omega, hs, fun i h1 h2 => by omega, round_stop hold hs⟩
    · have hold' : (j = 0 ∧ old = FREE) ∨ (0 < j ∧ old = (t.slot (probe m (j - 1))).key) := by
        rcases hold with h | ⟨h1, h2, _⟩
        · exact Or.inl h
        · exact Or.inr ⟨h1, h2⟩
      rw [round_go hold' hs]
      have hs' := hs
      simp only [Stop, not_or] at hs'
      rcases setLoop_spec t m dst n (j + 1) (t.slot (probe m j)).key
        (Or.inr ⟨by omega, by simp, hs'.1, hs'.2.1, hs'.2.2.1⟩) with ⟨h1, h2⟩ | ⟨k, h1, h2, h3, h4, h5⟩
      · refine Or.inl ⟨fun k h3 h4 => ?_, h2⟩
        by_cases hk : k = j
        · rw [hk]; exact hs
        · exact h1 k (by omega) (by omega)
      · refine Or.inr ⟨k, by omega, by omega, h3, fun i h6 h7 => ?_, h5⟩
        by_cases hk : i = j
        · rw [hk]; exact hs
        · exact h4 i (by omega) h7

/-- The exact effect of `ofp_vxlan_set_mac_dst`. -/
theorem setMac_spec (t : Tab) (m : Mac) (dst : Nat) :
    ((∀ k, k < N → ¬ Stop t m k) ∧ setMac t m dst = t) ∨
    (∃ k, k < N ∧ Stop t m k ∧ (∀ i, i < k → ¬ Stop t m i) ∧ setMac t m dst = stopTab t m dst k) := by
  have := setLoop_spec t m dst N 0 FREE (Or.inl ⟨rfl, rfl⟩)
  rw [probe_zero] at this
  rcases this with ⟨h1, h2⟩ | ⟨k, _, h2, h3, h4, h5⟩
  · exact Or.inl ⟨fun k hk => h1 k (Nat.zero_le _) (by omega), h2⟩
  · exact Or.inr ⟨k, by omega, h3, fun i hi => h4 i (Nat.zero_le _) hi, h5⟩

/-- The loop of the look-up. -/
theorem getLoop_spec (t : Tab) (m : Mac) : ∀ n j,
    ((∀ k, j ≤ k → k < j + n → (t.slot (probe m k)).key ≠ m.val ∧ (t.slot (probe m k)).key ≠ FREE) ∧
      getLoop m.val t n (probe m j) = 0) ∨
    (∃ k, j ≤ k ∧ k < j + n ∧
      (∀ i, j ≤ i → i < k → (t.slot (probe m i)).key ≠ m.val ∧ (t.slot (probe m i)).key ≠ FREE) ∧
      (((t.slot (probe m k)).key = m.val ∧
          getLoop m.val t n (probe m j) = (t.slot (probe m k)).addr) ∨
        ((t.slot (probe m k)).key = FREE ∧ (t.slot (probe m k)).key ≠ m.val ∧
          getLoop m.val t n (probe m j) = 0)))
  | 0, j => Or.inl ⟨fun k h1 h2 => by omega, rfl⟩
  | n + 1, j => by
    simp only [getLoop, probe_succ]
    by_cases h1 : (t.slot (probe m j)).key = m.val
    · exact Or.inr ⟨j, Nat.le_refl _, by omega, fun i _ _ => by omega, Or.inl ⟨h1, by rw [if_pos h1]⟩⟩
    · by_cases h2 : (t.slot (probe m j)).key = FREE
      · exact Or.inr ⟨j, Nat.le_refl _, by omega, fun i _ _ => by omega,
          Or.inr ⟨h2, h1, by rw [if_neg h1, if_pos h2]⟩⟩
      · rw [if_neg h1, if_neg h2]
        rcases getLoop_spec t m n (j + 1) with ⟨h3, h4⟩ | ⟨k, h3, h4, h5, h6⟩
        · refine Or.inl ⟨fun k h5 h6 => ?_, h4⟩
          by_cases hk : k = j
          · rw [hk]; exact ⟨h1, h2⟩
          · exact h3 k (by omega) (by omega)
        · refine Or.inr ⟨k, by omega, by omega, fun i h7 h8 => ?_, h6⟩
          by_cases hk : i = j
          · rw [hk]; exact ⟨h1, h2⟩
          · exact h5 i (by omega) h8

/-- The first slot that answers for `m` is slot `k` of its probe sequence. -/
def Found (t : Tab) (m : Mac) (k : Nat) : Prop :=
  k < N ∧ (t.slot (probe m k)).key = m.val ∧
  ∀ i, i < k → (t.slot (probe m i)).key ≠ m.val ∧ (t.slot (probe m i)).key ≠ FREE

theorem get_found {t : Tab} {m : Mac} {k : Nat} (h : Found t m k) :
    getMac t m = (t.slot (probe m k)).addr := by
  have := getLoop_spec t m N 0
  rw [probe_zero] at this
  unfold getMac
  obtain ⟨hk, h1, h2⟩ := h
  rcases this with ⟨h3, _⟩ | ⟨i, _, h4, h5, h6⟩
  · exact absurd h1 (h3 k (Nat.zero_le _) (by omega)).1
  · have : i = k := by
      rcases Nat.lt_trichotomy i k with h | h | h
      · rcases h6 with ⟨e, _⟩ | ⟨e, _⟩
        · exact absurd e (h2 i h).1
        · exact absurd e (h2 i h).2
      · exact h
      · exact absurd h1 (h5 k (Nat.zero_le _) h).1
    subst this
    rcases h6 with ⟨_, e⟩ | ⟨_, e, _⟩
    · exact e
    · exact absurd h1 e

theorem get_cases (t : Tab) (m : Mac) :
    (getMac t m = 0 ∧ ∀ k, ¬ Found t m k) ∨ ∃ k, Found t m k := by
  have := getLoop_spec t m N 0
  rw [probe_zero] at this
  rcases this with ⟨h3, h4⟩ | ⟨i, _, h4, h5, h6⟩
  · exact Or.inl ⟨h4, fun k hk => (h3 k (Nat.zero_le _) (by have := hk.1; omega)).1 hk.2.1⟩
  · rcases h6 with ⟨e, _⟩ | ⟨e, e2, e3⟩
    · exact Or.inr ⟨i, by omega, e, fun j hj => h5 j (Nat.zero_le _) hj⟩
    · refine Or.inl ⟨e3, fun k hk => ?_⟩
      rcases Nat.lt_trichotomy i k with h | h | h
      · exact (hk.2.2 i h).2 e
      · subst h; exact e2 hk.2.1
      · exact (h5 k (Nat.zero_le _) h).1 hk.2.1

end Verif.Vxlan

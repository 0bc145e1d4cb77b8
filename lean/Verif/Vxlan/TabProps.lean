import Verif.Vxlan.TabInv
/-! # C175-C178: learning, answering and forgetting MAC addresses -/
namespace Verif.Vxlan

/-- Number of timer ticks in a history. -/
def ticks (ops : List Op) : Nat := ops.count .tick

/-! ## C175: a learned address is known -/

/-- Learning an address that is already known replaces the answer, in every state. -/
theorem relearn (t : Tab) (m : Mac) (d : Nat) (h : getMac t m ≠ 0) :
    getMac (setMac t m d) m = d := by
  rcases get_cases t m with ⟨e, _⟩ | ⟨k, hk, h1, h2⟩
  · exact absurd e h
  · have hs : Stop t m k := Or.inr (Or.inr (Or.inl h1))
    have fin : ∀ (t' : Tab) j, j ≤ k → (t'.slot (probe m j)).key = m.val →
        (t'.slot (probe m j)).addr = d → (∀ i, i ≠ j → i < N → t'.slot (probe m i) = t.slot (probe m i)) →
        getMac t' m = d := by
      intro t' j hj a1 a2 a3
      have : Found t' m j := ⟨by omega, a1, fun i hi => by
        rw [a3 i (by omega) (by omega)]; exact h2 i (by omega)⟩
      rw [get_found this, a2]
    rcases setMac_spec t m d with ⟨h3, _⟩ | ⟨j, j1, j2, j3, j4⟩
    · exact absurd hs (h3 k hk)
    · have hj : j ≤ k := by
        rcases Nat.lt_or_ge k j with c | c
        · exact absurd hs (j3 k c)
        · exact c
      rw [j4]
      have hne : ∀ i, i ≠ j → i < N → probe m i ≠ probe m j := fun i c1 c2 c3 =>
        c1 (probe_inj c2 j1 c3)
      unfold stopTab
      by_cases c : 0 < j ∧ (t.slot (probe m j)).key = FREE
      · rw [if_pos c]
        have hjk : j = k := by
          rcases Nat.lt_or_ge j k with x | x
          · exact absurd c.2 (h2 j x).2
          · omega
        apply fin _ j hj
        · rw [smear_key, hjk]; exact h1
        · unfold smear; rw [put_slot]
        · intro i c1 c2; unfold smear; exact put_other _ _ (hne i c1 c2)
      · rw [if_neg c]
        apply fin _ j hj
        · rw [fill_slot]
        · rw [fill_slot]
        · intro i c1 c2; exact fill_other _ _ _ (hne i c1 c2)

/-- Learning an address whose home slot is free, a tombstone, or its own, makes it known. -/
theorem learn_home (t : Tab) (m : Mac) (d : Nat)
    (h : (t.slot (home m)).key = FREE ∨ (t.slot (home m)).key = RECYC ∨
      (t.slot (home m)).key = m.val) :
    (setMac t m d).slot (home m) = ⟨m.val, d, (t.tick + AGE) % 2 ^ 32⟩ ∧
      getMac (setMac t m d) m = d := by
  have hs : Stop t m 0 := by
    unfold Stop; rw [probe_zero]
    rcases h with h | h | h
    · exact Or.inl h
    · exact Or.inr (Or.inl h)
    · exact Or.inr (Or.inr (Or.inl h))
  have e : setMac t m d = fill t m d (home m) := by
    rcases setMac_spec t m d with ⟨h3, _⟩ | ⟨j, j1, j2, j3, j4⟩
    · exact absurd hs (h3 0 N_pos)
    · have hj : j = 0 := by
        rcases Nat.eq_zero_or_pos j with c | c
        · exact c
        · exact absurd hs (j3 0 c)
      subst hj
      rw [j4, stopTab, if_neg (by omega), probe_zero]
  have hsl : (setMac t m d).slot (home m) = ⟨m.val, d, (t.tick + AGE) % 2 ^ 32⟩ := by
    rw [e, fill_slot]
  refine ⟨hsl, ?_⟩
  have hf : Found (setMac t m d) m 0 := ⟨N_pos, by rw [probe_zero, hsl], fun i hi => by omega⟩
  rw [get_found hf, probe_zero, hsl]

/-- Without collisions every occupied slot is the home of its address. -/
theorem homes_run {P : Mac → Prop} (hP : ∀ a b, P a → P b → home a = home b → a = b)
    {ops : List Op} : (∀ m, Learned ops m → P m) → ∀ {t : Tab},
    (∀ s, s < N → (t.slot s).key = FREE ∨ (t.slot s).key = RECYC ∨
      ∃ m, P m ∧ home m = s ∧ (t.slot s).key = m.val) →
    ∀ s, s < N → ((run t ops).slot s).key = FREE ∨ ((run t ops).slot s).key = RECYC ∨
      ∃ m, P m ∧ home m = s ∧ ((run t ops).slot s).key = m.val := by
  induction ops with
  | nil => intro _ t h; exact h
  | cons o ops ih =>
    intro hl t h
    rw [run_cons]
    refine ih (fun m ⟨d, hd⟩ => hl m ⟨d, List.mem_cons_of_mem _ hd⟩) ?_
    intro s hs
    cases o with
    | tick =>
      show ((tickTab t).slot s).key = FREE ∨ _
      rcases tick_slot t s with e | ⟨_, _, _, _, e⟩
      · simp only [step]; rw [e]; exact h s hs
      · simp only [step]; rw [e]; exact Or.inr (Or.inl rfl)
    | set m d =>
      have hm := hl m ⟨d, List.mem_cons_self⟩
      have hh : (t.slot (home m)).key = FREE ∨ (t.slot (home m)).key = RECYC ∨
          (t.slot (home m)).key = m.val := by
        rcases h (home m) (home_lt m) with a | a | ⟨m', p, q, r⟩
        · exact Or.inl a
        · exact Or.inr (Or.inl a)
        · rw [hP m' m p hm q] at r; exact Or.inr (Or.inr r)
      simp only [step]
      by_cases c : s = home m
      · subst c
        rw [(learn_home t m d hh).1]
        exact Or.inr (Or.inr ⟨m, hm, rfl, rfl⟩)
      · have : (setMac t m d).slot s = t.slot s := by
          rcases set_effect t m d with e | ⟨k, _, k1, _, k3, e⟩ | ⟨k, _, k2, _, k3, e⟩
          · rw [e]
          · exfalso
            apply k3 0 k1
            unfold Stop; rw [probe_zero]
            rcases hh with a | a | a
            · exact Or.inl a
            · exact Or.inr (Or.inl a)
            · exact Or.inr (Or.inr (Or.inl a))
          · rw [e]
            apply fill_other
            intro c2
            rcases Nat.eq_zero_or_pos k with z | z
            · subst z; rw [probe_zero] at c2; exact c c2
            · apply k3 0 z
              unfold Stop; rw [probe_zero]
              rcases hh with a | a | a
              · exact Or.inl a
              · exact Or.inr (Or.inl a)
              · exact Or.inr (Or.inr (Or.inl a))
        rw [this]
        exact h s hs

/-- C175, the part that holds: as long as no two learned MAC addresses share the hash (the low 13
bits of the last two bytes), a learned address is known afterwards, whatever the history.
The full property needs no condition on the hashes; see `learned_is_known_violated`. -/
theorem learned_is_known_partial (ops : List Op) (m : Mac) (d : Nat)
    (h : ∀ a b, Learned (ops ++ [.set m d]) a → Learned (ops ++ [.set m d]) b → home a = home b → a = b) :
    getMac (run init (ops ++ [.set m d])) m = d := by
  rw [run_snoc]
  have hm : Learned (ops ++ [.set m d]) m := ⟨d, by simp⟩
  have hh := homes_run (P := Learned (ops ++ [.set m d])) h (ops := ops)
    (fun x ⟨e, he⟩ => ⟨e, by simp [he]⟩) (t := init) (fun s _ => Or.inl rfl) (home m) (home_lt m)
  refine (learn_home _ m d ?_).2
  rcases hh with a | a | ⟨m', p, q, r⟩
  · exact Or.inl a
  · exact Or.inr (Or.inl a)
  · rw [h m' m p hm q] at r; exact Or.inr (Or.inr r)

/-- Two MAC addresses with the same last two bytes: 02:00:00:00:00:05 and 04:00:00:00:00:05. -/
def macA : Mac := ⟨0x050000000002, by decide⟩
def macB : Mac := ⟨0x050000000004, by decide⟩

example : home macA = home macB ∧ macA ≠ macB ∧ macA ≠ 0 ∧ macB ≠ 0 := by decide +kernel

/-- Two addresses with different last bytes satisfy the hypothesis. -/
example : getMac (run init ([.set macA 7, .tick] ++ [.set 0x060000000002 9])) 0x060000000002 = 9 := by
  apply learned_is_known_partial
  rintro a b ⟨d, hd⟩ ⟨e, he⟩ hab
  simp at hd he
  rcases hd with ⟨rfl, _⟩ | ⟨rfl, _⟩ <;> rcases he with ⟨rfl, _⟩ | ⟨rfl, _⟩
  · rfl
  · exact absurd hab (by decide +kernel)
  · exact absurd hab (by decide +kernel)
  · rfl

theorem second_lost (t : Tab) (m : Mac) (d : Nat) (hm : m ≠ 0)
    (h1 : (t.slot (home m)).key ≠ FREE) (h2 : (t.slot (home m)).key ≠ RECYC)
    (h3 : (t.slot (home m)).key ≠ m.val) (h4 : (t.slot ((home m + 1) % N)).key = FREE) :
    (∀ s, ((setMac t m d).slot s).key = (t.slot s).key) ∧ getMac (setMac t m d) m = 0 := by
  have hp1 : probe m 1 = (home m + 1) % N := rfl
  have hk : ∀ s, ((setMac t m d).slot s).key = (t.slot s).key := by
    intro s
    rcases set_effect t m d with e | ⟨k, _, _, _, _, e⟩ | ⟨k, _, k2, k4, k3, e⟩
    · rw [e]
    · rw [e, smear_key]
    · exfalso
      rcases Nat.lt_trichotomy k 1 with c | c | c
      · have : k = 0 := by omega
        subst this
        unfold Stop at k2; rw [probe_zero] at k2
        rcases k2 with x | x | x | x
        · exact h1 x
        · exact h2 x
        · exact h3 x
        · omega
      · subst c; exact k4 (by omega) (by rw [hp1]; exact h4)
      · exact k3 1 c (Or.inl (by rw [hp1]; exact h4))
  refine ⟨hk, get_unknown fun k ⟨_, f1, f2⟩ => ?_⟩
  rw [hk] at f1
  rcases Nat.lt_trichotomy k 1 with c | c | c
  · have : k = 0 := by omega
    subst this; rw [probe_zero] at f1; exact h3 f1
  · subst c; rw [hp1, h4] at f1; exact nz hm f1.symm
  · apply (f2 1 c).2; rw [hk, hp1]; exact h4

/-- C175 refuted: once 02:00:00:00:00:05 has been learned, 04:00:00:00:00:05 is never learned,
however often frames from it arrive: the second slot gets the address but not the key. -/
theorem learned_is_known_violated (a b n : Nat) :
    getMac (run init (.set macA a :: List.replicate (n + 1) (.set macB b))) macB = 0 := by
  have key : ∀ n (t : Tab), (t.slot (home macB)).key = macA.val →
      (t.slot ((home macB + 1) % N)).key = FREE →
      getMac (run t (List.replicate (n + 1) (.set macB b))) macB = 0 := by
    intro n
    induction n with
    | zero =>
      intro t h1 h2
      exact (second_lost t macB b (by decide) (by rw [h1]; decide) (by rw [h1]; decide)
        (by rw [h1]; decide) h2).2
    | succ n ih =>
      intro t h1 h2
      rw [List.replicate_succ, run_cons]
      have := second_lost t macB b (by decide) (by rw [h1]; decide) (by rw [h1]; decide)
        (by rw [h1]; decide) h2
      exact ih _ (by rw [← h1]; exact this.1 _) (by rw [← h2]; exact this.1 _)
  rw [run_cons]
  have hl := learn_home init macA a (Or.inl rfl)
  have hAB : home macB = home macA := by decide +kernel
  refine key n _ ?_ ?_
  · rw [hAB]; show ((setMac init macA a).slot (home macA)).key = _; rw [hl.1]
  · refine free_run (ops := [.set macA a]) (t := init) ?_ (Nat.mod_lt _ N_pos) rfl
    rintro m ⟨d, hd⟩
    simp at hd
    rw [hd.1]
    decide +kernel

/-! ## C176: answers are learned -/

/-- Every slot that holds a key `k` holds an address that was learned for `k`. -/
theorem learned_run {ops : List Op} : ∀ {t : Tab} {L : List Op},
    (∀ s, (t.slot s).key = FREE ∨ (t.slot s).key = RECYC ∨
      ∃ m, (t.slot s).key = m.val ∧ Op.set m (t.slot s).addr ∈ L) →
    ∀ s, ((run t ops).slot s).key = FREE ∨ ((run t ops).slot s).key = RECYC ∨
      ∃ m, ((run t ops).slot s).key = m.val ∧ Op.set m ((run t ops).slot s).addr ∈ L ++ ops := by
  induction ops with
  | nil => intro t L h; rw [List.append_nil]; exact h
  | cons o ops ih =>
    intro t L h
    have : L ++ o :: ops = (L ++ [o]) ++ ops := by simp
    rw [run_cons, this]
    apply ih
    intro s
    cases o with
    | tick =>
      simp only [step]
      rcases tick_slot t s with e | ⟨_, _, _, _, e⟩
      · rw [e]
        rcases h s with a | a | ⟨m, a, b⟩
        · exact Or.inl a
        · exact Or.inr (Or.inl a)
        · exact Or.inr (Or.inr ⟨m, a, by simp [b]⟩)
      · rw [e]; exact Or.inr (Or.inl rfl)
    | set m d =>
      simp only [step]
      have old : (t.slot s).key = FREE ∨ (t.slot s).key = RECYC ∨
          ∃ m', (t.slot s).key = m'.val ∧ Op.set m' (t.slot s).addr ∈ L ++ [Op.set m d] := by
        rcases h s with a | a | ⟨m', a, b⟩
        · exact Or.inl a
        · exact Or.inr (Or.inl a)
        · exact Or.inr (Or.inr ⟨m', a, by simp [b]⟩)
      rcases set_effect t m d with e | ⟨k, _, _, k2, _, e⟩ | ⟨k, _, _, _, _, e⟩
      · rw [e]; exact old
      · rw [e]
        by_cases c : s = probe m k
        · left; rw [smear_key, c]; exact k2
        · have : (smear t d (probe m k)).slot s = t.slot s := put_other _ _ c
          rw [this]; exact old
      · rw [e]
        by_cases c : s = probe m k
        · right; right
          rw [c, fill_slot]
          exact ⟨m, rfl, by simp⟩
        · rw [fill_other _ _ _ c]; exact old

/-- C176: for every history and every MAC address other than 00:00:00:00:00:00, a non-zero answer
is an address that was learned for exactly that MAC address. -/
theorem answers_are_learned_partial (ops : List Op) (m : Mac) (hm : m ≠ 0) :
    getMac (run init ops) m = 0 ∨ Op.set m (getMac (run init ops) m) ∈ ops := by
  rcases get_cases (run init ops) m with ⟨e, _⟩ | ⟨k, hk⟩
  · exact Or.inl e
  · right
    rw [get_found hk]
    rcases learned_run (ops := ops) (t := init) (L := []) (fun s => Or.inl rfl) (probe m k) with
      a | a | ⟨m', a, b⟩
    · rw [hk.2.1] at a; exact absurd a (nz hm)
    · rw [hk.2.1] at a; exact absurd a (RECYC_ne m)
    · rw [hk.2.1] at a
      rw [← Fin.ext a] at b
      simpa using b

/-- Two MAC addresses that hash to slot 0. -/
def mac0A : Mac := ⟨2, by decide⟩
def mac0B : Mac := ⟨4, by decide⟩

/-- C176 refuted for the all-zero MAC address: it answers with the end point of the lost address. -/
theorem answers_are_learned_violated (a b : Nat) :
    getMac (run init [.set mac0A a, .set mac0B b]) 0 = b ∧
      ∀ d, Op.set (0 : Mac) d ∉ [Op.set mac0A a, .set mac0B b] := by
  refine ⟨?_, fun d h => ?_⟩
  · simp only [run, List.foldl, step]
    have e0 : home mac0A = 0 := by decide +kernel
    have e0' : home mac0B = 0 := by decide +kernel
    have ez : home (0 : Mac) = 0 := by decide +kernel
    have e1 : setMac init mac0A a = fill init mac0A a 0 := by
      simp [setMac, e0, N, setLoop, cas, init, FREE, store, Tab.put, fill]
      funext j; by_cases hj : j = 0 <;> simp [hj]
    rw [e1]
    have e2 : setMac (fill init mac0A a 0) mac0B b =
        smear (fill init mac0A a 0) b 1 := by
      have : setMac (fill init mac0A a 0) mac0B b =
          setLoop mac0B.val b (8190 + 1 + 1) (fill init mac0A a 0) 0 FREE := by
        unfold setMac; rw [e0']; rfl
      have hA : mac0A.val = 2 := rfl
      have hB : mac0B.val = 4 := rfl
      rw [this, hB]
      simp [setLoop, cas, fill, Tab.put, init, FREE, hA, RECYC, N, store, smear]
    rw [e2]
    have : getMac (smear (fill init mac0A a 0) b 1) 0 =
        getLoop 0 (smear (fill init mac0A a 0) b 1) (8190 + 1 + 1) 0 := by
      unfold getMac; rw [ez]; rfl
    rw [this]
    simp [getLoop, smear, fill, Tab.put, init, FREE, mac0A, N]
  · simp at h
    rcases h with ⟨h, _⟩ | ⟨h, _⟩
    · exact absurd h (by decide)
    · exact absurd h (by decide)

end Verif.Vxlan

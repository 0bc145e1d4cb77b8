import Verif.Vxlan.TabProps
/-! # C177, C178: independence of the entries, and their life time -/
namespace Verif.Vxlan

/-! ## C177 -/

/-- C177: with fewer than 8192 different learned addresses, and never the all-zero address,
learning one address does not change the answer for another one. -/
theorem learn_is_isolated_partial (ops : List Op) (m m' : Mac) (d : Nat) (hm : m ≠ 0) (hm' : m' ≠ 0)
    (hne : m' ≠ m) (hz : ¬ Learned ops 0) (F : Finset Mac) (hF : ∀ x, Learned ops x → x ∈ F)
    (hc : F.card < N) :
    getMac (run init (ops ++ [.set m' d])) m = getMac (run init ops) m := by
  rw [run_snoc]
  have hi := inv_run hz inv_init
  have hfree := free_exists hF hc
  simp only [step]
  rcases get_cases (run init ops) m with ⟨e, h⟩ | ⟨k, hk⟩
  · rw [e]
    exact get_unknown (set_keeps_unknown hi hm hne d h)
  · obtain ⟨h1, h2⟩ := set_keeps_found hi hfree hm hm' hne d hk
    rw [get_found h1, h2, get_found hk]

/-- The hypotheses are met by two colliding addresses. -/
example : getMac (run init ([.set macA 7] ++ [.set macB 9])) macA =
    getMac (run init [.set macA 7]) macA := by
  apply learn_is_isolated_partial (F := {macA})
  · decide
  · decide
  · decide
  · rintro ⟨d, hd⟩; simp at hd; exact absurd hd.1 (by decide)
  · rintro x ⟨d, hd⟩; simp at hd; simp [hd.1]
  · decide

/-! ## C178 -/

theorem step_tick_val {ops : List Op} : ∀ {t : Tab}, t.tick + ticks ops < 2 ^ 32 →
    (run t ops).tick = t.tick + ticks ops := by
  induction ops with
  | nil => intro t _; rfl
  | cons o ops ih =>
    intro t h
    rw [run_cons]
    cases o with
    | tick =>
      have e : ticks (Op.tick :: ops) = ticks ops + 1 := by simp [ticks]
      rw [e] at h ⊢
      have e2 : (step t .tick).tick = t.tick + 1 := by
        simp only [step, tickTab]; exact Nat.mod_eq_of_lt (by omega)
      rw [ih (by rw [e2]; omega), e2]; omega
    | set m d =>
      have e : ticks (Op.set m d :: ops) = ticks ops := by simp [ticks]
      rw [e] at h ⊢
      have e2 : (step t (.set m d)).tick = t.tick := set_tick t m d
      rw [ih (by rw [e2]; omega), e2]

theorem ticks_snoc_tick (ops : List Op) : ticks (ops ++ [.tick]) = ticks ops + 1 := by
  simp [ticks]
theorem ticks_snoc_set (ops : List Op) (m : Mac) (d : Nat) :
    ticks (ops ++ [.set m d]) = ticks ops := by
  simp [ticks]

/-- The timer keeps the answering slot as long as it has not expired. -/
theorem tick_keeps_found {t : Tab} {m : Mac} {k : Nat} (h : Found t m k)
    (hx : t.tick ≤ (t.slot (probe m k)).tmo + AGE) :
    Found (tickTab t) m k ∧ (tickTab t).slot (probe m k) = t.slot (probe m k) := by
  obtain ⟨hk, h1, h2⟩ := h
  have main : (tickTab t).slot (probe m k) = t.slot (probe m k) := by
    rcases tick_slot t (probe m k) with e | ⟨_, _, _, e, _⟩
    · exact e
    · omega
  refine ⟨⟨hk, by rw [main]; exact h1, fun i hi => ⟨?_, tick_nonfree _ (h2 i hi).2⟩⟩, main⟩
  rcases tick_slot t (probe m i) with e | ⟨_, _, _, _, e⟩
  · rw [e]; exact (h2 i hi).1
  · rw [e]; exact fun c => RECYC_ne m c.symm

/-- Right after learning `m`, the slot that answers for `m` is the one just written. -/
theorem fresh_slot {t : Tab} {m : Mac} {d k : Nat} (hm : m ≠ 0) (h : Found (setMac t m d) m k) :
    (setMac t m d).slot (probe m k) = ⟨m.val, d, (t.tick + AGE) % 2 ^ 32⟩ := by
  obtain ⟨hk, h1, h2⟩ := h
  rcases setMac_spec t m d with ⟨h3, e⟩ | ⟨j, j1, j2, j3, e⟩
  · rw [e] at h1
    exact absurd (Or.inr (Or.inr (Or.inl h1))) (h3 k hk)
  · unfold stopTab at e
    by_cases c : 0 < j ∧ (t.slot (probe m j)).key = FREE
    · rw [if_pos c] at e
      rw [e, smear_key] at h1
      rcases Nat.lt_trichotomy k j with x | x | x
      · exact absurd (Or.inr (Or.inr (Or.inl h1))) (j3 k x)
      · subst x; rw [c.2] at h1; exact absurd h1.symm (nz hm)
      · have := (h2 j x).2
        rw [e, smear_key] at this
        exact absurd c.2 this
    · rw [if_neg c] at e
      rcases Nat.lt_trichotomy k j with x | x | x
      · rw [e, fill_other _ _ _ (fun y => absurd (probe_inj hk j1 y) (by omega))] at h1
        exact absurd (Or.inr (Or.inr (Or.inl h1))) (j3 k x)
      · subst x; rw [e, fill_slot]
      · have := (h2 j x).1
        rw [e, fill_slot] at this
        exact absurd rfl this

/-- C178, first half: an answer given just after learning stays the same for two hours (360000
ticks), whatever else is learned, as long as nobody learns the address again, the table has a free
slot, the all-zero address is never learned, and the 32-bit tick counter (2.7 years) does not
wrap. -/
theorem known_for_two_hours_partial (ops later : List Op) (m : Mac) (d : Nat) (hm : m ≠ 0)
    (hz : ¬ Learned (ops ++ [.set m d] ++ later) 0) (F : Finset Mac)
    (hF : ∀ x, Learned (ops ++ [.set m d] ++ later) x → x ∈ F) (hc : F.card < N)
    (hd : getMac (run init (ops ++ [.set m d])) m ≠ 0)
    (hno : ¬ Learned later m) (ht : ticks later ≤ 2 * AGE)
    (hw : ticks ops + 2 * AGE < 2 ^ 32) :
    getMac (run init (ops ++ [.set m d] ++ later)) m = d := by
  obtain ⟨k, hk⟩ : ∃ k, Found (run init (ops ++ [.set m d])) m k := by
    rcases get_cases (run init (ops ++ [.set m d])) m with ⟨e, _⟩ | h
    · exact absurd e hd
    · exact h
  have hT0 : (run init ops).tick = ticks ops := by
    rw [step_tick_val (t := init) (by simp only [init]; omega)]; simp [init]
  have hs : (run init (ops ++ [.set m d])).slot (probe m k) = ⟨m.val, d, ticks ops + AGE⟩ := by
    rw [run_snoc] at hk ⊢
    have := fresh_slot hm hk
    rw [hT0, Nat.mod_eq_of_lt (by omega)] at this
    exact this
  have hd' : ((run init (ops ++ [.set m d])).slot (probe m k)).addr = d := by rw [hs]
  have htm : ((run init (ops ++ [.set m d])).slot (probe m k)).tmo = ticks ops + AGE := by rw [hs]
  have key : ∀ l rest, later = l ++ rest →
      Found (run init (ops ++ [.set m d] ++ l)) m k ∧
      (run init (ops ++ [.set m d] ++ l)).slot (probe m k) =
        (run init (ops ++ [.set m d])).slot (probe m k) := by
    intro l
    induction l using List.reverseRecOn with
    | nil => intro rest _; rw [List.append_nil]; exact ⟨hk, rfl⟩
    | append_singleton l o ih =>
      intro rest he
      obtain ⟨i1, i2⟩ := ih (o :: rest) (by simp [he])
      rw [← List.append_assoc, run_snoc]
      have sub : ∀ x, Learned (ops ++ [.set m d] ++ l) x → Learned (ops ++ [.set m d] ++ later) x := by
        rintro x ⟨e, hx⟩
        refine ⟨e, ?_⟩
        rw [he]; simp at hx ⊢
        rcases hx with a | a | a
        · exact Or.inl a
        · exact Or.inr (Or.inl a)
        · exact Or.inr (Or.inr (Or.inl a))
      cases o with
      | tick =>
        have hT : (run init (ops ++ [.set m d] ++ l)).tick = ticks ops + ticks l := by
          have e2 : ticks (ops ++ [.set m d] ++ l) = ticks ops + ticks l := by
            simp [ticks]
          have e3 : ticks later = ticks l + 1 + ticks rest := by
            rw [he]; simp [ticks]; omega
          rw [step_tick_val (t := init) (by rw [e2]; simp only [init]; omega), e2]
          simp [init]
        have e3 : ticks later = ticks l + 1 + ticks rest := by
          rw [he]; simp [ticks]; omega
        have := tick_keeps_found i1 (by rw [i2, htm, hT]; omega)
        exact ⟨this.1, this.2.trans i2⟩
      | set m' d' =>
        have hmem : Op.set m' d' ∈ later := by rw [he]; simp
        have n1 : m' ≠ 0 := by
          rintro rfl; exact hz ⟨d', by simp [hmem]⟩
        have n2 : m' ≠ m := by
          rintro rfl; exact hno ⟨d', hmem⟩
        have := set_keeps_found (inv_run (fun h => hz (sub 0 h)) inv_init)
          (free_exists (fun x hx => hF x (sub x hx)) hc) hm n1 n2 d' i1
        exact ⟨this.1, this.2.trans i2⟩
  obtain ⟨f1, f2⟩ := key later [] (by simp)
  rw [get_found f1, f2]
  exact hd'

end Verif.Vxlan

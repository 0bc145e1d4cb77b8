import Verif.Mtrie.Inv
/-! # One level of an insertion or removal preserves the invariant -/
namespace Verif.Mtrie

variable {s : St} {lab : Nat → Option (Nat × Nat × Nat)} {T T' : Rules} {cE cR K F : Nat}

theorem Inv.start (h : Inv s lab T T cE cR K F) (T' : Rules) : Inv s lab T T' 0 0 K F := by
  refine ⟨h.lv, h.root, h.par, ?_, h.chl, ?_, h.refle, h.free⟩
  · intro n v low p hl i hi
    have := h.ent n v low p hl i hi
    simpa using this
  · intro n v low p hl L hn hu
    refine h.ref n v low p hl L hn (fun k hk => ?_)
    have := hu k hk
    simpa using this

theorem Inv.mono (h : Inv s lab T T' cE cR K F) {K' : Nat} (hk : K ≤ K') : Inv s lab T T' cE cR K' F :=
  ⟨h.lv, h.root, h.par, h.ent, h.chl, h.ref, fun n => Nat.le_trans (h.refle n) hk, h.free⟩

theorem under_of (v low p a m : Nat) (hu : Upd T T' v a m) (v' : Nat) (k : Nat × Nat) (h : Under T' v' low p k)
    (hne : ¬ (v' = v ∧ k = (a, m))) : Under T v' low p k := by
  obtain ⟨h1, h2, h3, h4, h5, h6⟩ := h
  refine ⟨h1, h2, h3, h4, h5, ?_⟩
  rwa [hu v' k.1 k.2 (fun hh => hne ⟨hh.1, Prod.ext hh.2.1 hh.2.2⟩)] at h6

theorem level_lt {low low' : Nat} (h : low = 0 ∨ low = 16 ∨ low = 24) (h' : low' = 0 ∨ low' = 16 ∨ low' = 24) :
    low' < hiOf low ↔ low' ≤ low := by
  unfold hiOf
  rcases h with rfl | rfl | rfl <;> rcases h' with rfl | rfl | rfl <;> decide

theorem add_mul_inj {p p' i i' k : Nat} (hi : i < k) (hi' : i' < k) (h : p * k + i = p' * k + i') : p = p' ∧ i = i' := by
  have hk : 0 < k := by omega
  have e1 : (p * k + i) / k = p := by rw [Nat.add_comm, Nat.add_mul_div_right _ _ hk, Nat.div_eq_of_lt hi, Nat.zero_add]
  have e2 : (p' * k + i') / k = p' := by rw [Nat.add_comm, Nat.add_mul_div_right _ _ hk, Nat.div_eq_of_lt hi', Nat.zero_add]
  have : p = p' := by rw [← e1, ← e2, h]
  subst this
  exact ⟨rfl, by omega⟩

theorem Inv.root_of (h : Inv s lab T T' cE cR K F) {n v p : Nat} (e : lab n = some (v, 0, p)) : n = v ∧ p = 0 := by
  have := h.root n ((h.lv n v 0 p e).2.2.2 rfl)
  rw [this] at e
  cases e
  exact ⟨rfl, rfl⟩

/-- Two tables in use do not stand for the same addresses. -/
theorem Inv.inj (h : Inv s lab T T' cE cR K F) : ∀ n n' l, lab n = some l → lab n' = some l → n = n' := by
  have step : ∀ n n' v low p, low ≠ 0 →
      (∀ m m' q, lab m = some (v, (if low = 16 then 0 else 16), q) → lab m' = some (v, (if low = 16 then 0 else 16), q) → m = m') →
      lab n = some (v, low, p) → lab n' = some (v, low, p) → n = n' := by
    intro n n' v low p h0 ih e1 e2
    obtain ⟨m, lw, q, i, a1, a2, a3, a4, a5⟩ := h.par n v low p e1 h0
    obtain ⟨m', lw', q', i', b1, b2, b3, b4, b5⟩ := h.par n' v low p e2 h0
    have l1 := (h.lv m v lw q a1).1
    have l2 := (h.lv m' v lw' q' b1).1
    have l3 := (h.lv n v low p e1).1
    have : lw = (if low = 16 then 0 else 16) ∧ lw' = (if low = 16 then 0 else 16) := by
      rcases l1 with rfl | rfl | rfl <;> rcases l2 with rfl | rfl | rfl <;> rcases l3 with rfl | rfl | rfl <;>
        simp [hiOf] at a2 b2 ⊢
    obtain ⟨r1, r2⟩ := this
    subst r1
    subst r2
    obtain ⟨rfl, rfl⟩ := add_mul_inj a3 b3 (a4.symm.trans b4)
    have := ih m m' q a1 b1
    subst this
    rw [a5] at b5
    cases b5
    rfl
  have s0 : ∀ n n' v p, lab n = some (v, 0, p) → lab n' = some (v, 0, p) → n = n' := by
    intro n n' v p e1 e2
    rw [(h.root_of e1).1, (h.root_of e2).1]
  have s16 : ∀ n n' v p, lab n = some (v, 16, p) → lab n' = some (v, 16, p) → n = n' := by
    intro n n' v p e1 e2
    exact step n n' v 16 p (by decide) (fun m m' q => s0 m m' v q) e1 e2
  rintro n n' ⟨v, low, p⟩ e1 e2
  rcases (h.lv n v low p e1).1 with rfl | rfl | rfl
  · exact s0 n n' v p e1 e2
  · exact s16 n n' v p e1 e2
  · exact step n n' v 24 p (by decide) (fun m m' q => s16 m m' v q) e1 e2

/-- Changing reference counters only. -/
theorem inv_refs (h : Inv s lab T T' cE cR K F) (r : Nat → Nat) (cR' K' : Nat)
    (h1 : ∀ n v low p, lab n = some (v, low, p) → ∀ L : List (Nat × Nat), L.Nodup →
      (∀ k ∈ L, Under (if low < cR' then T' else T) v low p k) → L.length ≤ r n)
    (h2 : ∀ n, r n ≤ K') : Inv { s with ref := r } lab T T' cE cR' K' F :=
  ⟨h.lv, h.root, h.par, h.ent, h.chl, h1, h2, by
    obtain ⟨l, l1, l2, l3, l4, l5⟩ := h.free
    refine ⟨l, l1, l2, l3, ?_, l5⟩
    clear l1 l2 l3 l5
    induction l with
    | nil => trivial
    | cons x xs ih =>
      cases xs with
      | nil => exact l4
      | cons y ys => exact ⟨l4.1, ih l4.2⟩⟩

/-- `inc_use_reference` on the way down of an insertion. -/
theorem Inv.inc (h : Inv s lab T T' cE low K F) (v a m n : Nat) (hl : lab n = some (v, low, blk a low))
    (hu : Upd T T' v a m) (hK : K + 1 < 2 ^ 16) : Inv (incRef s n) lab T T' cE (hiOf low) (K + 1) F := by
  have hlow := (h.lv n v low _ hl).1
  have hr : incRef s n = { s with ref := fun n' => if n' = n then s.ref n + 1 else s.ref n' } := by
    unfold incRef St.setRef
    rw [Nat.mod_eq_of_lt]
    have := h.refle n
    omega
  rw [hr]
  apply inv_refs h
  · intro n' v' low' p' hl' L hnd hL
    have hlow' := (h.lv n' v' low' p' hl').1
    simp only [level_lt hlow hlow'] at hL
    by_cases hlt : low' < low
    · rw [if_pos (by omega)] at hL
      have := h.ref n' v' low' p' hl' L hnd (by rw [if_pos hlt]; exact hL)
      split
      · next hh => subst hh; omega
      · exact this
    · by_cases heq : low' = low
      · subst heq
        rw [if_pos (Nat.le_refl _)] at hL
        by_cases hn : n' = n
        · subst hn
          rw [hl'] at hl
          cases hl
          simp only [if_true]
          have := h.ref n' v low' _ hl' (L.erase (a, m)) (hnd.erase _) (by
            rw [if_neg (by omega)]
            intro k hk
            rw [hnd.mem_erase_iff] at hk
            exact under_of v low' _ a m hu v k (hL k hk.2) (fun hh => hk.1 hh.2))
          have := List.length_erase_le (a := (a, m)) (l := L)
          have hle : L.length ≤ (L.erase (a, m)).length + 1 := by
            rw [List.length_erase]; split <;> omega
          omega
        · simp only [if_neg hn]
          refine h.ref n' v' low' p' hl' L hnd ?_
          rw [if_neg (by omega)]
          intro k hk
          refine under_of v low' _ a m hu v' k (hL k hk) (fun hh => hn ?_)
          obtain ⟨rfl, hk2⟩ := hh
          have := (hL k hk).2.2.2.2.1
          rw [hk2] at this
          simp only at this
          subst this
          exact h.inj n' n _ hl' hl
      · rw [if_neg (by omega)] at hL
        have := h.ref n' v' low' p' hl' L hnd (by rw [if_neg hlt]; exact hL)
        split
        · next hh => subst hh; rw [hl'] at hl; cases hl; exact absurd rfl heq
        · exact this
  · intro n'
    have := h.refle n'
    split
    · next hh => subst hh; omega
    · omega

/-- `dec_use_reference` on the way down of a removal, when the table stays in use. -/
theorem Inv.dec (h : Inv s lab T T' cE low K F) (v a m n : Nat) (hl : lab n = some (v, low, blk a low))
    (hu : Upd T T' v a m) (hK : K < 2 ^ 16) (hun : Under T v low (blk a low) (a, m)) (hT' : T' v a m = none)
    (hq : n < s.roots ∨ 2 ≤ s.ref n) : Inv (decRef s n) lab T T' cE (hiOf low) K F ∧
      decRef s n = { s with ref := fun n' => if n' = n then s.ref n - 1 else s.ref n' } := by
  have hlow := (h.lv n v low _ hl).1
  have hpos : ∀ L : List (Nat × Nat), L.Nodup → (∀ k ∈ L, Under T' v low (blk a low) k) → L.length + 1 ≤ s.ref n := by
    intro L hnd hL
    have hnk : (a, m) ∉ L := fun hk => (hL _ hk).2.2.2.2.2 hT'
    have := h.ref n v low _ hl ((a, m) :: L) (List.nodup_cons.2 ⟨hnk, hnd⟩) (by
      rw [if_neg (by omega)]
      intro k hk
      rcases List.mem_cons.1 hk with rfl | hk
      · exact hun
      · exact under_of v low _ a m hu v k (hL k hk) (fun hh => hnk (hh.2 ▸ hk)))
    simpa using this
  have h1 : 1 ≤ s.ref n := by have := hpos [] List.nodup_nil (by simp); simpa using this
  have hle := h.refle n
  have hr : decRef s n = { s with ref := fun n' => if n' = n then s.ref n - 1 else s.ref n' } := by
    have e : (s.ref n + 2 ^ 16 - 1) % 2 ^ 16 = s.ref n - 1 := by omega
    unfold decRef
    simp only [e]
    have e2 : (s.setRef n (s.ref n - 1)).ref n = s.ref n - 1 := by simp [St.setRef]
    rw [e2]
    split
    · next h0 =>
      have hroot : n < s.roots := by omega
      unfold nodeFree
      rw [if_pos (show n < (s.setRef n (s.ref n - 1)).roots from hroot)]
      rfl
    · rfl
  refine ⟨?_, hr⟩
  rw [hr]
  apply inv_refs h
  · intro n' v' low' p' hl' L hnd hL
    have hlow' := (h.lv n' v' low' p' hl').1
    simp only [level_lt hlow hlow'] at hL
    by_cases hn : n' = n
    · subst hn
      rw [hl'] at hl
      cases hl
      rw [if_pos (Nat.le_refl _)] at hL
      simp only [if_true]
      have := hpos L hnd hL
      omega
    · simp only [if_neg hn]
      refine h.ref n' v' low' p' hl' L hnd ?_
      intro k hk
      have := hL k hk
      by_cases hlt : low' < low
      · rw [if_pos (by omega)] at this; rw [if_pos hlt]; exact this
      · rw [if_neg hlt]
        by_cases heq : low' = low
        · subst heq
          rw [if_pos (Nat.le_refl _)] at this
          exact under_of v low' _ a m hu v' k this (fun hh => by rw [hh.2] at this; rw [hh.1] at this; exact this.2.2.2.2.2 hT')
        · rw [if_neg (by omega)] at this; exact this
  · intro n'
    have := h.refle n'
    split
    · next hh => subst hh; omega
    · omega

/-- Addresses inside a route deeper than `high` are in the block of the route. -/
theorem blk_of_net (x a m high : Nat) (h : net x m = a) (hm : high ≤ m) (hm2 : m ≤ 32) : blk x high = blk a high := by
  rw [← h, blk_netle x high m hm hm2]

/-- Elements at levels above the route, on and off its path, are right for the new rules too. -/
theorem EntOK.upd {v low high q : Nat} {e : Ent} (h : EntOK T v low high q e) (hu : Upd T T' v' a m) (hlow : low < high)
    (hm : high < m) (hm2 : m ≤ 32)
    (hp : v = v' → q = blk a high → T' v' a m ≠ none → e.masklen ≠ 0 ∧ e.next ≠ none) : EntOK T' v low high q e := by
  refine h.congr ?_ ?_ (Nat.le_of_lt hlow)
  · intro x hx hb k hk hk'
    exact hu _ _ _ (fun hh => by omega)
  · intro hz x hx hb k hk hk' hT
    by_cases hc : v = v' ∧ net x k = a ∧ k = m
    · obtain ⟨rfl, h2, rfl⟩ := hc
      rw [h2]
      cases hv : T' v a k with
      | none => rfl
      | some d =>
        have hq : q = blk a high := by rw [← hb]; exact blk_of_net x a k high h2 (by omega) hk'
        have := hp rfl hq (by rw [hv]; intro hh; cases hh)
        rcases hz with hz | hz
        · exact absurd hz this.1
        · exact absurd hz this.2
    · rw [hu _ _ _ hc]; exact hT

/-- Lifting the cut for elements over a level above the route. -/
theorem Inv.liftE (h : Inv s lab T T' low cR K F) (hlow : low = 0 ∨ low = 16 ∨ low = 24) (v a m : Nat)
    (hu : Upd T T' v a m) (hm : hiOf low < m) (hm2 : m ≤ 32)
    (hp : ∀ n p i, lab n = some (v, low, p) → i < 2 ^ (hiOf low - low) → p * 2 ^ (hiOf low - low) + i = blk a (hiOf low) →
      T' v a m ≠ none → (s.ents n i).masklen ≠ 0 ∧ (s.ents n i).next ≠ none) :
    Inv s lab T T' (hiOf low) cR K F := by
  refine ⟨h.lv, h.root, h.par, ?_, h.chl, h.ref, h.refle, h.free⟩
  intro n v' low' p hl i hi
  have hlow' := (h.lv n v' low' p hl).1
  have := h.ent n v' low' p hl i hi
  simp only [level_lt hlow hlow']
  by_cases hlt : low' < low
  · rw [if_pos hlt] at this; rw [if_pos (by omega)]; exact this
  · rw [if_neg hlt] at this
    by_cases heq : low' = low
    · subst heq
      rw [if_pos (Nat.le_refl _)]
      exact this.upd hu (hiOf_bounds hlow).1 hm hm2 (fun hv hq ht => by subst hv; exact hp n p i hl hi hq ht)
    · rw [if_neg (by omega)]; exact this

theorem linked_congr (s s' : St) (l : List Nat) (h : ∀ n ∈ l, (s'.ents n 0).next = (s.ents n 0).next)
    (hl : Linked s l) : Linked s' l := by
  induction l with
  | nil => trivial
  | cons x xs ih =>
    cases xs with
    | nil => exact (h x (by simp)).trans hl
    | cons y ys => exact ⟨(h x (by simp)).trans hl.1, ih (fun n hn => h n (List.mem_cons_of_mem _ hn)) hl.2⟩

/-- Changing elements of tables in use, without touching their children. -/
theorem inv_ents (h : Inv s lab T T' cE cR K F) (ents : Nat → Nat → Ent) (cE' : Nat) 
    (h0 : ∀ n i, lab n = none → ents n i = s.ents n i)
    (h1 : ∀ n v low p, lab n = some (v, low, p)  → ∀ i, i < 2 ^ (hiOf low - low) →
      EntOK (if low < cE' then T' else T) v low (hiOf low) (p * 2 ^ (hiOf low - low) + i) (ents n i))
    (h2 : ∀ n i, (ents n i).next = (s.ents n i).next) : Inv { s with ents := ents } lab T T' cE' cR K F := by
  refine ⟨h.lv, h.root, ?_, h1, ?_, h.ref, h.refle, ?_⟩
  · intro c v hi q hl h0
    obtain ⟨n, low, p, i, a1, a2, a3, a4, a5⟩ := h.par c v hi q hl h0
    exact ⟨n, low, p, i, a1, a2, a3, a4, (h2 n i).trans a5⟩
  · intro n v low p hl i hi c hc
    exact h.chl n v low p hl i hi c ((h2 n i).symm.trans hc)
  · obtain ⟨l, l1, l2, l3, l4, l5⟩ := h.free
    refine ⟨l, l1, l2, l3, linked_congr s _ l (fun n _ => h2 n 0) l4, ?_⟩
    intro n hn
    obtain ⟨q1, q2, q3⟩ := l5 n hn
    refine ⟨q1, q2, fun i => ?_⟩
    have e := h0 n i q1
    simp only [e]
    exact q3 i

/-- `NODEALLOC` plus the link from the parent, for the missing child of element `i` of table `n`. -/
theorem Inv.alloc (h : Inv s lab T T' cE cR K F) (n i v low p c : Nat) (hl : lab n = some (v, low, p))
    (hi : i < 2 ^ (hiOf low - low)) (hhi : hiOf low < 32) (hcE : cE ≤ low) (hcR : cR ≤ hiOf low)
    (hnext : (s.ents n i).next = none) (hf : s.first = some c) :
    Inv ((takeNode s c).setNext n i (some c)) (fun n' => if n' = c then some (v, hiOf low, p * 2 ^ (hiOf low - low) + i) else lab n')
      T T' cE cR K (F - 1) := by
  obtain ⟨l, l1, l2, l3, l4, l5⟩ := h.free
  rw [hf] at l2
  cases l with
  | nil => cases l2
  | cons c' r =>
  simp only [List.head?_cons, Option.some.injEq] at l2
  subst l2
  obtain ⟨c1, c2, c3⟩ := l5 c (by simp)
  have hnc : n ≠ c := fun hh => by rw [hh, c1] at hl; cases hl
  have hlow := (h.lv n v low p hl).1
  obtain ⟨hb1, hb2⟩ := hiOf_bounds hlow
  have hlow2 : hiOf low = 0 ∨ hiOf low = 16 ∨ hiOf low = 24 := by
    rcases hlow with rfl | rfl | rfl
    · exact Or.inr (Or.inl rfl)
    · exact Or.inr (Or.inr rfl)
    · exact absurd hhi (by decide)
  -- elements of the new state
  have hents : ∀ n' i', ((takeNode s c).setNext n i (some c)).ents n' i' =
      if n' = n ∧ i' = i then { s.ents n i with next := some c }
      else if n' = c ∧ i' = 0 then { s.ents c 0 with next := none } else s.ents n' i' := by
    intro n' i'
    unfold St.setNext takeNode
    rw [setEnt_ents]
    split
    · next hh =>
      simp only [St.setNext, St.setEnt, St.setRef]
      rw [if_neg (fun hh' => hnc hh'.1)]
    · rfl
  have hlabne : ∀ n', lab n' ≠ none → n' ≠ c := fun n' h' hh => h' (hh ▸ c1)
  have hold : ∀ n' i', lab n' ≠ none → ¬ (n' = n ∧ i' = i) → ((takeNode s c).setNext n i (some c)).ents n' i' = s.ents n' i' := by
    intro n' i' h' hne
    rw [hents, if_neg hne, if_neg (fun hh => hlabne n' h' hh.1)]
  have hnone : ∀ x, x < 2 ^ 32 → blk x (hiOf low) = p * 2 ^ (hiOf low - low) + i → ∀ m, hiOf low < m → m ≤ 32 →
      T v (net x m) m = none := by
    have := (h.ent n v low p hl i hi).leaf hnext
    rw [if_neg (by omega)] at this
    exact this
  have hsome : ∀ {n' l}, lab n' = some l → lab n' ≠ none := fun e hh => by rw [hh] at e; cases e
  have hfree : ∀ i', (((takeNode s c).setNext n i (some c)).ents c i').masklen = 0 ∧
      (((takeNode s c).setNext n i (some c)).ents c i').next = none := by
    intro i'
    rw [hents, if_neg (fun hh => hnc hh.1.symm)]
    split
    · exact ⟨(c3 0).1, rfl⟩
    · next hh => exact ⟨(c3 i').1, (c3 i').2 (fun h0 => hh ⟨rfl, h0⟩)⟩
  refine ⟨?_, ?_, ?_, ?_, ?_, ?_, ?_, ?_⟩
  · intro n' v' low' p' hl'
    split at hl'
    · next hh =>
      cases hl'
      refine ⟨hlow2, (h.lv n v low p hl).2.1, ?_⟩
      subst hh
      constructor
      · intro hh; exact absurd hh (Nat.not_lt.2 c2)
      · intro hh; omega
    · exact h.lv n' v' low' p' hl'
  · intro v' hv'
    have : v' ≠ c := fun hh => by have := h.root v' hv'; rw [hh, c1] at this; cases this
    simp only [if_neg this]
    exact h.root v' hv'
  · intro c' v' hi' q' hl' h0'
    split at hl'
    · next hh =>
      cases hl'
      subst hh
      refine ⟨n, low, p, i, ?_, rfl, hi, rfl, ?_⟩
      · simp only [if_neg hnc]; exact hl
      · rw [hents, if_pos ⟨rfl, rfl⟩]
    · obtain ⟨m, lw, q, j, a1, a2, a3, a4, a5⟩ := h.par c' v' hi' q' hl' h0'
      refine ⟨m, lw, q, j, ?_, a2, a3, a4, ?_⟩
      · simp only [if_neg (hlabne m (hsome a1))]; exact a1
      · rw [hold m j (hsome a1) (fun hh => by rw [hh.1, hh.2, hnext] at a5; cases a5)]; exact a5
  · intro n' v' low' p' hl' i' hi'
    split at hl'
    · next hh =>
      cases hl'
      subst hh
      rw [if_neg (by omega)]
      refine EntOK.fresh (hfree i').1 ?_ (Nat.le_of_lt (hiOf_bounds hlow2).1)
      intro x hx hb m hm hm'
      refine hnone x hx ?_ m hm hm'
      have := hiOf_bounds hlow2
      rw [blk_blk x (hiOf low) (hiOf (hiOf low)) (by omega) (by omega), hb, Nat.mul_comm, Nat.mul_add_div (Nat.two_pow_pos _),
        Nat.div_eq_of_lt hi', Nat.add_zero]
    · by_cases hc : n' = n ∧ i' = i
      · rw [hents, if_pos hc]
        obtain ⟨rfl, rfl⟩ := hc
        exact (h.ent n' v' low' p' hl' i' hi').setNext c
      · rw [hold n' i' (hsome hl') hc]
        exact h.ent n' v' low' p' hl' i' hi'
  · intro n' v' low' p' hl' i' hi' c' hc'
    split at hl'
    · next hh =>
      subst hh
      rw [(hfree i').2] at hc'
      cases hc'
    · by_cases hc : n' = n ∧ i' = i
      · rw [hents, if_pos hc] at hc'
        obtain ⟨rfl, rfl⟩ := hc
        rw [hl] at hl'
        cases hl'
        simp only [Option.some.injEq] at hc'
        subst hc'
        exact ⟨hhi, by simp only [if_true]⟩
      · rw [hold n' i' (hsome hl') hc] at hc'
        obtain ⟨q1, q2⟩ := h.chl n' v' low' p' hl' i' hi' c' hc'
        refine ⟨q1, ?_⟩
        simp only [if_neg (hlabne c' (hsome q2))]
        exact q2
  · intro n' v' low' p' hl' L hnd hL
    split at hl'
    · next hh =>
      cases hl'
      rw [if_neg (by omega)] at hL
      cases L with
      | nil => exact Nat.zero_le _
      | cons k L =>
        exfalso
        obtain ⟨u1, u2, u3, u4, u5, u6⟩ := hL k (by simp)
        apply u6
        rw [← u4]
        rw [← u4] at u3
        exact hnone k.1 (by rw [u4] at u3; exact u3) u5 k.2 u1 u2
    · next hh =>
      have : ((takeNode s c).setNext n i (some c)).ref n' = s.ref n' := by
        show (if n' = c then 0 else s.ref n') = _
        rw [if_neg hh]
      rw [this]
      exact h.ref n' v' low' p' hl' L hnd hL
  · intro n'
    show (if n' = c then 0 else s.ref n') ≤ K
    split
    · exact Nat.zero_le _
    · next hh => exact h.refle n'
  · refine ⟨r, ⟨(List.nodup_cons.1 l1.1).2, by have := l1.2; simp only [List.length_cons] at this; omega⟩, ?_, ?_, ?_, ?_⟩
    · show (s.ents c 0).next = r.head?
      cases r with
      | nil => exact l4
      | cons b r => exact l4.1
    · show (if (s.ents c 0).next = none then none else s.last) = r.getLast?
      cases r with
      | nil => rw [if_pos (show (s.ents c 0).next = none from l4)]; rfl
      | cons b r =>
        rw [l4.1, if_neg (by intro hh; cases hh), l3, List.getLast?_cons_cons]
    · have l4' : Linked s r := by
        cases r with
        | nil => trivial
        | cons b r => exact l4.2
      refine linked_congr s _ r (fun n' hn' => ?_) l4'
      have q := (l5 n' (List.mem_cons_of_mem _ hn')).1
      rw [hents, if_neg (fun hh => by rw [hh.1, hl] at q; cases q), if_neg (fun hh : n' = c ∧ 0 = 0 => (List.nodup_cons.1 l1.1).1 (hh.1 ▸ hn'))]
    · intro n' hn'
      have hne : n' ≠ c := fun hh => (List.nodup_cons.1 l1.1).1 (hh ▸ hn')
      obtain ⟨q1, q2, q3⟩ := l5 n' (List.mem_cons_of_mem _ hn')
      refine ⟨by simp only [if_neg hne]; exact q1, q2, fun i' => ?_⟩
      rw [hents, if_neg (fun hh => by rw [hh.1, hl] at q1; cases q1), if_neg (fun hh => hne hh.1)]
      exact q3 i'

end Verif.Mtrie

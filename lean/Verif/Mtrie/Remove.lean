import Verif.Mtrie.Insert
/-! # Removal preserves the invariant when no table becomes empty -/
namespace Verif.Mtrie

variable {s : St} {lab : Nat → Option (Nat × Nat × Nat)} {T T' : Rules} {cE cR K F : Nat}

theorem findPrefix_spec (s : St) (v a low : Nat) (ha : a < 2 ^ 32) : ∀ M, M ≤ 32 →
    (∀ m' d', findPrefix s v a low M = some (m', d') → low < m' ∧ m' ≤ M ∧ s.rules v (net a m') m' = some d' ∧
      ∀ k, m' < k → k ≤ M → s.rules v (net a k) k = none) ∧
    (findPrefix s v a low M = none → ∀ k, low < k → k ≤ M → s.rules v (net a k) k = none) := by
  intro M
  induction M with
  | zero => intro _; exact ⟨fun _ _ h => absurd h (by simp [findPrefix]), fun _ k hk hk' => by omega⟩
  | succ M ih =>
    intro hM
    obtain ⟨i1, i2⟩ := ih (by omega)
    unfold findPrefix
    by_cases hlow : M + 1 > low
    · rw [if_pos hlow]
      unfold ruleSearch
      rw [netPrefix_eq a (M + 1) ha hM]
      cases hr : s.rules v (net a (M + 1)) (M + 1) with
      | some d =>
        simp only
        refine ⟨fun m' d' he => ?_, fun he => by cases he⟩
        cases he
        exact ⟨hlow, Nat.le_refl _, hr, fun k hk hk' => by omega⟩
      | none =>
        simp only
        refine ⟨fun m' d' he => ?_, fun he k hk hk' => ?_⟩
        · obtain ⟨j1, j2, j3, j4⟩ := i1 m' d' he
          refine ⟨j1, by omega, j3, fun k hk hk' => ?_⟩
          by_cases hkm : k = M + 1
          · rw [hkm]; exact hr
          · exact j4 k hk (by omega)
        · by_cases hkm : k = M + 1
          · rw [hkm]; exact hr
          · exact i2 he k hk (by omega)
    · rw [if_neg hlow]
      exact ⟨fun _ _ h => absurd h (by simp), fun _ k hk hk' => by omega⟩

/-- Table `n` is reached from the root of VRF `v` by the first `low` bits of `a`. -/
inductive Path (ents : Nat → Nat → Ent) (v a : Nat) : Nat → Nat → Prop
  | root : Path ents v a 0 v
  | step {low n c : Nat} : Path ents v a low n → low = 0 ∨ low = 16 → (ents n (nodeIdx a low (hiOf low))).masklen ≠ 0 →
      (ents n (nodeIdx a low (hiOf low))).next = some c → Path ents v a (hiOf low) c

theorem Path.congr {ents : Nat → Nat → Ent} {v a b low n : Nat} (h : Path ents v a low n) (hb : blk a low = blk b low) :
    Path ents v b low n := by
  induction h with
  | root => exact .root
  | @step low n c hp hlow hm hn ih =>
    have hbd := hiOf_bounds (low := low) (by omega)
    have e : nodeIdx a low (hiOf low) = nodeIdx b low (hiOf low) := by
      rw [nodeIdx_eq _ _ _ (by omega) (by omega), nodeIdx_eq _ _ _ (by omega) (by omega)]
      unfold idx
      rw [hb]
    rw [e] at hm hn
    exact .step (ih (blk_le a b low (hiOf low) (by omega) (by omega) hb)) hlow hm hn

/-- Insertion below a path of existing tables: continue at its end. -/
theorem insert_path {ents : Nat → Nat → Ent} {v a low n : Nat} (m d K : Nat) (hp : Path ents v a low n)
    (s : St) (hs : s.ents = ents) (hK : ∀ n, s.ref n ≤ K) (hK2 : K + 3 < 2 ^ 16) (hlm : low < m) :
    ∃ r : Nat → Nat, insertLv a m d (from_ 0) s v = insertLv a m d (from_ low) { s with ref := r } n ∧
      ∀ n, s.ref n ≤ r n ∧ r n ≤ K + (2 - need low) := by
  induction hp with
  | root => exact ⟨s.ref, rfl, fun n => ⟨Nat.le_refl _, Nat.le_trans (hK n) (Nat.le_add_right _ _)⟩⟩
  | @step low n c hp hlow hm hn ih =>
    have hbd := hiOf_bounds (low := low) (by omega)
    obtain ⟨r, e, hr⟩ := ih (by omega)
    have hneed : need low = need (hiOf low) + 1 := by rcases hlow with rfl | rfl <;> rfl
    have hneed2 : need low ≤ 2 := by rcases hlow with rfl | rfl <;> decide
    have hmod : (r n + 1) % 2 ^ 16 = r n + 1 := by
      apply Nat.mod_eq_of_lt
      have := (hr n).2
      omega
    refine ⟨fun x => if x = n then r n + 1 else r x, ?_, fun x => ?_⟩
    · rw [e]
      obtain ⟨q, hq, hq2⟩ := from_cons (low := low) (by omega)
      have hh32 : hiOf low < 32 := by rcases hlow with rfl | rfl <;> decide
      rw [hq, hq2 hh32]
      conv => lhs; unfold insertLv
      simp only
      rw [if_neg (by omega)]
      have e1 : incRef { s with ref := r } n = { s with ref := fun x => if x = n then r n + 1 else r x } := by
        unfold incRef St.setRef
        simp only [hmod]
      rw [e1]
      have hn' : (({ s with ref := fun x => if x = n then r n + 1 else r x } : St).ents n (nodeIdx a low (hiOf low))).next = some c := by
        rw [← hs] at hn; exact hn
      have hm' : (({ s with ref := fun x => if x = n then r n + 1 else r x } : St).ents n (nodeIdx a low (hiOf low))).masklen ≠ 0 := by
        rw [← hs] at hm; exact hm
      have e2 : child { s with ref := fun x => if x = n then r n + 1 else r x } n (nodeIdx a low (hiOf low)) =
          some ({ s with ref := fun x => if x = n then r n + 1 else r x }, c) := by
        unfold child
        rw [hn']
      rw [e2]
      simp only
      unfold mark
      rw [if_neg hm']
    · have := hr x
      simp only
      split
      · next hh => subst hh; omega
      · omega

/-- Removal of the route from an element inside it, followed by the re-insertion of the next shorter route of the
level, if there is one. -/
theorem EntOK.clear {v low high q : Nat} {e : Ent} (h : EntOK T v low high q e) (n i a m d : Nat) (last : Option Nat)
    (hu : Upd T T' v a m) (hT : T v a m = some d) (hT' : T' v a m = none) (hlm : low < m) (hmh : m ≤ high)
    (hh : high ≤ 32) (hin : ∀ x, x < 2 ^ 32 → blk x high = q → net x m = a) (fp : Option (Nat × Nat))
    (hex : ∃ x, x < 2 ^ 32 ∧ blk x high = q)
    (f1 : ∀ m' d', fp = some (m', d') → low < m' ∧ m' < m ∧ T v (net a m') m' = some d' ∧
      ∀ k, m' < k → k < m → T v (net a k) k = none)
    (f2 : fp = none → ∀ k, low < k → k < m → T v (net a k) k = none) :
    EntOK T' v low high q (match fp with
      | none => cl n high m d last i e
      | some (m', d') => wr high m' d' (cl n high m d last i e)) := by
  have other : ∀ k, k ≠ m → ∀ x, T' v (net x k) k = T v (net x k) k := fun k hk x => hu _ _ _ (fun hh => hk hh.2.2)
  have gone : ∀ x, x < 2 ^ 32 → blk x high = q → T' v (net x m) m = none := fun x hx hb => by rw [hin x hx hb]; exact hT'
  have here : ∀ x, x < 2 ^ 32 → blk x high = q → T v (net x m) m ≠ none := fun x hx hb => by
    rw [hin x hx hb, hT]; intro hh; cases hh
  have netk : ∀ x, x < 2 ^ 32 → blk x high = q → ∀ k, k ≤ m → net x k = net a k := fun x hx hb k hk => by
    rw [net_eq_iff, ← hin x hx hb, blk_netle x k m hk (by omega)]
  obtain ⟨x0, hx0, hb0⟩ := hex
  have hne : e.masklen ≠ 0 := fun h0 => here x0 hx0 hb0 (h.zero h0 x0 hx0 hb0 m hlm (by omega))
  have hle : e.masklen ≤ high := by
    apply Nat.le_of_not_lt
    intro hlt
    exact here x0 hx0 hb0 (h.above hlt x0 hx0 hb0 m hlm hmh)
  have hge : m ≤ e.masklen := by
    apply Nat.le_of_not_lt
    intro hlt
    exact here x0 hx0 hb0 ((h.best hne hle x0 hx0 hb0).2 m hlt hmh)
  by_cases hm : e.masklen = m
  · have hd : e.data = d := by
      have := (h.best hne hle x0 hx0 hb0).1
      rw [hm, hin x0 hx0 hb0, hT] at this
      cases this
      rfl
    have longer : ∀ x, x < 2 ^ 32 → blk x high = q → ∀ k, m < k → k ≤ high → T' v (net x k) k = none := by
      intro x hx hb k hk hk'
      rw [other k (by omega)]
      exact (h.best hne hle x hx hb).2 k (by omega) hk'
    have leaf' : e.next = none → ∀ x, x < 2 ^ 32 → blk x high = q → ∀ k, high < k → k ≤ 32 → T' v (net x k) k = none := by
      intro hn x hx hb k hk hk'
      rw [other k (by omega)]
      exact h.leaf hn x hx hb k hk hk'
    have hcl : cl n high m d last i e = { e with masklen := 0 } ∧ e.next = none ∨ cl n high m d last i e = { e with masklen := high + 1 } := by
      unfold cl
      rw [if_pos ⟨hm, hd⟩]
      split
      · next hc => exact Or.inl ⟨rfl, hc.1⟩
      · exact Or.inr rfl
    cases fp with
    | none =>
      have f2' := f2 rfl
      have all : ∀ x, x < 2 ^ 32 → blk x high = q → ∀ k, low < k → k ≤ high → T' v (net x k) k = none := by
        intro x hx hb k hk hk'
        by_cases h1 : k < m
        · rw [other k (by omega), netk x hx hb k (by omega)]; exact f2' k hk h1
        · by_cases h2 : k = m
          · rw [h2]; exact gone x hx hb
          · exact longer x hx hb k (by omega) hk'
      simp only
      rcases hcl with ⟨hcl, hn⟩ | hcl
      · rw [hcl]
        refine ⟨?_, fun hh => absurd rfl hh, fun hh => absurd rfl hh, fun hh => absurd hh (Nat.not_lt_zero _), fun _ => leaf' hn⟩
        intro _ x hx hb k hk hk'
        by_cases h1 : k ≤ high
        · exact all x hx hb k hk h1
        · exact leaf' hn x hx hb k (by omega) hk'
      · rw [hcl]
        exact ⟨fun hh => by simp only at hh; omega, fun _ => by simp only; omega, fun _ hh => by simp only at hh; omega,
          fun _ => all, leaf'⟩
    | some md =>
      obtain ⟨m', d'⟩ := md
      obtain ⟨g1, g2, g3, g4⟩ := f1 m' d' rfl
      simp only
      have hw : wr high m' d' (cl n high m d last i e) = { e with data := d', masklen := m' } := by
        unfold wr
        rcases hcl with ⟨hcl, hn⟩ | hcl
        · rw [hcl, if_pos (Or.inl (Nat.zero_le _))]
        · rw [hcl, if_pos (Or.inr (Nat.lt_succ_self _))]
      rw [hw]
      refine ⟨fun hh => by simp only at hh; omega, fun _ => g1, ?_, fun hh => by simp only at hh; omega, leaf'⟩
      intro _ _ x hx hb
      simp only
      refine ⟨by rw [other m' (by omega), netk x hx hb m' (by omega)]; exact g3, fun k hk hk' => ?_⟩
      by_cases h1 : k < m
      · rw [other k (by omega), netk x hx hb k (by omega)]; exact g4 k hk h1
      · by_cases h2 : k = m
        · rw [h2]; exact gone x hx hb
        · exact longer x hx hb k (by omega) hk'
  · have hcl : cl n high m d last i e = e := by unfold cl; rw [if_neg (fun hh => hm hh.1)]
    have keep : EntOK T' v low high q e := by
      refine ⟨fun h0 => absurd h0 hne, h.gt, ?_, fun hh => by omega, ?_⟩
      · intro _ _ x hx hb
        obtain ⟨b1, b2⟩ := h.best hne hle x hx hb
        exact ⟨by rw [other _ hm]; exact b1, fun k hk hk' => by rw [other k (by omega)]; exact b2 k hk hk'⟩
      · intro hn x hx hb k hk hk'
        rw [other k (by omega)]
        exact h.leaf hn x hx hb k hk hk'
    cases fp with
    | none => simp only; rw [hcl]; exact keep
    | some md =>
      obtain ⟨m', d'⟩ := md
      obtain ⟨g1, g2, g3, g4⟩ := f1 m' d' rfl
      simp only
      rw [hcl]
      unfold wr
      rw [if_neg (by omega)]
      exact keep

/-- Re-insertion of a route leaves the elements outside the removed one as they are. -/
theorem EntOK.rewrite {v low high q : Nat} {e : Ent} (h : EntOK T v low high q e) (a m d : Nat)
    (hT : T v a m = some d) (hlm : low < m) (hmh : m ≤ high) (hh : high ≤ 32)
    (hin : ∀ x, x < 2 ^ 32 → blk x high = q → net x m = a) (hex : ∃ x, x < 2 ^ 32 ∧ blk x high = q) :
    wr high m d e = e := by
  obtain ⟨x0, hx0, hb0⟩ := hex
  have here : T v (net x0 m) m ≠ none := by rw [hin x0 hx0 hb0, hT]; intro hh; cases hh
  have hne : e.masklen ≠ 0 := fun h0 => here (h.zero h0 x0 hx0 hb0 m hlm (by omega))
  have hle : e.masklen ≤ high := by
    apply Nat.le_of_not_lt
    intro hlt
    exact here (h.above hlt x0 hx0 hb0 m hlm hmh)
  have hge : m ≤ e.masklen := by
    apply Nat.le_of_not_lt
    intro hlt
    exact here ((h.best hne hle x0 hx0 hb0).2 m hlt hmh)
  unfold wr
  split
  · next hc =>
    have hm : e.masklen = m := by omega
    have hd := (h.best hne hle x0 hx0 hb0).1
    rw [hm, hin x0 hx0 hb0, hT] at hd
    cases hd
    cases e
    simp only at hm
    rw [hm]
  · rfl

theorem Path.lab_of (h : Inv s lab T T' cE cR K F) {v a low n : Nat} (hv : v < s.roots) (ha : a < 2 ^ 32)
    (hp : Path s.ents v a low n) : lab n = some (v, low, blk a low) := by
  induction hp with
  | root => rw [blk_zero a ha]; exact h.root v hv
  | @step low n c hp hlow hm hn ih =>
    have hbd := hiOf_bounds (low := low) (by omega)
    rw [nodeIdx_eq a low (hiOf low) (by omega) (by omega)] at hn
    have := (h.chl n v low _ ih _ (idx_lt a low (hiOf low)) c hn).2
    rw [this, ← blk_idx a low (hiOf low) (by omega) (by omega)]

theorem Path.transfer {ents ents' : Nat → Nat → Ent} {v a low n : Nat} (hp : Path ents v a low n)
    (h : ∀ low' n', Path ents v a low' n' → low' < low → ∀ i, ents' n' i = ents n' i) : Path ents' v a low n := by
  induction hp with
  | root => exact .root
  | @step low n c hp hlow hm hn ih =>
    have hbd := hiOf_bounds (low := low) (by omega)
    refine .step (ih (fun low' n' hp' hlt => h low' n' hp' (by omega))) hlow ?_ ?_
    · rw [h low n hp (by omega)]; exact hm
    · rw [h low n hp (by omega)]; exact hn

theorem block_ex (a low high i : Nat) (ha : a < 2 ^ 32) (hl : low < high) (hh : high ≤ 32) (hi : i < 2 ^ (high - low)) :
    ∃ x, x < 2 ^ 32 ∧ blk x high = blk a low * 2 ^ (high - low) + i := by
  have hb := blk_lt a low ha (by omega)
  have hq : blk a low * 2 ^ (high - low) + i < 2 ^ high := by
    have e : 2 ^ high = 2 ^ low * 2 ^ (high - low) := pow_split _ _ _ (by omega)
    rw [e]
    have : (blk a low + 1) * 2 ^ (high - low) ≤ 2 ^ low * 2 ^ (high - low) := Nat.mul_le_mul_right _ hb
    rw [Nat.add_mul, Nat.one_mul] at this
    omega
  refine ⟨(blk a low * 2 ^ (high - low) + i) * 2 ^ (32 - high), ?_, ?_⟩
  · have e : 2 ^ 32 = 2 ^ high * 2 ^ (32 - high) := pow_split _ _ _ (by omega)
    rw [e]
    exact Nat.mul_lt_mul_of_pos_right hq (Nat.two_pow_pos _)
  · unfold blk
    exact Nat.mul_div_cancel _ (Nat.two_pow_pos _)

/-- Final state of an operation on the tables `lab`. -/
theorem Inv.assemble (h : Inv s lab T T' cE cR K F) (s' : St) (T1 : Rules) (K' : Nat) (e1 : s'.roots = s.roots)
    (e2 : s'.first = s.first) (e3 : s'.last = s.last) (hnx : ∀ n i, (s'.ents n i).next = (s.ents n i).next)
    (h0 : ∀ n i, lab n = none → s'.ents n i = s.ents n i)
    (h1 : ∀ n v low p, lab n = some (v, low, p) → ∀ i, i < 2 ^ (hiOf low - low) →
      EntOK T1 v low (hiOf low) (p * 2 ^ (hiOf low - low) + i) (s'.ents n i))
    (h2 : ∀ n v low p, lab n = some (v, low, p) → ∀ L : List (Nat × Nat), L.Nodup →
      (∀ k ∈ L, Under T1 v low p k) → L.length ≤ s.ref n)
    (h3 : ∀ n, s.ref n ≤ s'.ref n ∧ s'.ref n ≤ K') : Inv s' lab T1 T1 0 0 K' F := by
  refine ⟨?_, ?_, ?_, ?_, ?_, ?_, fun n => (h3 n).2, ?_⟩
  · rw [e1]; exact h.lv
  · rw [e1]; exact h.root
  · intro c v hi q hl h0
    obtain ⟨n, low, p, i, a1, a2, a3, a4, a5⟩ := h.par c v hi q hl h0
    exact ⟨n, low, p, i, a1, a2, a3, a4, (hnx n i).trans a5⟩
  · intro n v low p hl i hi
    have := h1 n v low p hl i hi
    simpa using this
  · intro n v low p hl i hi c hc
    exact h.chl n v low p hl i hi c ((hnx n i).symm.trans hc)
  · intro n v low p hl L hnd hL
    refine Nat.le_trans (h2 n v low p hl L hnd (fun k hk => ?_)) (h3 n).1
    simpa using hL k hk
  · obtain ⟨l, l1, l2, l3, l4, l5⟩ := h.free
    refine ⟨l, l1, by rw [e2]; exact l2, by rw [e3]; exact l3, linked_congr s s' l (fun n _ => hnx n 0) l4, ?_⟩
    intro n hn
    obtain ⟨q1, q2, q3⟩ := l5 n hn
    refine ⟨q1, by rw [e1]; exact q2, fun i => ?_⟩
    rw [h0 n i q1]
    exact q3 i

/-- The last part of a removal. -/
theorem removeAt_inv (h : Inv s lab T T' low (hiOf low) K F) (n v a m d : Nat) (hv : v < s.roots)
    (hp : Path s.ents v a low n) (hlow : low = 0 ∨ low = 16 ∨ low = 24)
    (hrules : s.rules = T) (hu : Upd T T' v a m) (hT : T v a m = some d) (hT' : T' v a m = none) (ha : a < 2 ^ 32)
    (han : net a m = a) (hlm : low < m) (hmh : m ≤ hiOf low) (hK : K + 3 < 2 ^ 16) :
    Inv (removeAt v a m d low (hiOf low) s n) lab T' T' 0 0 (K + 3) F ∧ Same s (removeAt v a m d low (hiOf low) s n) := by
  have hb := hiOf_bounds hlow
  have hl := hp.lab_of h hv ha
  have hdone := h.refs_done hlow v a m hu hmh
  obtain ⟨c1, c2, c3, c4, c5, c6, c7, c8⟩ :=
    clearLoop n (hiOf low) m d (rangeBegin a m low (hiOf low)) (rangeEnd a m low (hiOf low)) s
  unfold removeAt
  simp only
  generalize rangeLoop (clearEnt n (hiOf low) m d) (rangeEnd a m low (hiOf low) - rangeBegin a m low (hiOf low))
    (rangeBegin a m low (hiOf low)) s = s1 at *
  obtain ⟨f1, f2⟩ := findPrefix_spec s1 v a low ha (m - 1) (by omega)
  rw [c6, hrules] at f1 f2
  have hclnx : ∀ i e, (cl n (hiOf low) m d s.last i e).next = e.next := by
    intro i e; unfold cl; split
    · split <;> rfl
    · rfl
  have hwrnx : ∀ m' d' e, (wr (hiOf low) m' d' e).next = e.next := by
    intro m' d' e; unfold wr; split <;> rfl
  have hnx1 : ∀ n' i, (s1.ents n' i).next = (s.ents n' i).next := by
    intro n' i; rw [c1]; split
    · exact hclnx _ _
    · rfl
  have hin : ∀ i, i < 2 ^ (hiOf low - low) → (rangeBegin a m low (hiOf low) ≤ i ∧ i < rangeEnd a m low (hiOf low)) →
      ∀ x, x < 2 ^ 32 → blk x (hiOf low) = blk a low * 2 ^ (hiOf low - low) + i → net x m = a := by
    intro i hi hr x _ hbx
    exact block_in a m (hiOf low) _ han hmh hb.2 ((range_iff a m low (hiOf low) (blk a low) i ha hlm hmh hb.2 rfl hi).1 hr) x hbx
  have hex := fun i hi => block_ex a low (hiOf low) i ha hb.1 hb.2 hi
  have hlv24 : low < 32 := by omega
  have hent : ∀ i, i < 2 ^ (hiOf low - low) → EntOK T v low (hiOf low) (blk a low * 2 ^ (hiOf low - low) + i) (s.ents n i) := by
    intro i hi
    have := h.ent n v low _ hl i hi
    rw [if_neg (Nat.lt_irrefl _)] at this
    exact this
  have hirr : ∀ i, i < 2 ^ (hiOf low - low) → ¬ (rangeBegin a m low (hiOf low) ≤ i ∧ i < rangeEnd a m low (hiOf low)) →
      EntOK T' v low (hiOf low) (blk a low * 2 ^ (hiOf low - low) + i) (s.ents n i) := by
    intro i hi hout
    refine (hent i hi).irrel hu hb.1 ?_
    intro _ _ x hx hbx hnx'
    exact hout ((range_iff a m low (hiOf low) (blk a low) i ha hlm hmh hb.2 rfl hi).2
      (block_out a m (hiOf low) _ hmh hb.2 x hbx hnx'))
  cases hfp : findPrefix s1 v a low (m - 1) with
  | none =>
    simp only
    have f2' := f2 hfp
    refine ⟨?_, c5, c6, c7, c8⟩
    refine h.assemble s1 T' (K + 3) c5 c3 c4 hnx1 ?_ ?_ hdone (fun x => ?_)
    · intro n' i h0
      rw [c1, if_neg (fun hh => by rw [hh.1, hl] at h0; cases h0)]
    · intro n' v' low' p' hl' i hi
      by_cases hn : n' = n
      · subst hn
        rw [hl] at hl'
        cases hl'
        rw [c1]
        split
        · next hr =>
          have := (hent i hi).clear n' i a m d s.last hu hT hT' hlm hmh hb.2 (hin i hi hr.2) none (hex i hi)
            (fun _ _ hh => by cases hh) (fun _ k hk hk' => f2' k hk (by omega))
          exact this
        · next hr => exact hirr i hi (fun hh => hr ⟨rfl, hh⟩)
      · rw [c1, if_neg (fun hh => hn hh.1)]
        exact h.others n v a m hl hu hlm hmh n' v' low' p' hl' hn i hi
    · rw [c2]
      have := h.refle x
      omega
  | some md =>
    obtain ⟨m', d'⟩ := md
    simp only
    obtain ⟨g1, g2, g3, g4⟩ := f1 m' d' hfp
    have hm'32 : m' ≤ 32 := by omega
    have hna := net_lt a m' ha
    have hp1 : Path s1.ents v (net a m') low n := by
      refine Path.congr (Path.transfer hp ?_) (blk_netle a low m' (by omega) hm'32).symm
      intro low' n' hp' hlt i
      rw [c1, if_neg (fun hh => ?_)]
      have := hp'.lab_of h hv ha
      rw [hh.1, hl] at this
      cases this
      omega
    unfold insert
    rw [netPrefix_eq a m' ha hm'32, netPrefix_eq _ m' hna hm'32, net_net]
    obtain ⟨r, er, hr⟩ := insert_path m' d' K hp1 s1 rfl (fun x => by rw [c2]; exact h.refle x) hK g1
    have elv : levels = from_ 0 := rfl
    rw [elv, er]
    obtain ⟨q, hq, _⟩ := from_cons hlow
    rw [hq]
    unfold insertLv
    simp only
    rw [if_pos (by omega)]
    simp only
    have hneed : need low ≤ 2 := by rcases hlow with rfl | rfl | rfl <;> decide
    have hmod : (r n + 1) % 2 ^ 16 = r n + 1 := by
      apply Nat.mod_eq_of_lt
      have := (hr n).2
      omega
    obtain ⟨w1, w2, w3, w4, w5, w6, w7, w8⟩ := writeLoop n (hiOf low) m' d' (rangeBegin (net a m') m' low (hiOf low))
      (rangeEnd (net a m') m' low (hiOf low)) (incRef { s1 with ref := r } n)
    generalize rangeLoop (writeEnt n (hiOf low) m' d') (rangeEnd (net a m') m' low (hiOf low) -
      rangeBegin (net a m') m' low (hiOf low)) (rangeBegin (net a m') m' low (hiOf low)) (incRef { s1 with ref := r } n) = s2 at *
    have w1' : ∀ n' i', s2.ents n' i' = if n' = n ∧ rangeBegin (net a m') m' low (hiOf low) ≤ i' ∧
        i' < rangeEnd (net a m') m' low (hiOf low) then wr (hiOf low) m' d' (s1.ents n' i') else s1.ents n' i' := w1
    refine ⟨?_, w5.trans c5, w6.trans c6, w7.trans c7, w8.trans c8⟩
    refine h.assemble s2 T' (K + 3) (w5.trans c5) (w3.trans c3) (w4.trans c4) ?_ ?_ ?_ hdone (fun x => ?_)
    · intro n' i
      rw [w1', ← hnx1]
      split
      · exact hwrnx _ _ _
      · rfl
    · intro n' i h0
      have : n' ≠ n := fun hh => by rw [hh, hl] at h0; cases h0
      rw [w1', if_neg (fun hh => this hh.1), c1, if_neg (fun hh => this hh.1)]
    · intro n' v' low' p' hl' i hi
      by_cases hn : n' = n
      · subst hn
        rw [hl] at hl'
        cases hl'
        have hbm : blk (net a m') low = blk a low := blk_netle a low m' (by omega) hm'32
        have hr2 := range_iff (net a m') m' low (hiOf low) (blk a low) i hna g1 (by omega) hb.2 hbm hi
        have hr1 := range_iff a m low (hiOf low) (blk a low) i ha hlm hmh hb.2 rfl hi
        rw [w1']
        by_cases hin1 : rangeBegin a m low (hiOf low) ≤ i ∧ i < rangeEnd a m low (hiOf low)
        · have hin2 : rangeBegin (net a m') m' low (hiOf low) ≤ i ∧ i < rangeEnd (net a m') m' low (hiOf low) := by
            rw [hr2, blk_net]
            rw [hr1] at hin1
            have e : (2:Nat) ^ (hiOf low - m') = 2 ^ (hiOf low - m) * 2 ^ (m - m') := pow_split _ _ _ (by omega)
            rw [e, ← Nat.div_div_eq_div_mul, hin1, ← blk_blk a m' m (by omega) (by omega)]
          rw [if_pos ⟨rfl, hin2⟩, c1, if_pos ⟨rfl, hin1⟩]
          have := (hent i hi).clear n' i a m d s.last hu hT hT' hlm hmh hb.2 (hin i hi hin1) (some (m', d')) (hex i hi)
            (fun m'' d'' hh => by cases hh; exact ⟨g1, by omega, g3, fun k hk hk' => g4 k hk (by omega)⟩) (fun hh => by cases hh)
          exact this
        · have e1 : s1.ents n' i = s.ents n' i := by rw [c1, if_neg (fun hh => hin1 hh.2)]
          rw [e1]
          split
          · next hin2 =>
            have := (hent i hi).rewrite (net a m') m' d' g3 g1 (by omega) hb.2
              (fun x _ hbx => block_in (net a m') m' (hiOf low) _ (net_net a m') (by omega) hb.2 (hr2.1 hin2.2) x hbx) (hex i hi)
            rw [this]
            exact hirr i hi hin1
          · exact hirr i hi hin1
      · rw [w1', if_neg (fun hh => hn hh.1), c1, if_neg (fun hh => hn hh.1)]
        exact h.others n v a m hl hu hlm hmh n' v' low' p' hl' hn i hi
    · have e : s2.ref x = if x = n then r n + 1 else r x := by
        rw [w2]
        unfold incRef St.setRef
        simp only [hmod]
      have h1 := hr x
      rw [c2] at h1
      rw [e]
      split
      · next hh => subst hh; omega
      · omega

/-- What a removal from the level `low` on does, when at every level another route stays below the table. -/
def RemOK (low : Nat) : Prop := ∀ (s : St) (lab : Nat → Option (Nat × Nat × Nat)) (T T' : Rules) (n K F v a m d : Nat),
    Inv s lab T T' low low K F → K + 3 < 2 ^ 16 → v < s.roots → Path s.ents v a low n → s.rules = T →
    Upd T T' v a m → T v a m = some d → T' v a m = none → a < 2 ^ 32 → net a m = a → low < m → m ≤ 32 →
    (∀ lo, low ≤ lo → lo = 16 ∨ lo = 24 → lo < m → ∃ k, k ≠ (a, m) ∧ Under T v lo (blk a lo) k) →
    ∃ s', removeLv v a m d (from_ low) s n = .done s' true ∧ Inv s' lab T' T' 0 0 (K + 3) F ∧ Same s s'

theorem remove_step (low : Nat) (hlow : low = 0 ∨ low = 16 ∨ low = 24) (ih : hiOf low < 32 → RemOK (hiOf low)) :
    RemOK low := by
  intro s lab T T' n K F v a m d h hK hv hp hrules hu hT hT' ha han hlm hm hq
  obtain ⟨r, hr, hr2⟩ := from_cons hlow
  rw [hr]
  have hb := hiOf_bounds hlow
  have hl := hp.lab_of h hv ha
  have hne : T v a m ≠ none := by rw [hT]; intro hh; cases hh
  have hun : ∀ lo, lo < m → Under T v lo (blk a lo) (a, m) := fun lo hlo => ⟨hlo, hm, ha, han, rfl, hne⟩
  have two : ∀ lo k, lo < m → k ≠ (a, m) → Under T v lo (blk a lo) k → ∀ (s : St) (cE cR K : Nat) (x : Nat), Inv s lab T T' cE cR K F →
      lab x = some (v, lo, blk a lo) → ¬ lo < cR → 2 ≤ s.ref x := by
    intro lo k hlo hk hku s cE cR K x hi hx hlt
    have := hi.ref x v lo _ hx [(a, m), k] (by simp; exact fun hh => hk hh.symm) (by
      rw [if_neg hlt]
      intro j hj
      simp only [List.mem_cons, List.not_mem_nil, or_false] at hj
      rcases hj with rfl | rfl
      · exact hun lo hlo
      · exact hku)
    simpa using this
  have hq0 : n < s.roots ∨ 2 ≤ s.ref n := by
    by_cases h0 : low = 0
    · exact Or.inl ((h.lv n v low _ hl).2.2.2 h0)
    · obtain ⟨k, hk, hku⟩ := hq low (Nat.le_refl _) (by omega) hlm
      exact Or.inr (two low k hlm hk hku s _ _ _ n h hl (Nat.lt_irrefl _))
  obtain ⟨h1, e1⟩ := h.dec v a m n hl hu (by omega) (hun low hlm) hT' hq0
  have hents : (decRef s n).ents = s.ents := by rw [e1]
  have hroots : (decRef s n).roots = s.roots := by rw [e1]
  have hsame : Same s (decRef s n) := by rw [e1]; exact ⟨rfl, rfl, rfl, rfl⟩
  unfold removeLv
  simp only
  by_cases hmh : m ≤ hiOf low
  · rw [if_pos hmh]
    obtain ⟨i1, i2⟩ := removeAt_inv h1 n v a m d (by rw [hroots]; exact hv) (by rw [hents]; exact hp) hlow
      (by rw [hsame.2.1]; exact hrules) hu hT hT' ha han hlm hmh hK
    exact ⟨_, rfl, i1, hsame.trans i2⟩
  · rw [if_neg hmh]
    have hh32 : hiOf low < 32 := by omega
    have hidx : nodeIdx a low (hiOf low) = idx a low (hiOf low) := nodeIdx_eq a low (hiOf low) (by omega) (by omega)
    have hil := idx_lt a low (hiOf low)
    have he := h.ent n v low _ hl _ hil
    rw [if_neg (Nat.lt_irrefl _), ← blk_idx a low (hiOf low) (by omega) (by omega), ← hidx] at he
    have hm0 : (s.ents n (nodeIdx a low (hiOf low))).masklen ≠ 0 := by
      intro h0
      have := he.zero h0 a ha rfl m hlm hm
      rw [han] at this
      exact hne this
    have hn0 : (s.ents n (nodeIdx a low (hiOf low))).next ≠ none := by
      intro h0
      have := he.leaf h0 a ha rfl m (by omega) hm
      rw [han] at this
      exact hne this
    cases hc : (s.ents n (nodeIdx a low (hiOf low))).next with
    | none => exact absurd hc hn0
    | some c =>
      have hlow2 : hiOf low = 16 ∨ hiOf low = 24 := by
        rcases hlow with rfl | rfl | rfl
        · exact Or.inl rfl
        · exact Or.inr rfl
        · exact absurd hh32 (by decide)
      have hlow01 : low = 0 ∨ low = 16 := by
        rcases hlow with rfl | rfl | rfl
        · exact Or.inl rfl
        · exact Or.inr rfl
        · exact absurd hh32 (by decide)
      have hp' : Path s.ents v a (hiOf low) c := .step hp hlow01 hm0 hc
      have hlc := hp'.lab_of h hv ha
      obtain ⟨k, hk, hku⟩ := hq (hiOf low) (by omega) hlow2 (by omega)
      have href : 2 ≤ (decRef s n).ref c := two (hiOf low) k (by omega) hk hku _ _ _ _ c h1 hlc (Nat.lt_irrefl _)
      rw [hents, if_neg hm0, hc]
      simp only
      have hul : unlink (decRef s n) n (nodeIdx a low (hiOf low)) c (hiOf low) = decRef s n := by
        unfold unlink
        rw [if_neg (fun hh => by omega)]
      rw [hul, hr2 hh32]
      have h2 := h1.liftE hlow v a m hu (by omega) hm (fun _ _ _ _ _ _ hh => absurd hT' hh)
      obtain ⟨s', r1, r2, r3⟩ := ih hh32 (decRef s n) lab T T' c K F v a m d h2 hK (by rw [hroots]; exact hv)
        (by rw [hents]; exact hp') (by rw [hsame.2.1]; exact hrules) hu hT hT' ha han (by omega) hm
        (fun lo hlo => hq lo (by omega))
      exact ⟨s', r1, r2, hsame.trans r3⟩

theorem remOK_24 : RemOK 24 := remove_step 24 (by decide) (fun h => absurd h (by decide))
theorem remOK_16 : RemOK 16 := remove_step 16 (by decide) (fun _ => remOK_24)
theorem remOK_0 : RemOK 0 := remove_step 0 (by decide) (fun _ => remOK_16)

/-- `ofp_rtl_remove` of a stored route. -/
theorem remove_inv (h : Inv s lab T T cE cR K F) (hK : K + 3 < 2 ^ 16) (v a m d : Nat) (hv : v < s.roots)
    (hrules : s.rules = T) (hu : Upd T T' v (net a m) m) (hT : T v (net a m) m = some d) (hT' : T' v (net a m) m = none)
    (ha : a < 2 ^ 32) (hm0 : 1 ≤ m) (hm : m ≤ 32)
    (hq : ∀ lo, lo = 16 ∨ lo = 24 → lo < m → ∃ k, k ≠ (net a m, m) ∧ Under T v lo (blk a lo) k) :
    ∃ s', remove s v a m = .done s' true ∧ Inv s' lab T' T' 0 0 (K + 3) F ∧ Same s s' := by
  unfold remove ruleSearch
  rw [netPrefix_eq a m ha hm, hrules, hT]
  have hn := net_lt a m ha
  exact remOK_0 s lab T T' v K F v (net a m) m d (h.start T') hK hv .root hrules hu hT hT' hn
    (net_net a m) hm0 hm (fun lo _ h1 h2 => by
      obtain ⟨k, k1, k2⟩ := hq lo h1 h2
      rw [blk_netle a lo m (by omega) hm]
      exact ⟨k, k1, k2⟩)

/-! ## Lookup -/

/-- Answer of a lookup below a table. -/
theorem searchLv_spec (low : Nat) (hlow : low = 0 ∨ low = 16 ∨ low = 24)
    (ih : hiOf low < 32 → ∀ (n x v : Nat) (nh : Option Nat), x < 2 ^ 32 → lab n = some (v, hiOf low, blk x (hiOf low)) →
      (∃ m d, hiOf low < m ∧ m ≤ 32 ∧ T v (net x m) m = some d ∧ (∀ k, m < k → k ≤ 32 → T v (net x k) k = none) ∧
        searchLv s x (from_ (hiOf low)) n nh = some d) ∨
      ((∀ k, hiOf low < k → k ≤ 32 → T v (net x k) k = none) ∧ searchLv s x (from_ (hiOf low)) n nh = nh))
    (h : Inv s lab T T 0 0 K F) (n x v : Nat) (nh : Option Nat) (hx : x < 2 ^ 32) (hl : lab n = some (v, low, blk x low)) :
    (∃ m d, low < m ∧ m ≤ 32 ∧ T v (net x m) m = some d ∧ (∀ k, m < k → k ≤ 32 → T v (net x k) k = none) ∧
      searchLv s x (from_ low) n nh = some d) ∨
    ((∀ k, low < k → k ≤ 32 → T v (net x k) k = none) ∧ searchLv s x (from_ low) n nh = nh) := by
  have hb := hiOf_bounds hlow
  obtain ⟨r, hr, hr2⟩ := from_cons hlow
  rw [hr]
  have hil := idx_lt x low (hiOf low)
  have hbi := blk_idx x low (hiOf low) (by omega) (by omega)
  have he := h.ent n v low _ hl _ hil
  simp only [Nat.not_lt_zero, if_false] at he
  rw [← hbi] at he
  unfold searchLv
  simp only
  rw [nodeIdx_eq x low (hiOf low) (by omega) (by omega)]
  by_cases h0 : (s.ents n (idx x low (hiOf low))).masklen = 0
  · rw [if_pos h0]
    exact Or.inr ⟨fun k hk hk' => he.zero h0 x hx rfl k hk hk', rfl⟩
  · rw [if_neg h0]
    have hgt := he.gt h0
    -- the answer of this level
    have here : (∃ m d, low < m ∧ m ≤ hiOf low ∧ T v (net x m) m = some d ∧
          (∀ k, m < k → k ≤ hiOf low → T v (net x k) k = none) ∧
          (if (s.ents n (idx x low (hiOf low))).masklen ≤ hiOf low then some (s.ents n (idx x low (hiOf low))).data else nh) = some d) ∨
        ((∀ k, low < k → k ≤ hiOf low → T v (net x k) k = none) ∧
          (if (s.ents n (idx x low (hiOf low))).masklen ≤ hiOf low then some (s.ents n (idx x low (hiOf low))).data else nh) = nh) := by
      by_cases hle : (s.ents n (idx x low (hiOf low))).masklen ≤ hiOf low
      · obtain ⟨b1, b2⟩ := he.best h0 hle x hx rfl
        exact Or.inl ⟨_, _, hgt, hle, b1, b2, if_pos hle⟩
      · exact Or.inr ⟨he.above (by omega) x hx rfl, if_neg hle⟩
    generalize (if (s.ents n (idx x low (hiOf low))).masklen ≤ hiOf low then some (s.ents n (idx x low (hiOf low))).data else nh) = nh2 at here
    cases hc : (s.ents n (idx x low (hiOf low))).next with
    | none =>
      simp only
      have hleaf := he.leaf hc x hx rfl
      rcases here with ⟨m, d, p1, p2, p3, p4, p5⟩ | ⟨p1, p2⟩
      · refine Or.inl ⟨m, d, p1, by omega, p3, fun k hk hk' => ?_, p5⟩
        by_cases hkh : k ≤ hiOf low
        · exact p4 k hk hkh
        · exact hleaf k (by omega) hk'
      · refine Or.inr ⟨fun k hk hk' => ?_, p2⟩
        by_cases hkh : k ≤ hiOf low
        · exact p1 k hk hkh
        · exact hleaf k (by omega) hk'
    | some c =>
      simp only
      obtain ⟨hh32, hlc⟩ := h.chl n v low _ hl _ hil c hc
      rw [← hbi] at hlc
      rw [hr2 hh32]
      rcases ih hh32 c x v nh2 hx hlc with ⟨m, d, p1, p2, p3, p4, p5⟩ | ⟨p1, p2⟩
      · exact Or.inl ⟨m, d, by omega, p2, p3, p4, p5⟩
      · rcases here with ⟨m, d, q1, q2, q3, q4, q5⟩ | ⟨q1, q2⟩
        · refine Or.inl ⟨m, d, q1, by omega, q3, fun k hk hk' => ?_, p2.trans q5⟩
          by_cases hkh : k ≤ hiOf low
          · exact q4 k hk hkh
          · exact p1 k (by omega) hk'
        · refine Or.inr ⟨fun k hk hk' => ?_, p2.trans q2⟩
          by_cases hkh : k ≤ hiOf low
          · exact q1 k hk hkh
          · exact p1 k (by omega) hk'

/-- `ofp_rtl_search`: the longest stored prefix, among those of length at least 1. -/
theorem search_spec (h : Inv s lab T T 0 0 K F) (v x : Nat) (hv : v < s.roots) (hx : x < 2 ^ 32) :
    (∃ m d, 1 ≤ m ∧ m ≤ 32 ∧ T v (net x m) m = some d ∧ (∀ k, m < k → k ≤ 32 → T v (net x k) k = none) ∧
      search s v x = some d) ∨
    ((∀ k, 1 ≤ k → k ≤ 32 → T v (net x k) k = none) ∧ search s v x = none) := by
  have s24 := searchLv_spec (lab := lab) (T := T) (s := s) (K := K) (F := F) 24 (by decide) (fun h => absurd h (by decide)) h
  have s16 := searchLv_spec (lab := lab) (T := T) (s := s) (K := K) (F := F) 16 (by decide) (fun _ => s24) h
  have s0 := searchLv_spec (lab := lab) (T := T) (s := s) (K := K) (F := F) 0 (by decide) (fun _ => s16) h
  exact s0 v x v none hx (by rw [blk_zero x hx]; exact h.root v hv)

end Verif.Mtrie

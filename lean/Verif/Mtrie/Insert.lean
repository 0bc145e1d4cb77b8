import Verif.Mtrie.Steps
/-! # Insertion preserves the invariant -/
namespace Verif.Mtrie

variable {s : St} {lab : Nat → Option (Nat × Nat × Nat)} {T T' : Rules} {cE cR K F : Nat}

/-- The element has nothing to do with the changed route. -/
theorem EntOK.irrel {v low high q v' a m : Nat} {e : Ent} (h : EntOK T v low high q e) (hu : Upd T T' v' a m)
    (hlow : low < high)
    (hx : low < m → v = v' → ∀ x, x < 2 ^ 32 → blk x high = q → net x m = a → False) : EntOK T' v low high q e := by
  refine h.congr ?_ ?_ (Nat.le_of_lt hlow)
  · intro x hx1 hb k hk hk'
    exact hu _ _ _ (fun hh => hx (by omega) hh.1 x hx1 hb (by rw [← hh.2.2]; exact hh.2.1))
  · intro _ x hx1 hb k hk hk' hT
    rw [hu _ _ _ (fun hh => hx (by omega) hh.1 x hx1 hb (by rw [← hh.2.2]; exact hh.2.1))]
    exact hT

/-- Addresses of a block inside (`in`) or outside a route, by the block number. -/
theorem block_in (a m high q : Nat) (ha : net a m = a) (hm : m ≤ high) (hh : high ≤ 32)
    (hq : q / 2 ^ (high - m) = blk a m) (x : Nat) (hb : blk x high = q) : net x m = a := by
  rw [← ha, net_eq_iff, blk_blk x m high hm hh, hb, hq]

theorem block_out (a m high q : Nat) (hm : m ≤ high) (hh : high ≤ 32) (x : Nat)
    (hb : blk x high = q) (hn : net x m = a) : q / 2 ^ (high - m) = blk a m := by
  rw [← hb, ← blk_blk x m high hm hh, ← hn, blk_net]

/-- The tail of the counters. -/
theorem Inv.refs_done (h : Inv s lab T T' cE (hiOf low) K F) (hlow : low = 0 ∨ low = 16 ∨ low = 24) (v a m : Nat)
    (hu : Upd T T' v a m) (hm : m ≤ hiOf low) : ∀ n v low p, lab n = some (v, low, p) → ∀ L : List (Nat × Nat), L.Nodup →
      (∀ k ∈ L, Under T' v low p k) → L.length ≤ s.ref n := by
  intro n' v' low' p' hl' L hnd hL
  have hlow' := (h.lv n' v' low' p' hl').1
  refine h.ref n' v' low' p' hl' L hnd ?_
  simp only [level_lt hlow hlow']
  by_cases hle : low' ≤ low
  · rw [if_pos hle]; exact hL
  · rw [if_neg hle]
    intro k hk
    have hk' := hL k hk
    refine under_of v low' p' a m hu v' k hk' (fun hh => ?_)
    have h1 := hk'.1
    rw [hh.2] at h1
    have : low' < m := h1
    have : ¬ low' < hiOf low := fun hh => hle ((level_lt hlow hlow').1 hh)
    omega

/-- The invariant does not depend on the cuts when both rule sets are the same. -/
theorem Inv.cuts (h : Inv s lab T T cE cR K F) (cE' cR' : Nat) : Inv s lab T T cE' cR' K F := by
  refine ⟨h.lv, h.root, h.par, ?_, h.chl, ?_, h.refle, h.free⟩
  · intro n v low p hl i hi
    have := h.ent n v low p hl i hi
    simpa using this
  · intro n v low p hl L hn hu
    refine h.ref n v low p hl L hn (fun k hk => ?_)
    have := hu k hk
    simpa using this

/-- Replacing the rule sets. -/
theorem Inv.retab (h : Inv s lab T T' cE cR K F) (T1 : Rules)
    (h1 : ∀ n v low p, lab n = some (v, low, p) → ∀ i, i < 2 ^ (hiOf low - low) →
      EntOK T1 v low (hiOf low) (p * 2 ^ (hiOf low - low) + i) (s.ents n i))
    (h2 : ∀ n v low p, lab n = some (v, low, p) → ∀ L : List (Nat × Nat), L.Nodup →
      (∀ k ∈ L, Under T1 v low p k) → L.length ≤ s.ref n) : Inv s lab T1 T1 0 0 K F := by
  refine ⟨h.lv, h.root, h.par, ?_, h.chl, ?_, h.refle, h.free⟩
  · intro n v low p hl i hi
    simpa using h1 n v low p hl i hi
  · intro n v low p hl L hn hu
    refine h2 n v low p hl L hn (fun k hk => ?_)
    simpa using hu k hk

/-- Elements of other tables than the one of the route's level are right for the new rules. -/
theorem Inv.others (h : Inv s lab T T' low cR K F) (n v a m : Nat) (hl : lab n = some (v, low, blk a low))
    (hu : Upd T T' v a m) (hlm : low < m) (hmh : m ≤ hiOf low) (n' v' low' p' : Nat)
    (hl' : lab n' = some (v', low', p')) (hne : n' ≠ n) (i : Nat) (hi : i < 2 ^ (hiOf low' - low')) :
    EntOK T' v' low' (hiOf low') (p' * 2 ^ (hiOf low' - low') + i) (s.ents n' i) := by
  have hlow := (h.lv n v low _ hl).1
  have hlow' := (h.lv n' v' low' p' hl').1
  have hb := hiOf_bounds hlow'
  have he := h.ent n' v' low' p' hl' i hi
  by_cases hlt : low' < low
  · rw [if_pos hlt] at he; exact he
  · rw [if_neg hlt] at he
    by_cases heq : low' = low
    · subst heq
      refine he.irrel hu hb.1 ?_
      intro _ hv x hx hbx hnx
      subst hv
      apply hne
      refine h.inj n' n _ hl' ?_
      have : p' = blk a low' := by
        rw [← hnx, blk_netle x low' m (by omega) (by omega), blk_blk x low' (hiOf low') (by omega) (by omega), hbx,
          Nat.mul_comm, Nat.mul_add_div (Nat.two_pow_pos _), Nat.div_eq_of_lt hi, Nat.add_zero]
      rw [this]; exact hl
    · refine he.irrel hu hb.1 ?_
      intro hlm'
      have : ¬ low' < hiOf low := fun hh => heq (by have := (level_lt hlow hlow').1 hh; omega)
      omega

/-- The write loop at the level of the route completes the insertion. -/
theorem Inv.write (h : Inv s lab T T' low (hiOf low) K F) (n v a m d : Nat) (hl : lab n = some (v, low, blk a low))
    (hu : Upd T T' v a m) (hT' : T' v a m = some d) (ha : a < 2 ^ 32) (han : net a m = a) (hlm : low < m)
    (hmh : m ≤ hiOf low) :
    Inv (rangeLoop (writeEnt n (hiOf low) m d) (rangeEnd a m low (hiOf low) - rangeBegin a m low (hiOf low))
      (rangeBegin a m low (hiOf low)) s) lab T' T' 0 0 K F := by
  have hlow := (h.lv n v low _ hl).1
  have hb := hiOf_bounds hlow
  obtain ⟨w1, w2, w3, w4, w5, w6, w7, w8⟩ :=
    writeLoop n (hiOf low) m d (rangeBegin a m low (hiOf low)) (rangeEnd a m low (hiOf low)) s
  have hst : rangeLoop (writeEnt n (hiOf low) m d) (rangeEnd a m low (hiOf low) - rangeBegin a m low (hiOf low))
      (rangeBegin a m low (hiOf low)) s = { s with
        ents := fun n' i' => if n' = n ∧ rangeBegin a m low (hiOf low) ≤ i' ∧ i' < rangeEnd a m low (hiOf low) then
          wr (hiOf low) m d (s.ents n' i') else s.ents n' i' } := by
    have : ∀ t : St, (∀ n' i', t.ents n' i' = if n' = n ∧ rangeBegin a m low (hiOf low) ≤ i' ∧ i' < rangeEnd a m low (hiOf low) then
          wr (hiOf low) m d (s.ents n' i') else s.ents n' i') → t.ref = s.ref → t.first = s.first → t.last = s.last →
          t.roots = s.roots → t.rules = s.rules → t.nrules = s.nrules → t.maxrules = s.maxrules → t = { s with
        ents := fun n' i' => if n' = n ∧ rangeBegin a m low (hiOf low) ≤ i' ∧ i' < rangeEnd a m low (hiOf low) then
          wr (hiOf low) m d (s.ents n' i') else s.ents n' i' } := by
      rintro ⟨t1, t2, t3, t4, t5, t6, t7, t8⟩ e1 e2 e3 e4 e5 e6 e7 e8
      simp only at e1 e2 e3 e4 e5 e6 e7 e8
      subst e2 e3 e4 e5 e6 e7 e8
      congr
      funext n' i'
      exact e1 n' i'
    exact this _ w1 w2 w3 w4 w5 w6 w7 w8
  rw [hst]
  have hnx : ∀ e : Ent, (wr (hiOf low) m d e).next = e.next := by
    intro e; unfold wr; split <;> rfl
  refine Inv.cuts (cE := 33) (cR := 33) ?_ 0 0
  have hdone := h.refs_done hlow v a m hu hmh
  have h2 : Inv { s with
        ents := fun n' i' => if n' = n ∧ rangeBegin a m low (hiOf low) ≤ i' ∧ i' < rangeEnd a m low (hiOf low) then
          wr (hiOf low) m d (s.ents n' i') else s.ents n' i' } lab T T' 33 (hiOf low) K F := by
    apply inv_ents h
    · intro n' i' h0
      rw [if_neg (fun hh => by rw [hh.1, hl] at h0; cases h0)]
    · intro n' v' low' p' hl' i hi
      have hlow' := (h.lv n' v' low' p' hl').1
      rw [if_pos (by omega)]
      by_cases hn : n' = n
      · subst hn
        rw [hl'] at hl
        cases hl
        have he := h.ent n' v low _ hl' i hi
        rw [if_neg (Nat.lt_irrefl _)] at he
        have hr := range_iff a m low (hiOf low) (blk a low) i ha hlm hmh hb.2 rfl hi
        split
        · next hin =>
          have hq := hr.1 hin.2
          exact he.write a m d hu hT' hlm hmh hb.2 (fun x _ hbx => block_in a m (hiOf low) _ han hmh hb.2 hq x hbx)
        · next hout =>
          refine he.irrel hu hb.1 ?_
          intro _ _ x hx hbx hnx'
          exact hout ⟨rfl, hr.2 (block_out a m (hiOf low) _ hmh hb.2 x hbx hnx')⟩
      · rw [if_neg (fun hh => hn hh.1)]
        exact h.others n v a m hl hu hlm hmh n' v' low' p' hl' hn i hi
    · intro n' i'
      split
      · exact hnx _
      · rfl
  refine Inv.cuts (cE := 0) (cR := 0) (h2.retab T' ?_ hdone) 33 33
  intro n' v' low' p' hl' i hi
  have hlow' := (h2.lv n' v' low' p' hl').1
  have := h2.ent n' v' low' p' hl' i hi
  rw [if_pos (by omega)] at this
  exact this

/-- Fields that the tables do not include. -/
def Same (s s' : St) : Prop := s'.roots = s.roots ∧ s'.rules = s.rules ∧ s'.nrules = s.nrules ∧ s'.maxrules = s.maxrules

theorem Same.refl (s : St) : Same s s := ⟨rfl, rfl, rfl, rfl⟩

theorem Same.trans {a b c : St} (h : Same a b) (h' : Same b c) : Same a c :=
  ⟨h'.1.trans h.1, h'.2.1.trans h.2.1, h'.2.2.1.trans h.2.2.1, h'.2.2.2.trans h.2.2.2⟩

theorem same_mark (s : St) (n i m : Nat) : Same s (mark s n i m) := by
  unfold mark; simp only; split
  · exact ⟨rfl, rfl, rfl, rfl⟩
  · exact Same.refl s

theorem same_child {s s' : St} {n i c : Nat} (h : child s n i = some (s', c)) : Same s s' := by
  unfold child at h
  split at h
  · cases h; exact Same.refl _
  · unfold nodeAlloc at h
    cases hf : s.first with
    | none => rw [hf] at h; cases h
    | some x => rw [hf] at h; cases h; exact ⟨rfl, rfl, rfl, rfl⟩

/-- One level of the way down of an insertion. -/
theorem Inv.down (h : Inv s lab T T' low (hiOf low) K F) (n v a m d : Nat) (hl : lab n = some (v, low, blk a low))
    (hu : Upd T T' v a m) (ha : a < 2 ^ 32) (hm : hiOf low < m) (hm2 : m ≤ 32) :
    (∀ s' c, child s n (nodeIdx a low (hiOf low)) = some (s', c) →
      ∃ lab', Inv (mark s' n (nodeIdx a low (hiOf low)) m) lab' T T' (hiOf low) (hiOf low) K (F - 1) ∧
        lab' c = some (v, hiOf low, blk a (hiOf low))) ∧
    (1 ≤ F → ∃ r, child s n (nodeIdx a low (hiOf low)) = some r) := by
  have hlow := (h.lv n v low _ hl).1
  have hb := hiOf_bounds hlow
  rw [nodeIdx_eq a low (hiOf low) (by omega) (by omega)]
  have hi := idx_lt a low (hiOf low)
  have hq := blk_idx a low (hiOf low) (by omega) (by omega)
  -- marking and lifting the cut
  have fin : ∀ (s' : St) (lab' : Nat → Option (Nat × Nat × Nat)) (c : Nat),
      Inv s' lab' T T' low (hiOf low) K (F - 1) → lab' n = some (v, low, blk a low) →
      (s'.ents n (idx a low (hiOf low))).next = some c →
      Inv (Verif.Mtrie.mark s' n (idx a low (hiOf low)) m) lab' T T' (hiOf low) (hiOf low) K (F - 1) := by
    intro s' lab' c h' hl' hc
    have hnx : ∀ n' i', ((Verif.Mtrie.mark s' n (idx a low (hiOf low)) m).ents n' i').next = (s'.ents n' i').next := by
      intro n' i'
      unfold Verif.Mtrie.mark
      simp only
      split
      · rw [setEnt_ents]
        split
        · next hh => rw [hh.1, hh.2]
        · rfl
      · rfl
    have h2 : Inv (Verif.Mtrie.mark s' n (idx a low (hiOf low)) m) lab' T T' low (hiOf low) K (F - 1) := by
      unfold Verif.Mtrie.mark
      simp only
      split
      · next h0 =>
        apply inv_ents h'
        · intro n' i' hn'
          rw [if_neg (fun hh => by rw [hh.1, hl'] at hn'; cases hn')]
        · intro n' v' low' p' hl'' i' hi'
          by_cases hh : n' = n ∧ i' = idx a low (hiOf low)
          · rw [if_pos hh]
            obtain ⟨rfl, rfl⟩ := hh
            rw [hl'] at hl''
            cases hl''
            have := (h'.ent n' v low _ hl' _ hi').mark m c h0 hm hb.1 hb.2
            rw [← hc] at this
            exact this
          · rw [if_neg hh]; exact h'.ent n' v' low' p' hl'' i' hi'
        · intro n' i'
          split
          · next hh => rw [hh.1, hh.2]
          · rfl
      · exact h'
    refine h2.liftE hlow v a m hu hm hm2 ?_
    intro n' p i hl'' hi' hqq _
    rw [hq] at hqq
    obtain ⟨rfl, rfl⟩ := add_mul_inj hi' hi hqq
    have := h'.inj n' n _ hl'' hl'
    subst this
    refine ⟨?_, by rw [hnx, hc]; intro hh; cases hh⟩
    unfold Verif.Mtrie.mark
    simp only
    split
    · rw [setEnt_ents, if_pos ⟨rfl, rfl⟩]; simp only; omega
    · assumption
  constructor
  · intro s' c hch
    unfold child at hch
    cases hn : (s.ents n (idx a low (hiOf low))).next with
    | some c0 =>
      rw [hn] at hch
      cases hch
      have hc2 := h.chl n v low _ hl _ hi c hn
      have hmon : Inv s lab T T' low (hiOf low) K (F - 1) := by
        obtain ⟨l, l1, l2⟩ := h.free
        exact ⟨h.lv, h.root, h.par, h.ent, h.chl, h.ref, h.refle, l, ⟨l1.1, by omega⟩, l2⟩
      exact ⟨lab, fin s lab c hmon hl hn, by rw [hc2.2, ← hq]⟩
    | none =>
      rw [hn] at hch
      unfold nodeAlloc at hch
      cases hf : s.first with
      | none => rw [hf] at hch; cases hch
      | some x =>
        rw [hf] at hch
        cases hch
        have ha' := h.alloc n (idx a low (hiOf low)) v low (blk a low) c hl hi (by omega) (Nat.le_refl _) (Nat.le_refl _) hn hf
        have hnc : n ≠ c := by
          intro hh
          subst hh
          obtain ⟨l, l1, l2, l3, l4, l5⟩ := h.free
          rw [hf] at l2
          cases l with
          | nil => cases l2
          | cons y ys =>
            simp only [List.head?_cons, Option.some.injEq] at l2
            subst l2
            have := (l5 n (by simp)).1
            rw [hl] at this
            cases this
        refine ⟨_, fin _ _ c ha' ?_ ?_, ?_⟩
        · simp only [if_neg hnc]; exact hl
        · unfold St.setNext
          rw [setEnt_ents, if_pos ⟨rfl, rfl⟩]
        · simp only [if_true]; rw [hq]
  · intro hF
    unfold child
    cases hn : (s.ents n (idx a low (hiOf low))).next with
    | some c0 => exact ⟨_, rfl⟩
    | none =>
      simp only
      unfold nodeAlloc
      obtain ⟨l, l1, l2, l3⟩ := h.free
      cases l with
      | nil => have := l1.2; simp only [List.length_nil] at this; omega
      | cons y ys => rw [l2]; exact ⟨_, rfl⟩

theorem Inv.fless (h : Inv s lab T T' cE cR K F) {F' : Nat} (hf : F' ≤ F) : Inv s lab T T' cE cR K F' := by
  obtain ⟨l, l1, l2⟩ := h.free
  exact ⟨h.lv, h.root, h.par, h.ent, h.chl, h.ref, h.refle, l, ⟨l1.1, by omega⟩, l2⟩

theorem same_loop (n high m d b e : Nat) (s : St) : Same s (rangeLoop (writeEnt n high m d) (e - b) b s) := by
  obtain ⟨w1, w2, w3, w4, w5, w6, w7, w8⟩ := writeLoop n high m d b e s
  exact ⟨w5, w6, w7, w8⟩

/-- `levels` from `low` on. -/
def from_ (low : Nat) : List (Nat × Nat) :=
  if low = 0 then [(0, 16), (16, 24), (24, 32)] else if low = 16 then [(16, 24), (24, 32)] else [(24, 32)]

theorem from_cons {low : Nat} (h : low = 0 ∨ low = 16 ∨ low = 24) :
    ∃ r, from_ low = (low, hiOf low) :: r ∧ (hiOf low < 32 → r = from_ (hiOf low)) := by
  rcases h with rfl | rfl | rfl
  · exact ⟨_, rfl, fun _ => rfl⟩
  · exact ⟨_, rfl, fun _ => rfl⟩
  · exact ⟨_, rfl, fun hh => absurd hh (by decide)⟩

/-- Tables that an insertion may need from the level `low` on. -/
def need (low : Nat) : Nat := if low = 0 then 2 else if low = 16 then 1 else 0

/-- What an insertion from the level `low` on does. -/
def InsOK (low : Nat) : Prop := ∀ (s : St) (lab : Nat → Option (Nat × Nat × Nat)) (T T' : Rules) (n K F v a m d : Nat),
    Inv s lab T T' low low K F → K + (need low + 1) < 2 ^ 16 → lab n = some (v, low, blk a low) →
    Upd T T' v a m → T' v a m = some d → a < 2 ^ 32 → net a m = a → low < m → m ≤ 32 →
    ((insertLv a m d (from_ low) s n).2 = true →
      ∃ lab', Inv (insertLv a m d (from_ low) s n).1 lab' T' T' 0 0 (K + (need low + 1)) (F - need low)) ∧
    (need low ≤ F → (insertLv a m d (from_ low) s n).2 = true) ∧
    Same s (insertLv a m d (from_ low) s n).1

theorem insert_step (low : Nat) (hlow : low = 0 ∨ low = 16 ∨ low = 24) (ih : hiOf low < 32 → InsOK (hiOf low)) :
    InsOK low := by
  intro s lab T T' n K F v a m d h hK hl hu hT' ha han hlm hm
  obtain ⟨r, hr, hr2⟩ := from_cons hlow
  rw [hr]
  have h1 := h.inc v a m n hl hu (by omega)
  have s1 : Same s (incRef s n) := ⟨rfl, rfl, rfl, rfl⟩
  unfold insertLv
  simp only
  by_cases hmh : m ≤ hiOf low
  · simp only [if_pos hmh]
    refine ⟨fun _ => ⟨lab, ?_⟩, fun _ => trivial, s1.trans (same_loop ..)⟩
    exact ((h1.write n v a m d hl hu hT' ha han hlm hmh).mono (by omega)).fless (Nat.sub_le _ _)
  · simp only [if_neg hmh]
    have hh32 : hiOf low < 32 := by have := (hiOf_bounds hlow).2; omega
    obtain ⟨d1, d2⟩ := h1.down n v a m d hl hu ha (by omega) hm
    have hneed : need low = need (hiOf low) + 1 := by
      rcases hlow with rfl | rfl | rfl
      · rfl
      · rfl
      · exact absurd hh32 (by decide)
    cases hc : child (incRef s n) n (nodeIdx a low (hiOf low)) with
    | none =>
      simp only
      refine ⟨fun hh => absurd hh (by decide), fun hF => ?_, s1⟩
      obtain ⟨q, hq⟩ := d2 (by omega)
      rw [hc] at hq; cases hq
    | some q =>
      obtain ⟨s2, c⟩ := q
      simp only
      obtain ⟨lab2, i2, l2⟩ := d1 s2 c hc
      rw [hr2 hh32]
      obtain ⟨r1, r2, r3⟩ := ih hh32 _ lab2 T T' c (K + 1) (F - 1) v a m d i2 (by omega) l2 hu hT' ha han (by omega) hm
      refine ⟨fun hs => ?_, fun hF => r2 (by omega), s1.trans ((same_child hc).trans ((same_mark ..).trans r3))⟩
      obtain ⟨lab', i'⟩ := r1 hs
      exact ⟨lab', (i'.mono (by omega)).fless (by omega)⟩

theorem insOK_24 : InsOK 24 := insert_step 24 (by decide) (fun h => absurd h (by decide))
theorem insOK_16 : InsOK 16 := insert_step 16 (by decide) (fun _ => insOK_24)
theorem insOK_0 : InsOK 0 := insert_step 0 (by decide) (fun _ => insOK_16)

/-- `ofp_rtl_insert`. -/
theorem insert_inv (h : Inv s lab T T cE cR K F) (hK : K + 3 < 2 ^ 16) (v a m d : Nat) (hv : v < s.roots)
    (hu : Upd T T' v (net a m) m) (hT' : T' v (net a m) m = some d) (ha : a < 2 ^ 32) (hm0 : 1 ≤ m) (hm : m ≤ 32) :
    ((insert s v a m d).2 = true → ∃ lab', Inv (insert s v a m d).1 lab' T' T' 0 0 (K + 3) (F - 2)) ∧
    (2 ≤ F → (insert s v a m d).2 = true) ∧ Same s (insert s v a m d).1 := by
  unfold insert
  rw [netPrefix_eq a m ha hm]
  have hn := net_lt a m ha
  exact insOK_0 s lab T T' v K F v (net a m) m d (h.start T') hK (by rw [blk_zero _ hn]; exact h.root v hv) hu hT' hn
    (net_net a m) hm0 hm

end Verif.Mtrie

import Verif.Mtrie.Arith
/-! # Invariant of the mtrie -/
namespace Verif.Mtrie

/-- Rules: VRF, network address, length ↦ next hop. -/
abbrev Rules := Nat → Nat → Nat → Option Nat

/-- Upper end of the level that begins at bit `low`. -/
def hiOf (low : Nat) : Nat := if low = 0 then 16 else low + 8

/-- What an element of a table of level `low` - `high`, for the addresses whose first `high` bits are `q`, says about
the rules. -/
structure EntOK (T : Rules) (v low high q : Nat) (e : Ent) : Prop where
  zero : e.masklen = 0 → ∀ x, x < 2 ^ 32 → blk x high = q → ∀ m, low < m → m ≤ 32 → T v (net x m) m = none
  gt : e.masklen ≠ 0 → low < e.masklen
  best : e.masklen ≠ 0 → e.masklen ≤ high → ∀ x, x < 2 ^ 32 → blk x high = q →
    T v (net x e.masklen) e.masklen = some e.data ∧ ∀ m, e.masklen < m → m ≤ high → T v (net x m) m = none
  above : high < e.masklen → ∀ x, x < 2 ^ 32 → blk x high = q → ∀ m, low < m → m ≤ high → T v (net x m) m = none
  leaf : e.next = none → ∀ x, x < 2 ^ 32 → blk x high = q → ∀ m, high < m → m ≤ 32 → T v (net x m) m = none

/-- `k = (network address, length)` is a rule below the table of level `low` for prefix `p`. -/
def Under (T : Rules) (v low p : Nat) (k : Nat × Nat) : Prop :=
  low < k.2 ∧ k.2 ≤ 32 ∧ k.1 < 2 ^ 32 ∧ net k.1 k.2 = k.1 ∧ blk k.1 low = p ∧ T v k.1 k.2 ≠ none

/-- The free list. -/
def Linked (s : St) : List Nat → Prop
  | [] => True
  | [a] => (s.ents a 0).next = none
  | a :: b :: r => (s.ents a 0).next = some b ∧ Linked s (b :: r)

/-- The state represents the rules: `T` in the levels at or below the cut, `T'` above it (while an operation is under
way; `cE` for the elements, `cR` for the counters). `lab n = some (v, low, p)`: table `n` is in use in VRF `v` at level
`low` for the addresses whose first `low` bits are `p`. No counter exceeds `K`, and at least `F` tables are free. -/
structure Inv (s : St) (lab : Nat → Option (Nat × Nat × Nat)) (T T' : Rules) (cE cR K F : Nat) : Prop where
  lv : ∀ n v low p, lab n = some (v, low, p) → (low = 0 ∨ low = 16 ∨ low = 24) ∧ v < s.roots ∧ (n < s.roots ↔ low = 0)
  root : ∀ v, v < s.roots → lab v = some (v, 0, 0)
  par : ∀ c v hi q, lab c = some (v, hi, q) → hi ≠ 0 → ∃ n low p i, lab n = some (v, low, p) ∧ hi = hiOf low ∧
    i < 2 ^ (hiOf low - low) ∧ q = p * 2 ^ (hiOf low - low) + i ∧ (s.ents n i).next = some c
  ent : ∀ n v low p, lab n = some (v, low, p) → ∀ i, i < 2 ^ (hiOf low - low) →
    EntOK (if low < cE then T' else T) v low (hiOf low) (p * 2 ^ (hiOf low - low) + i) (s.ents n i)
  chl : ∀ n v low p, lab n = some (v, low, p) → ∀ i, i < 2 ^ (hiOf low - low) → ∀ c, (s.ents n i).next = some c →
    hiOf low < 32 ∧ lab c = some (v, hiOf low, p * 2 ^ (hiOf low - low) + i)
  ref : ∀ n v low p, lab n = some (v, low, p) → ∀ L : List (Nat × Nat), L.Nodup →
    (∀ k ∈ L, Under (if low < cR then T' else T) v low p k) → L.length ≤ s.ref n
  refle : ∀ n, s.ref n ≤ K
  free : ∃ l : List Nat, (l.Nodup ∧ F ≤ l.length) ∧ s.first = l.head? ∧ s.last = l.getLast? ∧ Linked s l ∧
    ∀ n ∈ l, lab n = none ∧ s.roots ≤ n ∧ ∀ i, (s.ents n i).masklen = 0 ∧ (i ≠ 0 → (s.ents n i).next = none)

/-- `T'` is `T` with another value for the route `a/m` of VRF `v`. -/
def Upd (T T' : Rules) (v a m : Nat) : Prop := ∀ v' a' m', ¬ (v' = v ∧ a' = a ∧ m' = m) → T' v' a' m' = T v' a' m'

theorem hiOf_bounds {low : Nat} (h : low = 0 ∨ low = 16 ∨ low = 24) : low < hiOf low ∧ hiOf low ≤ 32 := by
  rcases h with rfl | rfl | rfl <;> decide

section
variable {T T' : Rules} {v low high q : Nat} {e : Ent}

/-- The element stays right when the rules change only deeper, and are still found. -/
theorem EntOK.congr (h : EntOK T v low high q e)
    (h1 : ∀ x, x < 2 ^ 32 → blk x high = q → ∀ m, low < m → m ≤ high → T' v (net x m) m = T v (net x m) m)
    (h2 : (e.masklen = 0 ∨ e.next = none) → ∀ x, x < 2 ^ 32 → blk x high = q → ∀ m, high < m → m ≤ 32 →
      T v (net x m) m = none → T' v (net x m) m = none) (hlh : low ≤ high) : EntOK T' v low high q e := by
  refine ⟨?_, h.gt, ?_, ?_, ?_⟩
  · intro h0 x hx hb m hm hm'
    by_cases hmh : m ≤ high
    · rw [h1 x hx hb m hm hmh]; exact h.zero h0 x hx hb m hm hm'
    · exact h2 (Or.inl h0) x hx hb m (by omega) hm' (h.zero h0 x hx hb m hm hm')
  · intro h0 hle x hx hb
    obtain ⟨b1, b2⟩ := h.best h0 hle x hx hb
    have hl := h.gt h0
    refine ⟨by rw [h1 x hx hb _ hl hle]; exact b1, ?_⟩
    intro m hm hm'
    rw [h1 x hx hb m (by omega) hm']; exact b2 m hm hm'
  · intro ha x hx hb m hm hm'
    rw [h1 x hx hb m hm hm']; exact h.above ha x hx hb m hm hm'
  · intro hn x hx hb m hm hm'
    exact h2 (Or.inr hn) x hx hb m hm hm' (h.leaf hn x hx hb m hm hm')

theorem EntOK.mark (h : EntOK T v low high q e) (m c : Nat) (h0 : e.masklen = 0) (hm : high < m) (hlh : low < high)
    (hh : high ≤ 32) : EntOK T v low high q { e with masklen := m, next := some c } := by
  refine ⟨?_, ?_, ?_, ?_, ?_⟩
  · intro h; simp only at h; omega
  · intro _; simp only; omega
  · intro _ h; simp only at h; omega
  · intro _ x hx hb k hk hk'
    exact h.zero h0 x hx hb k hk (by omega)
  · intro h; cases h

theorem EntOK.setNext (h : EntOK T v low high q e) (c : Nat) : EntOK T v low high q { e with next := some c } :=
  ⟨h.zero, h.gt, h.best, h.above, by intro h; cases h⟩

/-- Writing the route into an element of its range. -/
theorem EntOK.write (h : EntOK T v low high q e) (a m d : Nat) (hu : Upd T T' v a m) (hT' : T' v a m = some d)
    (hlm : low < m) (hmh : m ≤ high) (hh : high ≤ 32) (hin : ∀ x, x < 2 ^ 32 → blk x high = q → net x m = a) :
    EntOK T' v low high q
      (if e.masklen ≤ m ∨ e.masklen > high then { e with data := d, masklen := m } else e) := by
  have other : ∀ k, k ≠ m → ∀ x, T' v (net x k) k = T v (net x k) k := fun k hk x => hu _ _ _ (fun hh => hk hh.2.2)
  split
  · next hc =>
    refine ⟨?_, ?_, ?_, ?_, ?_⟩
    · intro h0; simp only at h0; omega
    · intro _; exact hlm
    · intro _ _ x hx hb
      simp only
      refine ⟨by rw [hin x hx hb]; exact hT', fun k hk hk' => ?_⟩
      rw [other k (by omega)]
      by_cases h0 : e.masklen = 0
      · exact h.zero h0 x hx hb k (by omega) (by omega)
      · rcases hc with hc | hc
        · exact (h.best h0 (by omega) x hx hb).2 k (by omega) hk'
        · exact h.above hc x hx hb k (by omega) hk'
    · intro hab; simp only at hab; omega
    · intro hn x hx hb k hk hk'
      rw [other k (by omega)]
      exact h.leaf hn x hx hb k hk hk'
  · next hc =>
    have hm1 : m < e.masklen := by omega
    have hm2 : e.masklen ≤ high := by omega
    refine ⟨fun h0 => by omega, h.gt, ?_, fun hab => by omega, ?_⟩
    · intro h0 _ x hx hb
      obtain ⟨b1, b2⟩ := h.best h0 hm2 x hx hb
      refine ⟨by rw [other _ (by omega)]; exact b1, fun k hk hk' => ?_⟩
      rw [other k (by omega)]; exact b2 k hk hk'
    · intro hn x hx hb k hk hk'
      rw [other k (by omega)]
      exact h.leaf hn x hx hb k hk hk'

/-- A fresh table. -/
theorem EntOK.fresh (h0 : e.masklen = 0)
    (h : ∀ x, x < 2 ^ 32 → blk x high = q → ∀ m, low < m → m ≤ 32 → T v (net x m) m = none) (hlh : low ≤ high) :
    EntOK T v low high q e := by
  refine ⟨fun _ => h, fun hn => absurd h0 hn, fun hn => absurd h0 hn, fun hn => by omega, ?_⟩
  intro _ x hx hb m hm hm'
  exact h x hx hb m (by omega) hm'

end

/-! ## The loops touch each element of the range once -/

theorem rangeLoop_out (f : St → Nat → St) (n : Nat)
    (hf : ∀ s i n' i', ¬ (n' = n ∧ i' = i) → (f s i).ents n' i' = s.ents n' i')
    (hr : ∀ s i, (f s i).ref = s.ref ∧ (f s i).first = s.first ∧ (f s i).last = s.last ∧ (f s i).roots = s.roots ∧
      (f s i).rules = s.rules ∧ (f s i).nrules = s.nrules ∧ (f s i).maxrules = s.maxrules) :
    ∀ (k i : Nat) (s : St), (∀ n' i', ¬ (n' = n ∧ i ≤ i' ∧ i' < i + k) → (rangeLoop f k i s).ents n' i' = s.ents n' i') ∧
      (rangeLoop f k i s).ref = s.ref ∧ (rangeLoop f k i s).first = s.first ∧ (rangeLoop f k i s).last = s.last ∧
      (rangeLoop f k i s).roots = s.roots ∧ (rangeLoop f k i s).rules = s.rules ∧
      (rangeLoop f k i s).nrules = s.nrules ∧ (rangeLoop f k i s).maxrules = s.maxrules := by
  intro k
  induction k with
  | zero => intro i s; exact ⟨fun _ _ _ => rfl, rfl, rfl, rfl, rfl, rfl, rfl, rfl⟩
  | succ k ih =>
    intro i s
    rw [rangeLoop]
    obtain ⟨i1, i2, i3, i4, i5, i6, i7, i8⟩ := ih (i + 1) (f s i)
    obtain ⟨r1, r2, r3, r4, r5, r6, r7⟩ := hr s i
    refine ⟨?_, i2.trans r1, i3.trans r2, i4.trans r3, i5.trans r4, i6.trans r5, i7.trans r6, i8.trans r7⟩
    intro n' i' hn
    rw [i1 n' i' (fun hh => hn ⟨hh.1, by omega, by omega⟩), hf s i n' i' (fun hh => hn ⟨hh.1, by omega, by omega⟩)]

/-- Effect on element `i`, when the body at `i` depends only on element `i` and `last`. -/
theorem rangeLoop_in (f : St → Nat → St) (n : Nat) (g : Option Nat → Nat → Ent → Ent)
    (hf : ∀ s i n' i', ¬ (n' = n ∧ i' = i) → (f s i).ents n' i' = s.ents n' i')
    (hr : ∀ s i, (f s i).ref = s.ref ∧ (f s i).first = s.first ∧ (f s i).last = s.last ∧ (f s i).roots = s.roots ∧
      (f s i).rules = s.rules ∧ (f s i).nrules = s.nrules ∧ (f s i).maxrules = s.maxrules)
    (hg : ∀ s i, (f s i).ents n i = g s.last i (s.ents n i)) :
    ∀ (k i : Nat) (s : St) (i' : Nat), i ≤ i' → i' < i + k → (rangeLoop f k i s).ents n i' = g s.last i' (s.ents n i') := by
  intro k
  induction k with
  | zero => intro i s i' h1 h2; omega
  | succ k ih =>
    intro i s i' h1 h2
    rw [rangeLoop]
    by_cases hi : i' = i
    · subst hi
      rw [(rangeLoop_out f n hf hr k (i' + 1) (f s i')).1 n i' (fun hh => by omega), hg]
    · rw [ih (i + 1) (f s i) i' (by omega) (by omega), (hr s i).2.2.1, hf s i n i' (fun hh => hi hh.2)]

theorem setEnt_ents (s : St) (n i : Nat) (e : Ent) (n' i' : Nat) :
    (s.setEnt n i e).ents n' i' = if n' = n ∧ i' = i then e else s.ents n' i' := rfl

theorem write_out (n high m d : Nat) (s : St) (i n' i' : Nat) (h : ¬ (n' = n ∧ i' = i)) :
    (writeEnt n high m d s i).ents n' i' = s.ents n' i' := by
  unfold writeEnt
  simp only
  split
  · rw [setEnt_ents, if_neg h]
  · rfl

theorem write_rest (n high m d : Nat) (s : St) (i : Nat) :
    (writeEnt n high m d s i).ref = s.ref ∧ (writeEnt n high m d s i).first = s.first ∧
    (writeEnt n high m d s i).last = s.last ∧ (writeEnt n high m d s i).roots = s.roots ∧
      (writeEnt n high m d s i).rules = s.rules ∧ (writeEnt n high m d s i).nrules = s.nrules ∧
      (writeEnt n high m d s i).maxrules = s.maxrules := by
  unfold writeEnt
  simp only
  split
  · exact ⟨rfl, rfl, rfl, rfl, rfl, rfl, rfl⟩
  · exact ⟨rfl, rfl, rfl, rfl, rfl, rfl, rfl⟩

/-- The new value of an element in the range of an inserted route. -/
def wr (high m d : Nat) (e : Ent) : Ent :=
  if e.masklen ≤ m ∨ e.masklen > high then { e with data := d, masklen := m } else e

theorem write_in (n high m d : Nat) (s : St) (i : Nat) :
    (writeEnt n high m d s i).ents n i = wr high m d (s.ents n i) := by
  unfold writeEnt wr
  simp only
  split
  · rw [setEnt_ents, if_pos ⟨rfl, rfl⟩]
  · rfl

/-- The new value of an element in the range of a removed route. -/
def cl (n high m d : Nat) (last : Option Nat) (i : Nat) (e : Ent) : Ent :=
  if e.masklen = m ∧ e.data = d then
    if e.next = none ∧ ¬ (i = 0 ∧ last = some n) then { e with masklen := 0 } else { e with masklen := high + 1 }
  else e

theorem clear_out (n high m d : Nat) (s : St) (i n' i' : Nat) (h : ¬ (n' = n ∧ i' = i)) :
    (clearEnt n high m d s i).ents n' i' = s.ents n' i' := by
  unfold clearEnt
  simp only
  split
  · split
    · rw [setEnt_ents, if_neg h]
    · rw [setEnt_ents, if_neg h]
  · rfl

theorem clear_rest (n high m d : Nat) (s : St) (i : Nat) :
    (clearEnt n high m d s i).ref = s.ref ∧ (clearEnt n high m d s i).first = s.first ∧
    (clearEnt n high m d s i).last = s.last ∧ (clearEnt n high m d s i).roots = s.roots ∧
      (clearEnt n high m d s i).rules = s.rules ∧ (clearEnt n high m d s i).nrules = s.nrules ∧
      (clearEnt n high m d s i).maxrules = s.maxrules := by
  unfold clearEnt
  simp only
  split
  · split
    · exact ⟨rfl, rfl, rfl, rfl, rfl, rfl, rfl⟩
    · exact ⟨rfl, rfl, rfl, rfl, rfl, rfl, rfl⟩
  · exact ⟨rfl, rfl, rfl, rfl, rfl, rfl, rfl⟩

theorem clear_in (n high m d : Nat) (s : St) (i : Nat) :
    (clearEnt n high m d s i).ents n i = cl n high m d s.last i (s.ents n i) := by
  unfold clearEnt cl
  simp only
  split
  · split
    · rw [setEnt_ents, if_pos ⟨rfl, rfl⟩]
    · rw [setEnt_ents, if_pos ⟨rfl, rfl⟩]
  · rfl

/-- What a write loop does to the state. -/
theorem writeLoop (n high m d b e : Nat) (s : St) :
    (∀ n' i', (rangeLoop (writeEnt n high m d) (e - b) b s).ents n' i' =
      if n' = n ∧ b ≤ i' ∧ i' < e then wr high m d (s.ents n' i') else s.ents n' i') ∧
    (rangeLoop (writeEnt n high m d) (e - b) b s).ref = s.ref ∧
    (rangeLoop (writeEnt n high m d) (e - b) b s).first = s.first ∧
    (rangeLoop (writeEnt n high m d) (e - b) b s).last = s.last ∧
    (rangeLoop (writeEnt n high m d) (e - b) b s).roots = s.roots ∧
    (rangeLoop (writeEnt n high m d) (e - b) b s).rules = s.rules ∧
    (rangeLoop (writeEnt n high m d) (e - b) b s).nrules = s.nrules ∧
    (rangeLoop (writeEnt n high m d) (e - b) b s).maxrules = s.maxrules := by
  have o := rangeLoop_out (writeEnt n high m d) n (write_out n high m d) (write_rest n high m d) (e - b) b s
  refine ⟨?_, o.2⟩
  intro n' i'
  split
  · next h =>
    obtain ⟨rfl, h1, h2⟩ := h
    exact rangeLoop_in (writeEnt n' high m d) n' (fun _ _ e => wr high m d e) (write_out n' high m d) (write_rest n' high m d)
      (write_in n' high m d) (e - b) b s i' h1 (by omega)
  · next h => exact o.1 n' i' (fun hh => h ⟨hh.1, hh.2.1, by omega⟩)

/-- What a clear loop does to the state. -/
theorem clearLoop (n high m d b e : Nat) (s : St) :
    (∀ n' i', (rangeLoop (clearEnt n high m d) (e - b) b s).ents n' i' =
      if n' = n ∧ b ≤ i' ∧ i' < e then cl n high m d s.last i' (s.ents n' i') else s.ents n' i') ∧
    (rangeLoop (clearEnt n high m d) (e - b) b s).ref = s.ref ∧
    (rangeLoop (clearEnt n high m d) (e - b) b s).first = s.first ∧
    (rangeLoop (clearEnt n high m d) (e - b) b s).last = s.last ∧
    (rangeLoop (clearEnt n high m d) (e - b) b s).roots = s.roots ∧
    (rangeLoop (clearEnt n high m d) (e - b) b s).rules = s.rules ∧
    (rangeLoop (clearEnt n high m d) (e - b) b s).nrules = s.nrules ∧
    (rangeLoop (clearEnt n high m d) (e - b) b s).maxrules = s.maxrules := by
  have o := rangeLoop_out (clearEnt n high m d) n (clear_out n high m d) (clear_rest n high m d) (e - b) b s
  refine ⟨?_, o.2⟩
  intro n' i'
  split
  · next h =>
    obtain ⟨rfl, h1, h2⟩ := h
    exact rangeLoop_in (clearEnt n' high m d) n' (cl n' high m d) (clear_out n' high m d) (clear_rest n' high m d)
      (clear_in n' high m d) (e - b) b s i' h1 (by omega)
  · next h => exact o.1 n' i' (fun hh => h ⟨hh.1, hh.2.1, by omega⟩)

end Verif.Mtrie

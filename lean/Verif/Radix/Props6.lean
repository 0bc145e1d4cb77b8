import Verif.Radix.Props
import Verif.Radix.Model6

/-!
# Properties C10, C11 (and the IPv6 side of C06–C08)
-/
namespace Verif.Radix
open Tree
variable {α : Type}

/-! ## bits of IPv6 addresses -/

theorem byte_test : ∀ b : Fin 256, ∀ r : Fin 8,
    ((b.val &&& (1 <<< r.val)) != 0) = b.val.testBit r.val := by decide +kernel

theorem bits6_get (a : List UInt8) : ∀ d, (Spec.bits6 a)[d]? =
    (a[d / 8]?).map (fun b => b.toNat.testBit (7 - d % 8)) := by
  induction a with
  | nil => intro d; simp [Spec.bits6]
  | cons b a ih =>
    intro d
    have hl : (Spec.byteBits b).length = 8 := by simp [Spec.byteBits]
    simp only [Spec.bits6, List.flatMap_cons] at ih ⊢
    by_cases h : d < 8
    · rw [List.getElem?_append_left (by omega), Spec.byteBits, List.getElem?_map,
        List.getElem?_range h, show d / 8 = 0 by omega]
      simp [Nat.mod_eq_of_lt h]
    · rw [List.getElem?_append_right (by omega), hl, ih (d - 8),
        show d / 8 = (d - 8) / 8 + 1 by omega, show (d - 8) % 8 = d % 8 by omega]
      simp

theorem bits6_length (a : List UInt8) : (Spec.bits6 a).length = 8 * a.length := by
  induction a with
  | nil => rfl
  | cons b a ih =>
    simp only [Spec.bits6, List.flatMap_cons, List.length_append, List.length_cons] at ih ⊢
    rw [ih]; simp [Spec.byteBits]; omega

theorem bit6_eq (g : Nat → Bool) (a : List UInt8) (ha : a.length = 16) (d : Nat) (hd : d < 128) :
    (Spec.bits6 a)[d]? = some (bit6 g a d) := by
  rw [bits6_get]
  have h : d / 8 < a.length := by omega
  unfold bit6
  rw [List.getElem?_eq_getElem h]
  simp only [Option.map_some, Option.some.injEq]
  have := byte_test ⟨(a[d / 8]).toNat, (a[d/8]).toNat_lt⟩ ⟨7 - d % 8, by omega⟩
  exact this.symm

theorem path6 (g : Nat → Bool) (a : List UInt8) (ha : a.length = 16) (n : Nat) (hn : n ≤ 128) :
    pathFrom (bit6 g a) 0 n = (Spec.bits6 a).take n := by
  apply List.ext_getElem?
  intro i
  by_cases hi : i < n
  · rw [List.getElem?_take, if_pos hi, bit6_eq g a ha i (by omega), pathFrom_eq, List.getElem?_map,
      List.getElem?_range hi]
    simp
  · rw [List.getElem?_eq_none (by simp; omega), List.getElem?_eq_none (by simp; omega)]

def pfx6 (a : List UInt8) (len : Nat) : List Bool := (Spec.bits6 a).take len

/-- Histories of the IPv6 table; `g` are the values of out-of-bounds reads, which may differ each time. -/
inductive Hist6 (total : Nat) : St6 α → Spec.Table α → Prop
  | init : 1 ≤ total → Hist6 total (init6 total) Spec.Table.empty
  | addOk {s s' T g a len d} : Hist6 total s T → a.length = 16 → len ≤ 128 →
      insert6 g s a len d = (s', .ok) → Hist6 total s' (T.add (pfx6 a len) d)
  | addFail {s s' T g a len d r} : Hist6 total s T → a.length = 16 → len ≤ 128 →
      insert6 g s a len d = (s', r) → r ≠ .ok → Hist6 total s' T
  | del {s s' T g a len r} : Hist6 total s T → a.length = 16 → len ≤ 128 →
      remove6 g s a len = (s', r) → Hist6 total s' (T.del (pfx6 a len))

structure Inv6 (total : Nat) (s : St6 α) (T : Spec.Table α) : Prop where
  ok : OkRoot 127 s.root
  tab : ∀ p, abs s.root p = T p
  mem : s.free + s.root.size = total

theorem okRoot_ne {h : Nat} {t : Tree α} (hok : OkRoot h t) : t ≠ nil := by
  intro h; subst h; exact hok

theorem hist6_inv {total : Nat} {s : St6 α} {T} (hh : Hist6 total s T) : Inv6 total s T := by
  induction hh with
  | init hn =>
    refine ⟨by simp [init6, OkRoot], ?_, by simp [init6, size]; omega⟩
    intro p
    cases p with
    | nil => simp [init6, abs, Spec.Table.empty]
    | cons b p => cases b <;> simp [init6, abs, Spec.Table.empty]
  | @addOk s s' T g a len d hh ha hl he ih =>
    simp only [insert6, Prod.mk.injEq] at he
    obtain ⟨rfl, he⟩ := he
    obtain ⟨h1, h2⟩ := (insertAt_spec true (bit6 g a) len d s.free s.root 0 (by omega)
      (okRoot_ne ih.ok)).2.1 he
    refine ⟨insertAt_okRoot true _ len d s.free s.root 127 (by omega) ih.ok, ?_, ?_⟩
    · intro p
      rw [h1 p, Nat.sub_zero, path6 g a ha len hl, ih.tab]
      rfl
    · have := ih.mem; simp only; omega
  | @addFail s s' T g a len d r hh ha hl he hne ih =>
    simp only [insert6, Prod.mk.injEq] at he
    obtain ⟨rfl, rfl⟩ := he
    obtain ⟨h1, h2⟩ := (insertAt_spec true (bit6 g a) len d s.free s.root 0 (by omega)
      (okRoot_ne ih.ok)).2.2 hne
    rw [h1, h2]; exact ih
  | @del s s' T g a len r hh ha hl he ih =>
    simp only [remove6, Prod.mk.injEq] at he
    obtain ⟨rfl, rfl⟩ := he
    obtain ⟨h1, h2, _⟩ := removeAt_spec (bit6 g a) len s.root 0 127 (by omega) (Or.inr ih.ok)
    refine ⟨removeAt_okRoot _ len s.root 127 ih.ok, ?_, ?_⟩
    · intro p
      rw [h1 p, Nat.sub_zero, path6 g a ha len hl, ih.tab]
      rfl
    · have := ih.mem; simp only; omega

/-! ## C10 -/

/-- **C10.** After any history, the IPv6 lookup returns the next hop of the longest matching prefix,
whatever the out-of-bounds reads return. -/
theorem lookup6_is_lpm {total : Nat} {s : St6 α} {T} (hh : Hist6 total s T) (g : Nat → Bool)
    (a : List UInt8) (ha : a.length = 16) :
    ∃ r, search6 g s a = r.map some ∧ Spec.IsLpm T (Spec.bits6 a) r := by
  have hi := hist6_inv hh
  have hb := bits6_length a
  simp only [search6]
  rcases searchAt_spec (bit6 g a) s.root 0 127 none (Or.inr hi.ok) with ⟨n, y, e1, e2, e3⟩ | ⟨e1, e2⟩
  · have hn : n ≤ 128 := by
      by_cases h : n ≤ 128
      · exact h
      · rw [abs_height_root hi.ok (by rw [pathFrom_length]; omega)] at e1; cases e1
    refine ⟨some y, e3, Or.inl ⟨y, n, by omega, ?_, ?_, rfl⟩⟩
    · rw [← hi.tab, ← path6 g a ha n hn]; exact e1
    · intro m h1 h2; rw [← hi.tab, ← path6 g a ha m (by omega)]; exact e2 m h1
  · refine ⟨none, e2, Or.inr ⟨?_, rfl⟩⟩
    intro m hm; rw [← hi.tab, ← path6 g a ha m (by omega)]; exact e1 m

/-- **C10, results of the operations.** An IPv6 addition fails exactly when the same prefix is already
stored (then its next hop is reported and kept: no overwrite, unlike IPv4) or when nodes run out; a failed
addition changes nothing; a deletion reports the deleted next hop. -/
theorem ops6_results {total : Nat} {s : St6 α} {T} (hh : Hist6 total s T) (g : Nat → Bool)
    (a : List UInt8) (ha : a.length = 16) (len : Nat) (hl : len ≤ 128) (d : α) :
    (∀ y, T (pfx6 a len) = some y → insert6 g s a len d = (s, .exists_ (some y))) ∧
    (T (pfx6 a len) = none → (insert6 g s a len d).2 = .ok ∨
      (insert6 g s a len d = (s, .nomem) ∧ s.free < len)) ∧
    (remove6 g s a len).2 = (T (pfx6 a len)).map some := by
  have hi := hist6_inv hh
  have hp := path6 g a ha len hl
  have hex := insertAt_v6_exists (bit6 g a) len d s.free s.root 0 127 (by omega) (okRoot_ne hi.ok)
    (Or.inr hi.ok)
  have hsp := insertAt_spec true (bit6 g a) len d s.free s.root 0 (by omega) (okRoot_ne hi.ok)
  have hen := insertAt_enough true (bit6 g a) len d s.free s.root 0 (okRoot_ne hi.ok)
  rw [Nat.sub_zero, hp, hi.tab] at hex
  refine ⟨?_, ?_, ?_⟩
  · intro y hy
    have h1 := hex.1 y hy
    have h2 := hsp.2.2 (by rw [h1]; simp)
    simp only [insert6, h1, h2.1, h2.2]
  · intro hn
    have h1 := hex.2 hn
    by_cases hok : (insertAt true (bit6 g a) len d s.free 0 s.root).2.2 = .ok
    · left; exact hok
    · right
      have h2 := hsp.2.2 hok
      have hnm : (insertAt true (bit6 g a) len d s.free 0 s.root).2.2 = .nomem := by
        cases hr : (insertAt true (bit6 g a) len d s.free 0 s.root).2.2 with
        | ok => exact absurd hr hok
        | nomem => rfl
        | exists_ y => exact absurd hr (h1 y)
      refine ⟨by simp only [insert6, hnm, h2.1, h2.2], ?_⟩
      by_cases h : len - 0 ≤ s.free
      · exact absurd hnm (hen h)
      · omega
  · have := (removeAt_spec (bit6 g a) len s.root 0 127 (by omega) (Or.inr hi.ok)).2.2
    rw [Nat.sub_zero, hp, hi.tab] at this
    exact this

/-- **C07 for IPv6.** Nodes are conserved, and an emptied table holds only its root. -/
theorem nodes6_conserved {total : Nat} {s : St6 α} {T} (hh : Hist6 total s T) :
    s.free + s.root.size = total ∧ ((∀ p, T p = none) → s.free = total - 1) := by
  have hi := hist6_inv hh
  refine ⟨hi.mem, ?_⟩
  intro he
  have := size_of_empty hi.ok (fun p => by rw [hi.tab]; exact he p)
  have := hi.mem; omega

/-! ## C11 -/

theorem searchReads_lt (bit : Nat → Bool) : ∀ (t : Tree α) (d h i : Nat), Ok h t →
    i ∈ searchReads bit d t → i ≤ d + h ∧ (i = d + h → (abs t (pathFrom bit d h)).isSome) := by
  intro t
  induction t with
  | nil => intro d h i _ hi; simp [searchReads] at hi
  | node v x l r ihl ihr =>
    intro d h i hok hi
    unfold searchReads at hi
    rw [List.mem_cons] at hi
    cases h with
    | zero =>
      obtain ⟨⟨h1, h2⟩, rfl, rfl⟩ := hok
      have : i = d := by
        rcases hi with hi | hi
        · exact hi
        · split at hi <;> simp [searchReads] at hi
      subst this
      exact ⟨by omega, fun _ => by simp [pathFrom, abs, h1, h2]⟩
    | succ h =>
      obtain ⟨_, _, h3, h4⟩ := hok
      rcases hi with hi | hi
      · subst hi; exact ⟨by omega, by omega⟩
      · by_cases hb : bit d = true
        · rw [if_pos hb] at hi
          have := ihr (d + 1) h i h4 hi
          refine ⟨by omega, fun he => ?_⟩
          have h' := this.2 (by omega)
          simp only [pathFrom, abs, hb, if_true]; exact h'
        · rw [if_neg hb] at hi
          have := ihl (d + 1) h i h3 hi
          refine ⟨by omega, fun he => ?_⟩
          have h' := this.2 (by omega)
          simp only [pathFrom, abs, hb]; exact h'

/-- **C11 (partial), lookup.** A lookup reads only bits 0..127 of the address, i.e. only its 16 bytes,
unless the address itself is stored as a /128 route.  Missing: that case, where it reads byte 16
(`lookup6_oob_violated`). -/
theorem lookup6_in_bounds_partial {total : Nat} {s : St6 α} {T} (hh : Hist6 total s T) (g : Nat → Bool)
    (a : List UInt8) (ha : a.length = 16) (hno : T (Spec.bits6 a) = none) :
    ∀ i ∈ searchReads (bit6 g a) 0 s.root, i < 128 := by
  have hi := hist6_inv hh
  have hroot : ∀ t : Tree α, OkRoot 127 t → ∀ i ∈ searchReads (bit6 g a) 0 t,
      i ≤ 128 ∧ (i = 128 → (abs t (pathFrom (bit6 g a) 0 128)).isSome) := by
    intro t hok i hmem
    match t, hok with
    | node v x l r, ⟨_, h3, h4⟩ =>
      unfold searchReads at hmem
      rw [List.mem_cons] at hmem
      have hp : pathFrom (bit6 g a) 0 128 = bit6 g a 0 :: pathFrom (bit6 g a) 1 127 := rfl
      rcases hmem with h | h
      · subst h; exact ⟨by omega, by omega⟩
      · by_cases hb : bit6 g a 0 = true
        · rw [if_pos hb] at h
          have := searchReads_lt (bit6 g a) r 1 127 i h4 h
          exact ⟨by omega, fun he => by rw [hp]; simp only [abs, hb, if_true]; exact this.2 (by omega)⟩
        · rw [if_neg hb] at h
          have := searchReads_lt (bit6 g a) l 1 127 i h3 h
          exact ⟨by omega, fun he => by rw [hp]; simp only [abs, hb]; exact this.2 (by omega)⟩
  intro i hmem
  obtain ⟨h1, h2⟩ := hroot s.root hi.ok i hmem
  by_cases he : i = 128
  · have := h2 he
    rw [path6 g a ha 128 (by omega), hi.tab, List.take_of_length_le (by rw [bits6_length]; omega),
      hno] at this
    simp at this
  · omega

/-- A 16-byte address. -/
def addr0 : List UInt8 := List.replicate 16 0

/-- **C11 violated (lookup).** Looking up an address that is stored as a /128 route reads bit 128, i.e. the
byte after the 16-byte address. -/
theorem lookup6_oob_violated : ∃ (s : St6 Nat) (T : Spec.Table Nat), Hist6 200 s T ∧
    (128 ∈ searchReads (bit6 (fun _ => false) addr0) 0 s.root) := by
  refine ⟨_, _, .addOk (g := fun _ => false) (a := addr0) (len := 128) (d := 1) (.init (by omega))
    (by decide) (by omega) rfl, ?_⟩
  decide +kernel

/-- **C11 violated (addition).** When nodes run out while a /128 route is being added, the clean-up loop
reads bit 128. -/
theorem insert6_oob_violated :
    128 ∈ insertReads (bit6 (fun _ => false) addr0) 128 (init6 100 : St6 Nat).free 0
      (init6 100 : St6 Nat).root := by
  decide +kernel

/-- **C11 violated (listing).** Listing a table with a /128 route writes bit 128 of the 16-byte key buffer
on the stack. -/
theorem traverse6_oob_violated : ∃ (s : St6 Nat) (T : Spec.Table Nat), Hist6 200 s T ∧
    128 ∈ (traverse6 s.root (fun _ => false) 0).2.2 := by
  refine ⟨_, _, .addOk (g := fun _ => false) (a := addr0) (len := 128) (d := 1) (.init (by omega))
    (by decide) (by omega) rfl, ?_⟩
  decide +kernel

/-! Additions: reads stay inside when the clean-up loop does not reach the leaf of a /128. -/

theorem freeReads_chain (bit : Nat → Bool) (n d : Nat) (v : Bool) (x : Option α) (i : Nat)
    (hi : i ∈ freeReads bit d (chain bit d n (node v x nil nil))) : i ≤ d + n := by
  induction n generalizing d with
  | zero =>
    simp only [chain, freeReads, List.mem_cons] at hi
    rcases hi with hi | hi
    · omega
    · exact absurd hi (by split <;> simp [freeReads])
  | succ n ih =>
    unfold chain at hi
    by_cases hb : bit d = true
    · simp only [hb, if_true, freeReads, List.mem_cons] at hi
      rcases hi with hi | hi
      · omega
      · have := ih (d + 1) hi; omega
    · simp only [hb, if_false, Bool.false_eq_true, freeReads, List.mem_cons] at hi
      rcases hi with hi | hi
      · omega
      · have := ih (d + 1) (by simpa using hi); omega

theorem growReads_le (bit : Nat → Bool) (d : Nat) (v : Bool) (x : Option α) (k : Nat) :
    ∀ (n free i : Nat), i ∈ growReads bit d k free (chain bit (d + k) n (node v x nil nil)) →
      i ≤ d + k + n ∧ (k ≤ free → i < d + k) := by
  induction k with
  | zero => intro n free i hi; simp [growReads] at hi
  | succ k ih =>
    intro n free i hi
    unfold growReads at hi
    by_cases hf : free = 0
    · rw [if_pos hf] at hi
      have := freeReads_chain bit n (d + (k + 1)) v x i hi
      exact ⟨this, by omega⟩
    · rw [if_neg hf, List.mem_cons, chain_mk] at hi
      rcases hi with hi | hi
      · omega
      · have := ih (n + 1) (free - 1) i hi
        exact ⟨by omega, fun h => by have := this.2 (by omega); omega⟩

theorem insertReads_lt (bit : Nat → Bool) (len free : Nat) : ∀ (t : Tree α) (d i : Nat),
    i ∈ insertReads bit len free d t → i ≤ len ∧ (len - d ≤ free → i < len) := by
  intro t
  induction t with
  | nil => intro d i hi; simp [insertReads] at hi
  | node v x l r ihl ihr =>
    intro d i hi
    unfold insertReads at hi
    by_cases hd : d < len
    · rw [if_pos hd, List.mem_cons] at hi
      have grow : i ∈ (if free = 0 then [] else
          growReads bit (d + 1) (len - (d + 1)) (free - 1) (node false (none : Option α) nil nil) ++ [d]) →
          i ≤ len ∧ (len - d ≤ free → i < len) := by
        intro hi
        by_cases hf : free = 0
        · rw [if_pos hf] at hi; simp at hi
        · rw [if_neg hf, List.mem_append] at hi
          rcases hi with hi | hi
          · have := growReads_le bit (d + 1) false (none : Option α) (len - (d + 1)) 0 (free - 1) i hi
            refine ⟨by omega, fun h => ?_⟩
            have := this.2 (by omega); omega
          · simp at hi; omega
      rcases hi with hi | hi
      · omega
      · by_cases hb : bit d = true
        · simp only [hb, if_true] at hi
          by_cases hn : r.isNil = true
          · simp only [hn, if_true] at hi; exact grow hi
          · rw [if_neg hn] at hi
            have := ihr (d + 1) i hi
            exact ⟨this.1, fun h => this.2 (by omega)⟩
        · simp only [hb] at hi
          by_cases hn : l.isNil = true
          · simp only [Bool.false_eq_true, if_false, hn, if_true] at hi; exact grow hi
          · simp only [Bool.false_eq_true, if_false, hn] at hi
            have := ihl (d + 1) i hi
            exact ⟨this.1, fun h => this.2 (by omega)⟩
    · rw [if_neg hd] at hi; simp at hi

/-- **C11 (partial), addition.** An addition reads only the 16 bytes of the address unless it is a /128 that
runs out of nodes. -/
theorem insert6_in_bounds_partial (g : Nat → Bool) (s : St6 α) (a : List UInt8) (len : Nat)
    (hl : len < 128 ∨ (len = 128 ∧ 128 ≤ s.free)) :
    ∀ i ∈ insertReads (bit6 g a) len s.free 0 s.root, i < 128 := by
  intro i hi
  have := insertReads_lt (bit6 g a) len s.free s.root 0 i hi
  omega

/-! ## C08 for IPv6 -/

/-- Key buffer holding the bits `p`, the rest zero. -/
def keyBits (p : List Bool) : Nat → Bool := fun i => (p[i]?).getD false

theorem setKey_bits (p : List Bool) (b : Bool) :
    setKey (keyBits p) p.length b = keyBits (p ++ [b]) := by
  funext i
  unfold setKey keyBits
  by_cases h : i = p.length
  · subst h; simp
  · rw [if_neg h]
    by_cases h2 : i < p.length
    · rw [List.getElem?_append_left h2]
    · rw [List.getElem?_eq_none (by omega), List.getElem?_eq_none (by simp; omega)]

theorem keyBits_false (p : List Bool) : keyBits (p ++ [false]) = keyBits p := by
  funext i
  unfold keyBits
  by_cases h2 : i < p.length
  · rw [List.getElem?_append_left h2]
  · rw [List.getElem?_append_right (by omega)]
    rw [List.getElem?_eq_none (l := p) (by omega)]
    by_cases h3 : i = p.length
    · subst h3; simp
    · rw [List.getElem?_eq_none (by simp; omega)]

theorem traverse6_spec : ∀ (t : Tree α) (h : Nat) (p : List Bool), (Ok h t ∨ OkRoot h t) →
    (traverse6 t (keyBits p) p.length).2.1 = keyBits p ∧
    ∀ e, e ∈ (traverse6 t (keyBits p) p.length).1 ↔
      ∃ q y, abs t q = some y ∧ e = ((List.range 128).map (keyBits (p ++ q)), (p ++ q).length, some y) := by
  intro t
  induction t with
  | nil => intro h p _; simp [traverse6]
  | node v x l r ihl ihr =>
    intro h p hok
    obtain ⟨hv, h', hl, hr⟩ : (v = true → x.isSome) ∧ ∃ h', Ok h' l ∧ Ok h' r := by
      rcases hok with hok | hok
      · obtain ⟨h1, h', _, h2⟩ := Ok_children hok; exact ⟨h1, h', h2⟩
      · exact ⟨hok.1, h, hok.2⟩
    have il := ihl h' (p ++ [false]) (Or.inl hl)
    have ir := ihr h' (p ++ [true]) (Or.inl hr)
    simp only [List.length_append, List.length_singleton] at il ir
    -- the left part
    obtain ⟨L, hL⟩ : ∃ L, L = (if l.isNil then (([] : List (List Bool × Nat × Option α)), keyBits p, ([] : List Nat)) else
      ((traverse6 l (setKey (keyBits p) p.length false) (p.length + 1)).1,
       (traverse6 l (setKey (keyBits p) p.length false) (p.length + 1)).2.1,
       p.length :: (traverse6 l (setKey (keyBits p) p.length false) (p.length + 1)).2.2)) := ⟨_, rfl⟩
    have hLk : L.2.1 = keyBits p := by
      rw [hL]; split
      · rfl
      · simp only [setKey_bits]; rw [il.1, keyBits_false]
    have hLe : ∀ e, e ∈ L.1 ↔ ∃ q y, abs l q = some y ∧
        e = ((List.range 128).map (keyBits (p ++ false :: q)), (p ++ false :: q).length, some y) := by
      intro e
      rw [hL]; split
      · rename_i hn; rw [isNil_iff] at hn; subst hn; simp
      · simp only [setKey_bits]; rw [il.2 e]; simp only [List.append_assoc, List.singleton_append]
        simp only [List.length_append, List.length_cons]
        constructor
        · rintro ⟨q, y, a1, a2⟩; exact ⟨q, y, a1, by rw [a2]; congr 2; omega⟩
        · rintro ⟨q, y, a1, a2⟩; exact ⟨q, y, a1, by rw [a2]; congr 2; omega⟩
    obtain ⟨R, hR⟩ : ∃ R, R = (if r.isNil then (([] : List (List Bool × Nat × Option α)), L.2.1, ([] : List Nat)) else
      ((traverse6 r (setKey L.2.1 p.length true) (p.length + 1)).1,
       (traverse6 r (setKey L.2.1 p.length true) (p.length + 1)).2.1,
       p.length :: (traverse6 r (setKey L.2.1 p.length true) (p.length + 1)).2.2)) := ⟨_, rfl⟩
    have hRk : setKey R.2.1 p.length false = keyBits p := by
      rw [hR, hLk]; split
      · simp only; rw [setKey_bits, keyBits_false]
      · simp only [setKey_bits]; rw [ir.1]
        have : setKey (keyBits (p ++ [true])) p.length false = keyBits (p ++ [false]) := by
          rw [← setKey_bits, ← setKey_bits]
          funext i; unfold setKey; split <;> rfl
        rw [this, keyBits_false]
    have hRe : ∀ e, e ∈ R.1 ↔ ∃ q y, abs r q = some y ∧
        e = ((List.range 128).map (keyBits (p ++ true :: q)), (p ++ true :: q).length, some y) := by
      intro e
      rw [hR, hLk]; split
      · rename_i hn; rw [isNil_iff] at hn; subst hn; simp
      · simp only [setKey_bits]; rw [ir.2 e]; simp only [List.append_assoc, List.singleton_append]
        simp only [List.length_append, List.length_cons]
        constructor
        · rintro ⟨q, y, a1, a2⟩; exact ⟨q, y, a1, by rw [a2]; congr 2; omega⟩
        · rintro ⟨q, y, a1, a2⟩; exact ⟨q, y, a1, by rw [a2]; congr 2; omega⟩
    have hT : traverse6 (node v x l r) (keyBits p) p.length =
        ((if v then [((List.range 128).map (keyBits p), p.length, x)] else []) ++ L.1 ++ R.1,
          setKey R.2.1 p.length false, L.2.2 ++ R.2.2 ++ [p.length]) := by
      rw [hR, hL]; rfl
    rw [hT]
    refine ⟨hRk, ?_⟩
    intro e
    simp only [List.mem_append, hLe, hRe]
    constructor
    · rintro ((h1 | ⟨q, y, a1, a2⟩) | ⟨q, y, a1, a2⟩)
      · cases v with
        | false => simp at h1
        | true =>
          obtain ⟨y, rfl⟩ := Option.isSome_iff_exists.mp (hv rfl)
          simp at h1
          exact ⟨[], y, by simp [abs], by simp [h1]⟩
      · exact ⟨false :: q, y, by simpa [abs] using a1, a2⟩
      · exact ⟨true :: q, y, by simpa [abs] using a1, a2⟩
    · rintro ⟨q, y, a1, a2⟩
      cases q with
      | nil =>
        left; left
        cases v with
        | false => simp [abs] at a1
        | true => simp only [abs, if_true] at a1; simp [a1, a2]
      | cons b q =>
        cases b with
        | false => left; right; exact ⟨q, y, by simpa [abs] using a1, a2⟩
        | true => right; exact ⟨q, y, by simpa [abs] using a1, a2⟩

/-- **C08 for IPv6.** The listing reports exactly the stored routes, each with its network address padded
with zero bits, its length and its next hop. -/
theorem listing6_exact {total : Nat} {s : St6 α} {T} (hh : Hist6 total s T)
    (k : List Bool) (n : Nat) (x : Option α) :
    (k, n, x) ∈ (traverse6 s.root (fun _ => false) 0).1 ↔
      ∃ p d, T p = some d ∧ x = some d ∧ n = p.length ∧ k = p ++ List.replicate (128 - n) false := by
  have hi := hist6_inv hh
  have hk0 : (fun _ => false) = keyBits [] := by funext i; simp [keyBits]
  have := (traverse6_spec s.root 127 [] (Or.inr hi.ok)).2 (k, n, x)
  rw [← hk0] at this
  simp only [List.length_nil, List.nil_append] at this
  rw [this]
  have hlen : ∀ p y, abs s.root p = some y → p.length ≤ 128 := by
    intro p y hp
    by_cases h : p.length ≤ 128
    · exact h
    · rw [abs_height_root hi.ok (by omega)] at hp; cases hp
  have hkey : ∀ p : List Bool, p.length ≤ 128 →
      (List.range 128).map (keyBits p) = p ++ List.replicate (128 - p.length) false := by
    intro p hp
    apply List.ext_getElem?
    intro i
    rw [List.getElem?_map]
    by_cases h1 : i < 128
    · rw [List.getElem?_range h1]
      simp only [Option.map_some, keyBits]
      by_cases h2 : i < p.length
      · rw [List.getElem?_append_left h2, List.getElem?_eq_getElem h2]; simp
      · rw [List.getElem?_append_right (by omega), List.getElem?_replicate, if_pos (by omega),
          List.getElem?_eq_none (by omega)]; simp
    · rw [List.getElem?_eq_none (by simp; omega), List.getElem?_eq_none (by simp; omega)]; rfl
  constructor
  · rintro ⟨p, y, a1, a2⟩
    simp only [Prod.mk.injEq] at a2
    refine ⟨p, y, by rw [← hi.tab]; exact a1, a2.2.2, a2.2.1, ?_⟩
    rw [a2.1, a2.2.1, hkey p (hlen p y a1)]
  · rintro ⟨p, y, a1, a2, a3, a4⟩
    rw [← hi.tab] at a1
    refine ⟨p, y, a1, ?_⟩
    rw [hkey p (hlen p y a1), a2, a3, a4, a3]

/-- A concrete IPv6 history: 2001:db8::/32 added; a second addition of the same prefix is refused. -/
example : ∃ (s : St6 Nat) (T : Spec.Table Nat), Hist6 200 s T ∧
    search6 (fun _ => true) s [0x20, 1, 0xd, 0xb8, 1, 2, 3, 4, 5, 6, 7, 8, 9, 10, 11, 12] = some (some 5) ∧
    (insert6 (fun _ => true) s (0x20 :: 1 :: 0xd :: 0xb8 :: List.replicate 12 0) 32 6).2 =
      .exists_ (some 5) :=
  ⟨_, _, .addOk (g := fun _ => false) (a := 0x20 :: 1 :: 0xd :: 0xb8 :: List.replicate 12 0) (len := 32)
    (d := 5) (.init (by omega)) (by decide) (by omega) rfl, by decide +kernel, by decide +kernel⟩

end Verif.Radix

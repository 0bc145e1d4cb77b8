import Verif.Ipsec.Lemmas
import Mathlib.Data.List.Perm.Subperm
import Mathlib.Data.List.Nodup
/-! The invariant that ties the cell array to the abstract database. -/
namespace Verif.Ipsec

/-- Handles of the policies in the database. -/
def dbh (A : Abs) : List Nat := A.db.map Pol.h

theorem mem_dbh {A : Abs} {h : Nat} : h ∈ dbh A ↔ ∃ q ∈ A.db, q.h = h := by simp [dbh]

/-- Lookup order. -/
def before (a b : Pol) : Prop := a.p.prio < b.p.prio ∨ (a.p.prio = b.p.prio ∧ b.seq < a.seq)

/-- Reference the database itself holds. -/
def own (A : Abs) (h : Nat) : Nat := if h ∈ dbh A then 1 else 0

structure Inv (s : St) (A : Abs) : Prop where
  db : Chain s.nx s.spList (dbh A)
  nd : (dbh A).Nodup
  ids : (A.db.map fun q => q.p.id).Nodup
  fr : ∃ fl, Chain s.nx s.free fl ∧ fl.Nodup ∧
    ∀ h, h ∈ fl ↔ h < s.num ∧ h ∉ dbh A ∧ A.held h = 0
  cl : ∀ q ∈ A.db, q.h < s.num ∧ (s.cell q.h).param = q.p ∧ (s.cell q.h).sa = q.sa ∧
    (s.cell q.h).destroyed = false ∧ A.par q.h = q.p
  rf : ∀ h, (h ∈ dbh A ∨ 0 < A.held h) →
    h < s.num ∧ (s.cell h).ref = A.held h + own A h ∧ A.held h + own A h < 2 ^ 32
  inf : ∀ h, 0 < A.held h → (s.cell h).param = A.par h ∧
    ((s.cell h).destroyed = true ↔ h ∉ dbh A)
  lk : ∀ d, ∃ L : List Pol, Chain s.lk (s.head d) (L.map Pol.h) ∧ L.Pairwise before ∧
    ∀ q, q ∈ L ↔ q ∈ A.db ∧ q.phase = .pub ∧ q.p.dir = d
  sq : ∀ q ∈ A.db, q.phase = .pub → q.seq < A.clock
  ld : ∀ h y, A.lastDel = some (h, y) → h ∉ dbh A → 0 < A.held h →
    s.nx h = y ∧ ∀ k, y = some k → k ∈ dbh A
  ac : s.active = (s.inL.isSome || s.outL.isSome)

theorem uniq {s : St} {A : Abs} (I : Inv s A) {q r : Pol} (hq : q ∈ A.db) (hr : r ∈ A.db)
    (h : q.h = r.h) : q = r := by
  have := I.nd
  unfold dbh at this
  exact List.inj_on_of_nodup_map this hq hr h

theorem len_le {l : List Nat} {n : Nat} (hn : l.Nodup) (h : ∀ x ∈ l, x < n) : l.length ≤ n := by
  have := (hn.subperm (l₂ := List.range n) (fun x hx => List.mem_range.mpr (h x hx))).length_le
  simpa using this

theorem db_len {s : St} {A : Abs} (I : Inv s A) : (dbh A).length < s.fuel := by
  have := len_le I.nd (n := s.num) (fun x hx => (I.rf x (Or.inl hx)).1)
  unfold St.fuel; omega

theorem pairwise_nodup {L : List Pol} (h : L.Pairwise before) : L.Nodup :=
  h.imp (fun {a b} hab he => by subst he; unfold before at hab; omega)

theorem lk_nodup {s : St} {A : Abs} (I : Inv s A) {d : Dir} {L : List Pol}
    (hp : L.Pairwise before) (hm : ∀ q, q ∈ L ↔ q ∈ A.db ∧ q.phase = .pub ∧ q.p.dir = d) :
    (L.map Pol.h).Nodup := by
  refine List.Nodup.map_on ?_ (pairwise_nodup hp)
  intro x hx y hy h
  exact uniq I ((hm x).mp hx).1 ((hm y).mp hy).1 h

theorem lk_len {s : St} {A : Abs} (I : Inv s A) {d : Dir} {L : List Pol}
    (hp : L.Pairwise before) (hm : ∀ q, q ∈ L ↔ q ∈ A.db ∧ q.phase = .pub ∧ q.p.dir = d) :
    (L.map Pol.h).length < s.fuel := by
  have := len_le (lk_nodup I hp hm) (n := s.num) (fun x hx => by
    obtain ⟨q, hq, rfl⟩ := List.mem_map.mp hx
    exact (I.cl q ((hm q).mp hq).1).1)
  unfold St.fuel; omega

/-! ### Start -/

theorem freeAll_frame (s : St) : ∀ n, (freeAll s n).spList = s.spList ∧ (freeAll s n).inL = s.inL ∧
    (freeAll s n).outL = s.outL ∧ (freeAll s n).num = s.num ∧ (freeAll s n).active = s.active ∧
    ∀ d, (freeAll s n).head d = s.head d
  | 0 => ⟨rfl, rfl, rfl, rfl, rfl, fun _ => rfl⟩
  | n + 1 => by
    obtain ⟨a, b, c, d, e, f⟩ := freeAll_frame s n
    exact ⟨a, b, c, d, e, fun d => by
      rw [← f d]; cases d <;> rfl⟩

theorem freeAll_chain (s : St) (h0 : s.free = none) : ∀ n, ∃ fl, Chain (freeAll s n).nx
    (freeAll s n).free fl ∧ fl.Nodup ∧ ∀ h, h ∈ fl ↔ h < n
  | 0 => ⟨[], h0, by simp, by simp⟩
  | n + 1 => by
    obtain ⟨fl, h1, h2, h3⟩ := freeAll_chain s h0 n
    refine ⟨n :: fl, ⟨rfl, ?_⟩, ?_, ?_⟩
    · have e : (freeAll s (n + 1)).nx n = (freeAll s n).free := by
        simp [freeAll, spFree, St.nx]
      rw [e]
      refine chain_congr ?_ h1
      intro a ha
      have : a ≠ n := by have := (h3 a).mp ha; omega
      simp [freeAll, spFree, St.nx, put_other _ _ this]
    · rw [List.nodup_cons]
      exact ⟨fun h => by have := (h3 n).mp h; omega, h2⟩
    · intro h
      rw [List.mem_cons, h3]; omega

/-- The empty database. -/
def abs0 (par : Nat → Param) : Abs := ⟨[], fun _ => 0, par, 0, none⟩

theorem inv_init (junk : Nat → Cell) (n : Nat) (par : Nat → Param) :
    Inv (init junk n) (abs0 par) := by
  obtain ⟨f1, f2, f3, f4, f5, f6⟩ := freeAll_frame ⟨junk, n, none, none, none, none, false⟩ n
  obtain ⟨fl, c1, c2, c3⟩ := freeAll_chain ⟨junk, n, none, none, none, none, false⟩ rfl n
  unfold init
  constructor
  · exact f1
  · simp [dbh, abs0]
  · simp [abs0]
  · exact ⟨fl, c1, c2, fun h => by rw [c3, f4]; simp [dbh, abs0]⟩
  · intro q hq; simp [abs0] at hq
  · intro h hh; simp [abs0, dbh] at hh
  · intro h hh; simp [abs0] at hh
  · intro d
    refine ⟨[], ?_, by simp, by simp [abs0]⟩
    show _ = none
    rw [f6 d]; cases d <;> rfl
  · intro q hq; simp [abs0] at hq
  · intro h y hh; simp [abs0] at hh
  · rw [f5, f2, f3]; rfl

/-! ### References -/

theorem inv_ref {s : St} {A : Abs} (I : Inv s A) {a : Nat} (ha : a ∈ dbh A ∨ 0 < A.held a)
    (hb : A.held a + 2 < 2 ^ 32) : Inv (spRef s (some a)) { A with held := bump A.held a } := by
  have hcell : ∀ x, ((spRef s (some a)).cell x) =
      { s.cell x with ref := if x = a then ((s.cell x).ref + 1) % 2 ^ 32 else (s.cell x).ref } := by
    intro x
    by_cases h : x = a
    · subst h; simp [spRef]
    · simp [spRef, put_other _ _ h, h]
  have hnx : (spRef s (some a)).nx = s.nx := by funext x; simp [St.nx, hcell]
  have hlk : (spRef s (some a)).lk = s.lk := by funext x; simp [St.lk, hcell]
  have hpos : ∀ h, 0 < bump A.held a h → h = a ∨ 0 < A.held h := by
    intro h; unfold bump; by_cases e : h = a
    · intro _; exact Or.inl e
    · simp only [e, if_false]; exact Or.inr
  obtain ⟨ra1, ra2, ra3⟩ := I.rf a ha
  constructor
  · rw [hnx]; exact I.db
  · exact I.nd
  · exact I.ids
  · obtain ⟨fl, h1, h2, h3⟩ := I.fr
    refine ⟨fl, by rw [hnx]; exact h1, h2, ?_⟩
    intro h
    rw [h3]
    show h < s.num ∧ h ∉ dbh A ∧ A.held h = 0 ↔ h < s.num ∧ h ∉ dbh A ∧ bump A.held a h = 0
    by_cases e : h = a
    · subst e
      rcases ha with ha | ha
      · simp [ha]
      · have : bump A.held h h ≠ 0 := by simp [bump]
        constructor
        · rintro ⟨_, _, h0⟩; omega
        · rintro ⟨_, _, h0⟩; exact absurd h0 this
    · simp [bump, e]
  · intro q hq
    obtain ⟨k1, k2, k3, k4, k5⟩ := I.cl q hq
    exact ⟨k1, by rw [hcell]; exact k2, by rw [hcell]; exact k3, by rw [hcell]; exact k4, k5⟩
  · intro h hh
    show h < s.num ∧ _ = bump A.held a h + own A h ∧ bump A.held a h + own A h < 2 ^ 32
    by_cases e : h = a
    · subst e
      have hown : own A h ≤ 1 := by unfold own; split <;> omega
      refine ⟨ra1, ?_, ?_⟩
      · rw [hcell]
        simp only [if_pos, bump]
        rw [ra2, Nat.mod_eq_of_lt (by omega)]; omega
      · simp only [bump, if_pos]; omega
    · have hh' : h ∈ dbh A ∨ 0 < A.held h := by
        rcases hh with hh | hh
        · exact Or.inl hh
        · rcases hpos h hh with hh | hh
          · exact absurd hh e
          · exact Or.inr hh
      obtain ⟨r1, r2, r3⟩ := I.rf h hh'
      rw [hcell]
      simp only [e, if_false, bump]
      exact ⟨r1, r2, r3⟩
  · intro h hh
    have hi : (s.cell h).param = A.par h ∧ ((s.cell h).destroyed = true ↔ h ∉ dbh A) := by
      rcases hpos h hh with rfl | hh
      · rcases ha with ha | ha
        · obtain ⟨q, hq, rfl⟩ := mem_dbh.mp ha
          obtain ⟨k1, k2, k3, k4, k5⟩ := I.cl q hq
          exact ⟨by rw [k2, k5], by simp [k4, ha]⟩
        · exact I.inf h ha
      · exact I.inf h hh
    rw [hcell]; exact hi
  · intro d
    obtain ⟨L, h1, h2⟩ := I.lk d
    refine ⟨L, ?_, h2⟩
    rw [hlk]
    have : (spRef s (some a)).head d = s.head d := by cases d <;> rfl
    rw [this]; exact h1
  · exact I.sq
  · intro h y e hn hh
    rw [hnx]
    rcases hpos h hh with rfl | hh
    · exact I.ld h y e hn (by rcases ha with ha | ha; exact absurd ha hn; exact ha)
    · exact I.ld h y e hn hh
  · exact I.ac

theorem inv_ref_opt {s : St} {A : Abs} (I : Inv s A) {r : Option Nat}
    (ha : ∀ a, r = some a → a ∈ dbh A) (hb : ∀ h, A.held h + 2 < 2 ^ 32) :
    Inv (spRef s r) { A with held := gain A.held r } := by
  cases r with
  | none => exact I
  | some a => exact inv_ref I (Or.inl (ha a rfl)) (hb a)

theorem put_put {α : Type} (f : Nat → α) (i : Nat) (u v : α) :
    put (put f i u) i v = put f i v := by
  funext x; simp only [put]; split <;> rfl

theorem unref_cell {s : St} {a : Nat} {r : Nat} (hr : ((s.cell a).ref + 2 ^ 32 - 1) % 2 ^ 32 = r) :
    spUnref s a = { s with
      cell := put s.cell a { s.cell a with
        ref := r
        next := if r = 0 then s.free else (s.cell a).next }
      free := if r = 0 then some a else s.free } := by
  unfold spUnref
  rw [hr]
  by_cases h : r = 0
  · subst h
    clear hr
    simp only [if_true, spFree, put_put, put_same]
  · simp only [h, if_false]

theorem dec_mod {M n : Nat} (h0 : 0 < n) (h : n < M) : (n + M - 1) % M = n - 1 := by
  have : n + M - 1 = (n - 1) + M := by omega
  rw [this, Nat.add_mod_right, Nat.mod_eq_of_lt (by omega)]

theorem inv_unref {s : St} {A : Abs} (I : Inv s A) {a : Nat} (ha : 0 < A.held a) :
    Inv (spUnref s a) { A with held := drop1 A.held a } := by
  obtain ⟨ra1, ra2, ra3⟩ := I.rf a (Or.inr ha)
  have hr : ((s.cell a).ref + 2 ^ 32 - 1) % 2 ^ 32 = A.held a + own A a - 1 := by
    rw [ra2]; exact dec_mod (Nat.add_pos_left ha _) ra3
  rw [unref_cell hr]
  generalize hrr : A.held a + own A a - 1 = r at *
  have hzero : r = 0 ↔ (a ∉ dbh A ∧ A.held a = 1) := by
    unfold own at hrr
    by_cases h : a ∈ dbh A
    · simp only [h, if_true, not_true, false_and, iff_false] at hrr ⊢; omega
    · simp only [h, if_false, not_false_iff, true_and] at hrr ⊢; omega
  have hpos : ∀ h, 0 < drop1 A.held a h → 0 < A.held h := by
    intro h; unfold drop1; split <;> omega
  have hnx : ∀ x, x ≠ a → (put s.cell a { s.cell a with
        ref := r
        next := if r = 0 then s.free else (s.cell a).next } x).next = s.nx x := by
    intro x hx; simp [put_other _ _ hx, St.nx]
  have hnxdb : ∀ x ∈ dbh A, (put s.cell a { s.cell a with
        ref := r
        next := if r = 0 then s.free else (s.cell a).next } x).next = s.nx x := by
    intro x hx
    by_cases e : x = a
    · subst e
      have : r ≠ 0 := fun h => (hzero.mp h).1 hx
      simp [this, St.nx]
    · exact hnx x e
  have hcell : ∀ x, (put s.cell a { s.cell a with
        ref := r
        next := if r = 0 then s.free else (s.cell a).next } x) =
      { s.cell x with
        ref := if x = a then r else (s.cell x).ref
        next := if x = a ∧ r = 0 then s.free else (s.cell x).next } := by
    intro x
    by_cases e : x = a
    · subst e; simp
    · simp [put_other _ _ e, e]
  constructor
  · exact chain_congr (fun x hx => hnxdb x hx) I.db
  · exact I.nd
  · exact I.ids
  · obtain ⟨fl, h1, h2, h3⟩ := I.fr
    have hafl : a ∉ fl := fun h => by have := (h3 a).mp h; omega
    by_cases h0 : r = 0
    · refine ⟨a :: fl, ?_, ?_, ?_⟩
      · simp only [h0, if_true]
        refine ⟨rfl, ?_⟩
        have : (St.nx { s with
          cell := put s.cell a { s.cell a with ref := 0, next := s.free }, free := some a } a) = s.free := by
          simp [St.nx]
        rw [this]
        refine chain_congr ?_ h1
        intro x hx
        have : x ≠ a := fun h => hafl (h ▸ hx)
        simp [St.nx, put_other _ _ this]
      · rw [List.nodup_cons]; exact ⟨hafl, h2⟩
      · intro h
        obtain ⟨z1, z2⟩ := hzero.mp h0
        show _ ↔ h < s.num ∧ h ∉ dbh A ∧ drop1 A.held a h = 0
        rw [List.mem_cons, h3]
        by_cases e : h = a
        · subst e; simp [drop1, z1, z2, ra1]
        · simp [drop1, e]
    · refine ⟨fl, ?_, h2, ?_⟩
      · simp only [h0, if_false]
        refine chain_congr ?_ h1
        intro x hx
        have : x ≠ a := fun h => hafl (h ▸ hx)
        simp [St.nx, put_other _ _ this]
      · intro h
        show _ ↔ h < s.num ∧ h ∉ dbh A ∧ drop1 A.held a h = 0
        rw [h3]
        by_cases e : h = a
        · subst e
          have : ¬ (h ∉ dbh A ∧ A.held h = 1) := fun hc => h0 (hzero.mpr hc)
          constructor
          · rintro ⟨_, _, c⟩; omega
          · rintro ⟨_, c1, c2⟩
            exfalso; apply this
            refine ⟨c1, ?_⟩
            simp [drop1] at c2; omega
        · simp [drop1, e]
  · intro q hq
    obtain ⟨k1, k2, k3, k4, k5⟩ := I.cl q hq
    exact ⟨k1, by show Cell.param (put _ _ _ _) = _; rw [hcell]; exact k2,
      by show Cell.sa (put _ _ _ _) = _; rw [hcell]; exact k3,
      by show Cell.destroyed (put _ _ _ _) = _; rw [hcell]; exact k4, k5⟩
  · intro h hh
    show h < s.num ∧ Cell.ref (put _ _ _ h) = drop1 A.held a h + own A h ∧
      drop1 A.held a h + own A h < 2 ^ 32
    have hh' : h ∈ dbh A ∨ 0 < A.held h := hh.imp id (hpos h)
    obtain ⟨r1, r2, r3⟩ := I.rf h hh'
    rw [hcell]
    by_cases e : h = a
    · subst e
      simp only [drop1, if_true]
      exact ⟨r1, by omega, by omega⟩
    · simp only [drop1, e, if_false]; exact ⟨r1, r2, r3⟩
  · intro h hh
    show Cell.param (put _ _ _ h) = A.par h ∧ (Cell.destroyed (put _ _ _ h) = true ↔ h ∉ dbh A)
    rw [hcell]; exact I.inf h (hpos h hh)
  · intro d
    obtain ⟨L, h1, h2⟩ := I.lk d
    refine ⟨L, ?_, h2⟩
    have : St.lk { s with
      cell := put s.cell a { s.cell a with
        ref := r
        next := if r = 0 then s.free else (s.cell a).next }
      free := if r = 0 then some a else s.free } = s.lk := by
      funext x; show Cell.nextLk (put _ _ _ x) = _; rw [hcell]; rfl
    rw [this]
    cases d <;> exact h1
  · exact I.sq
  · intro h y e hn hh
    obtain ⟨l1, l2⟩ := I.ld h y e hn (hpos h hh)
    refine ⟨?_, l2⟩
    show Cell.next (put _ _ _ h) = y
    rw [hcell]
    have hc : ¬ (h = a ∧ r = 0) := by
      rintro ⟨e1, e2⟩
      subst e1
      have := (hzero.mp e2).2
      have hh2 : 0 < drop1 A.held h h := hh
      simp [drop1] at hh2; omega
    simp only [hc, if_false]
    exact l1
  · exact I.ac

end Verif.Ipsec

import Verif.Sad.Model
import Mathlib.Data.List.Perm.Subperm
import Mathlib.Data.List.Nodup
/-! The invariant that ties the cell array to the abstract database. -/
namespace Verif.Sad
open Verif.Ipsec (put walk Chain chain_congr chain_head chain_drop chain_splice walk_split walk_find
  put_same put_other)

/-- Handles. -/
abbrev hs (db : List Sa) : List Nat := db.map Sa.h

/-- Reference the database itself holds. -/
def own (db : List Sa) (st : List Nat) (h : Nat) : Nat := if h ∈ hs db ∨ h ∈ st then 1 else 0

theorem own_le (db : List Sa) (st : List Nat) (h : Nat) : own db st h ≤ 1 := by
  unfold own; split <;> omega

/-- Program counter of the destroyer in a phase. -/
def jobOf : Phase → Option Stage
  | .dying st => some st
  | _ => none

/-- What ties the cells to the database; `U` counts the references that users hold. -/
structure Core (s : St) (db : List Sa) (st : List Nat) (U : Nat → Nat) (par : Nat → Param)
    (ld : Option (Nat × Option Nat)) : Prop where
  ch : Chain s.next s.list (hs db)
  nd : (hs db).Nodup
  ids : (db.map fun q => q.p.id).Nodup
  spi : ∀ q ∈ db, ∀ r ∈ db, q.p.dir = .inb → r.p.dir = .inb → q.p.spi = r.p.spi → q = r
  fr : ∃ fl, Chain s.next s.free fl ∧ fl.Nodup ∧
    ∀ h, h ∈ fl ↔ h < s.num ∧ h ∉ hs db ∧ h ∉ st ∧ U h = 0
  cl : ∀ q ∈ db, s.par q.h = q.p ∧ s.odp q.h = q.odp ∧ s.sel q.h = q.sel ∧ s.gone q.h = false ∧
    (s.dis q.h = true ↔ q.phase ≠ .active) ∧ s.job q.h = jobOf q.phase ∧ par q.h = q.p
  sk : ∀ h ∈ st, h ∉ hs db ∧ s.gone h = false ∧ s.dis h = true
  rf : ∀ h, (h ∈ hs db ∨ h ∈ st ∨ 0 < U h) →
    h < s.num ∧ s.ref h = U h + own db st h ∧ U h + own db st h < 2 ^ 32
  inf : ∀ h, 0 < U h → s.par h = par h ∧
    (h ∉ hs db → s.dis h = true ∧ (h ∉ st → s.gone h = true))
  la : ∀ h y, ld = some (h, y) → h ∉ hs db → 0 < U h →
    s.next h = y ∧ ∀ k, y = some k → k ∈ hs db

variable {s : St} {db : List Sa} {st : List Nat} {U : Nat → Nat} {par : Nat → Param}
  {ld : Option (Nat × Option Nat)}

theorem uniq (I : Core s db st U par ld) {q r : Sa} (hq : q ∈ db) (hr : r ∈ db)
    (h : q.h = r.h) : q = r := List.inj_on_of_nodup_map I.nd hq hr h

theorem len_le {l : List Nat} {n : Nat} (hn : l.Nodup) (h : ∀ x ∈ l, x < n) : l.length ≤ n := by
  have := (hn.subperm (l₂ := List.range n) (fun x hx => List.mem_range.mpr (h x hx))).length_le
  simpa using this

theorem db_len (I : Core s db st U par ld) : (hs db).length < s.fuel := by
  have := len_le I.nd (n := s.num) (fun x hx => (I.rf x (Or.inl hx)).1)
  unfold St.fuel; omega

/-! ### Start -/

theorem freeAll_frame (s : St) : ∀ n, (freeAll s n).list = s.list ∧ (freeAll s n).num = s.num ∧
    (freeAll s n).slot = s.slot ∧ (freeAll s n).nsp = s.nsp ∧ (freeAll s n).sync = s.sync ∧
    (freeAll s n).job = s.job ∧ (freeAll s n).log = s.log
  | 0 => ⟨rfl, rfl, rfl, rfl, rfl, rfl, rfl⟩
  | n + 1 => freeAll_frame s n

theorem freeAll_chain (s : St) (h0 : s.free = none) : ∀ n, ∃ fl, Chain (freeAll s n).next
    (freeAll s n).free fl ∧ fl.Nodup ∧ ∀ h, h ∈ fl ↔ h < n
  | 0 => ⟨[], h0, by simp, by simp⟩
  | n + 1 => by
    obtain ⟨fl, h1, h2, h3⟩ := freeAll_chain s h0 n
    refine ⟨n :: fl, ⟨rfl, ?_⟩, ?_, ?_⟩
    · have e : (freeAll s (n + 1)).next n = (freeAll s n).free := by
        simp [freeAll, saFree]
      rw [e]
      refine chain_congr ?_ h1
      intro a ha
      have : a ≠ n := by have := (h3 a).mp ha; omega
      simp [freeAll, saFree, put_other _ _ this]
    · rw [List.nodup_cons]
      exact ⟨fun h => by have := (h3 n).mp h; omega, h2⟩
    · intro h
      rw [List.mem_cons, h3]; omega

theorem core_init (junk : St) (par : Nat → Param) : Core (init junk) [] [] (fun _ => 0) par none := by
  unfold init
  generalize hb : ({ junk with
    list := none
    free := none
    slot := fun _ => none
    job := fun _ => none
    log := [] } : St) = b
  obtain ⟨f1, f2, f3, f4, f5, f6, f7⟩ := freeAll_frame b junk.num
  obtain ⟨fl, c1, c2, c3⟩ := freeAll_chain b (by rw [← hb]) junk.num
  constructor
  · show _ = none; rw [f1, ← hb]
  · simp
  · simp
  · simp
  · exact ⟨fl, c1, c2, fun h => by rw [c3, f2, ← hb]; simp⟩
  · simp
  · simp
  · simp
  · simp
  · simp

/-! ### References -/

theorem core_ref (I : Core s db st U par ld) {a : Nat} (ha : a ∈ hs db ∨ 0 < U a)
    (hb : U a + 2 < 2 ^ 32) : Core (saRef s (some a)) db st (bump U a) par ld := by
  have hpos : ∀ h, 0 < bump U a h → h = a ∨ 0 < U h := by
    intro h; unfold bump; by_cases e : h = a
    · intro _; exact Or.inl e
    · simp only [e, if_false]; exact Or.inr
  obtain ⟨ra1, ra2, ra3⟩ := I.rf a (ha.imp id Or.inr)
  have hin : ∀ h, 0 < bump U a h → s.par h = par h ∧
      (h ∉ hs db → s.dis h = true ∧ (h ∉ st → s.gone h = true)) := by
    intro h hh
    rcases hpos h hh with rfl | hh
    · rcases ha with ha | ha
      · obtain ⟨q, hq, rfl⟩ := List.mem_map.mp ha
        obtain ⟨k1, k2, k3, k4, k5, k6, k7⟩ := I.cl q hq
        exact ⟨by rw [k1, k7], fun hn => absurd ha hn⟩
      · exact I.inf h ha
    · exact I.inf h hh
  constructor
  · exact I.ch
  · exact I.nd
  · exact I.ids
  · exact I.spi
  · obtain ⟨fl, h1, h2, h3⟩ := I.fr
    refine ⟨fl, h1, h2, ?_⟩
    intro h
    rw [h3]
    show h < s.num ∧ _ ↔ h < s.num ∧ _
    by_cases e : h = a
    · subst e
      rcases ha with ha | ha
      · simp [ha]
      · have : bump U h h ≠ 0 := by simp [bump]
        constructor
        · rintro ⟨_, _, _, h0⟩; omega
        · rintro ⟨_, _, _, h0⟩; exact absurd h0 this
    · simp [bump, e]
  · exact I.cl
  · exact I.sk
  · intro h hh
    show h < s.num ∧ put s.ref a _ h = _ ∧ _
    by_cases e : h = a
    · subst e
      have := own_le db st h
      refine ⟨ra1, ?_, ?_⟩
      · simp only [put_same, bump, if_true]
        rw [ra2, Nat.mod_eq_of_lt (by omega)]; omega
      · simp only [bump, if_true]; omega
    · have hh' : h ∈ hs db ∨ h ∈ st ∨ 0 < U h := by
        rcases hh with hh | hh | hh
        · exact Or.inl hh
        · exact Or.inr (Or.inl hh)
        · rcases hpos h hh with hh | hh
          · exact absurd hh e
          · exact Or.inr (Or.inr hh)
      obtain ⟨r1, r2, r3⟩ := I.rf h hh'
      rw [put_other _ _ e]
      simp only [e, if_false, bump]
      exact ⟨r1, r2, r3⟩
  · exact hin
  · intro h y e hn hh
    rcases hpos h hh with rfl | hh
    · exact I.la h y e hn (by rcases ha with ha | ha; exact absurd ha hn; exact ha)
    · exact I.la h y e hn hh

theorem core_ref_opt (I : Core s db st U par ld) {r : Option Nat}
    (ha : ∀ a, r = some a → a ∈ hs db) (hb : ∀ h, U h + 2 < 2 ^ 32) :
    Core (saRef s r) db st (gain U r) par ld := by
  cases r with
  | none => exact I
  | some a => exact core_ref I (Or.inl (ha a rfl)) (hb a)

theorem put_put {α : Type} (f : Nat → α) (i : Nat) (u v : α) :
    put (put f i u) i v = put f i v := by
  funext x; simp only [put]; split <;> rfl

theorem unref_eq {s : St} {a r : Nat} (hr : (s.ref a + 2 ^ 32 - 1) % 2 ^ 32 = r) :
    saUnref s (some a) = { s with
      ref := put s.ref a r
      next := if r = 0 then put s.next a s.free else s.next
      free := if r = 0 then some a else s.free } := by
  unfold saUnref
  simp only [hr]
  by_cases h : r = 0
  · subst h
    clear hr
    simp only [if_true, saFree]
  · simp only [h, if_false]

theorem dec_mod {M n : Nat} (h0 : 0 < n) (h : n < M) : (n + M - 1) % M = n - 1 := by
  have : n + M - 1 = (n - 1) + M := by omega
  rw [this, Nat.add_mod_right, Nat.mod_eq_of_lt (by omega)]

/-- Giving back one of the references: the users' or (`h` stuck) the database's own. -/
theorem core_dec (I : Core s db st U par ld) {a : Nat} {st' : List Nat} {U' : Nat → Nat}
    (ha : a ∈ hs db ∨ a ∈ st ∨ 0 < U a)
    (h1 : ∀ x, x ≠ a → U' x = U x ∧ (x ∈ st' ↔ x ∈ st)) (h2 : ∀ x ∈ st', x ∈ st)
    (h3 : U' a + own db st' a + 1 = U a + own db st a) (h4 : U' a ≤ U a)
    {g : Nat → Bool} (h5 : a ∉ hs db → a ∉ st' → g a = true)
    (h6 : ∀ x, (x = a → a ∈ hs db ∨ a ∈ st') → g x = s.gone x) :
    Core { saUnref s (some a) with gone := g } db st' U' par ld := by
  obtain ⟨ra1, ra2, ra3⟩ := I.rf a ha
  have hr : (s.ref a + 2 ^ 32 - 1) % 2 ^ 32 = U a + own db st a - 1 := by
    rw [ra2]; exact dec_mod (by omega) ra3
  rw [unref_eq hr]
  generalize hrr : U a + own db st a - 1 = r at *
  have hrv : r = U' a + own db st' a := by omega
  have hzero : r = 0 ↔ (a ∉ hs db ∧ a ∉ st' ∧ U' a = 0) := by
    rw [hrv]
    unfold own
    by_cases e1 : a ∈ hs db
    · simp [e1]
    · by_cases e2 : a ∈ st'
      · simp [e2]
      · simp [e1, e2]
  have hU : ∀ x, 0 < U' x → 0 < U x := by
    intro x hx
    by_cases e : x = a
    · subst e; omega
    · rw [← (h1 x e).1]; exact hx
  have hown : ∀ x, x ≠ a → own db st' x = own db st x := by
    intro x hx; unfold own; simp only [(h1 x hx).2]
  have hnx : ∀ x, x ≠ a → (if r = 0 then put s.next a s.free else s.next) x = s.next x := by
    intro x hx; split
    · exact put_other _ _ hx
    · rfl
  have hnxdb : ∀ x ∈ hs db, (if r = 0 then put s.next a s.free else s.next) x = s.next x := by
    intro x hx
    by_cases e : x = a
    · subst e
      have : r ≠ 0 := fun h => (hzero.mp h).1 hx
      simp [this]
    · exact hnx x e
  constructor
  · exact chain_congr (fun x hx => hnxdb x hx) I.ch
  · exact I.nd
  · exact I.ids
  · exact I.spi
  · obtain ⟨fl, g1, g2, g3⟩ := I.fr
    have hafl : a ∉ fl := fun h => by
      have := (g3 a).mp h
      rcases ha with ha | ha | ha
      · exact this.2.1 ha
      · exact this.2.2.1 ha
      · omega
    by_cases h0 : r = 0
    · refine ⟨a :: fl, ?_, ?_, ?_⟩
      · simp only [h0, if_true]
        refine ⟨rfl, ?_⟩
        rw [put_same]
        refine chain_congr ?_ g1
        intro x hx
        exact put_other _ _ (fun h => hafl (h ▸ hx))
      · rw [List.nodup_cons]; exact ⟨hafl, g2⟩
      · intro h
        obtain ⟨z1, z2, z3⟩ := hzero.mp h0
        show _ ↔ h < s.num ∧ _
        rw [List.mem_cons, g3]
        by_cases e : h = a
        · subst e; simp [z1, z2, z3, ra1]
        · rw [(h1 h e).1, (h1 h e).2]; simp [e]
    · refine ⟨fl, ?_, g2, ?_⟩
      · simp only [h0, if_false]; exact g1
      · intro h
        show _ ↔ h < s.num ∧ _
        by_cases e : h = a
        · subst e
          constructor
          · intro hh; exact absurd hh hafl
          · rintro ⟨_, c⟩; exact absurd (hzero.mpr c) h0
        · rw [(h1 h e).1, (h1 h e).2, g3]
  · intro q hq
    obtain ⟨k1, k2, k3, k4, k5, k6, k7⟩ := I.cl q hq
    refine ⟨k1, k2, k3, ?_, k5, k6, k7⟩
    show g q.h = false
    rw [h6 q.h (fun e => Or.inl (e ▸ List.mem_map_of_mem hq))]; exact k4
  · intro h hh
    obtain ⟨k1, k2, k3⟩ := I.sk h (h2 h hh)
    refine ⟨k1, ?_, k3⟩
    show g h = false
    rw [h6 h (fun e => Or.inr (e ▸ hh))]; exact k2
  · intro h hh
    show h < s.num ∧ put s.ref a r h = _ ∧ _
    by_cases e : h = a
    · subst e
      rw [put_same]
      exact ⟨ra1, hrv, by omega⟩
    · rw [put_other _ _ e, (h1 h e).1, hown h e]
      refine I.rf h ?_
      rcases hh with hh | hh | hh
      · exact Or.inl hh
      · exact Or.inr (Or.inl (h2 h hh))
      · exact Or.inr (Or.inr (hU h hh))
  · intro h hh
    obtain ⟨i1, i2⟩ := I.inf h (hU h hh)
    refine ⟨i1, fun hn => ⟨(i2 hn).1, fun hs' => ?_⟩⟩
    show g h = true
    by_cases e : h = a
    · subst e; exact h5 hn hs'
    · rw [h6 h (fun e' => absurd e' e)]
      exact (i2 hn).2 (fun hc => hs' ((h1 h e).2.mpr hc))
  · intro h y e hn hh
    obtain ⟨l1, l2⟩ := I.la h y e hn (hU h hh)
    refine ⟨?_, l2⟩
    show (if r = 0 then put s.next a s.free else s.next) h = y
    by_cases e2 : h = a
    · subst e2
      have : r ≠ 0 := fun hc => by have := (hzero.mp hc).2.2; omega
      simp [this, l1]
    · rw [hnx h e2]; exact l1

theorem core_unref (I : Core s db st U par ld) {a : Nat} (ha : 0 < U a) :
    Core (saUnref s (some a)) db st (drop1 U a) par ld := by
  have e : saUnref s (some a) = { saUnref s (some a) with gone := s.gone } := by
    rw [unref_eq rfl]
  rw [e]
  exact core_dec I (Or.inr (Or.inr ha)) (fun x hx => ⟨by simp [drop1, hx], Iff.rfl⟩) (fun _ h => h)
    (by simp only [drop1, if_true]; omega) (by simp [drop1])
    (fun h1 h2 => ((I.inf a ha).2 h1).2 h2) (fun _ _ => rfl)

/-- Users' references after an optional reference was given back. -/
def lose (U : Nat → Nat) : Option Nat → (Nat → Nat)
  | none => U
  | some a => drop1 U a

theorem core_unref_opt (I : Core s db st U par ld) {r : Option Nat} (ha : ∀ a, r = some a → 0 < U a) :
    Core (saUnref s r) db st (lose U r) par ld := by
  cases r with
  | none => exact I
  | some a => exact core_unref I (ha a rfl)

/-- Releasing an SA that left the list. -/
theorem core_release {a : Nat} (I : Core s db (a :: st) U par ld) (ha : a ∉ st) :
    Core (saUnref { s with gone := put s.gone a true } (some a)) db st U par ld := by
  obtain ⟨k1, k2, k3⟩ := I.sk a (by simp)
  have e : saUnref { s with gone := put s.gone a true } (some a) =
      { saUnref s (some a) with gone := put s.gone a true } := by
    rw [unref_eq (s := { s with gone := put s.gone a true }) rfl, unref_eq (s := s) rfl]
  rw [e]
  refine core_dec I (Or.inr (Or.inl (by simp))) (fun x hx => ⟨rfl, by simp [hx]⟩)
      (fun x hx => by simp [hx]) (by simp [own, ha, k1]) (Nat.le_refl _)
      (fun _ _ => by simp) ?_
  intro x hx
  by_cases h : x = a
  · rcases hx h with h' | h'
    · exact absurd h' k1
    · exact absurd h' ha
  · exact put_other _ _ h

/-! ### Changing one SA -/

theorem mem_change {f : Sa → Sa} {h : Nat} {l : List Sa} {q : Sa} :
    q ∈ change f h l ↔ ∃ r ∈ l, (if r.h = h then f r else r) = q := by
  simp [change]

theorem change_map {β : Type} {f : Sa → Sa} {h : Nat} {l : List Sa} {g : Sa → β}
    (hg : ∀ q, g (f q) = g q) : (change f h l).map g = l.map g := by
  unfold change
  rw [List.map_map]
  apply List.map_congr_left
  intro q _
  simp only [Function.comp]
  split
  · exact hg q
  · rfl

theorem hs_phase {f : Sa → Phase} {h : Nat} {l : List Sa} :
    hs (change (fun q => { q with phase := f q }) h l) = hs l := change_map fun _ => rfl

theorem hs_sel {f : Sa → Option Nat} {h : Nat} {l : List Sa} :
    hs (change (fun q => { q with sel := f q }) h l) = hs l := change_map fun _ => rfl

theorem mem_phase {f : Sa → Phase} {h x : Nat} {l : List Sa} (hx : x ∈ hs l) :
    x ∈ hs (change (fun q => { q with phase := f q }) h l) := by rw [hs_phase]; exact hx

theorem mem_sel {f : Sa → Option Nat} {h x : Nat} {l : List Sa} (hx : x ∈ hs l) :
    x ∈ hs (change (fun q => { q with sel := f q }) h l) := by rw [hs_sel]; exact hx

/-- A step that changes flags of one SA only. -/
theorem core_change (I : Core s db st U par ld) {a : Nat} {q0 : Sa} (hq0 : q0 ∈ db) (ha : q0.h = a)
    (f : Sa → Sa) (hf : ∀ q, (f q).h = q.h ∧ (f q).p = q.p ∧ (f q).odp = q.odp)
    {dis' : Nat → Bool} {sel' : Nat → Option Nat} {job' : Nat → Option Stage} {log' : List OdpCall}
    (h1 : ∀ x, x ≠ a → dis' x = s.dis x ∧ sel' x = s.sel x ∧ job' x = s.job x)
    (h2 : sel' a = (f q0).sel ∧ (dis' a = true ↔ (f q0).phase ≠ .active) ∧
      job' a = jobOf (f q0).phase) :
    Core { s with dis := dis', sel := sel', job := job', log := log' } (change f a db) st U par ld := by
  subst ha
  have hh : hs (change f q0.h db) = hs db := change_map fun q => (hf q).1
  have hown : ∀ x, own (change f q0.h db) st x = own db st x := by
    intro x; unfold own; rw [hh]
  have hmem : q0.h ∈ hs db := List.mem_map_of_mem hq0
  constructor
  · rw [hh]; exact I.ch
  · rw [hh]; exact I.nd
  · rw [change_map (fun q => by rw [(hf q).2.1])]; exact I.ids
  · intro q hq r hr
    obtain ⟨q', hq', e1⟩ := mem_change.mp hq
    obtain ⟨r', hr', e2⟩ := mem_change.mp hr
    have p1 : q.p = q'.p := by rw [← e1]; split; exact (hf _).2.1; rfl
    have p2 : r.p = r'.p := by rw [← e2]; split; exact (hf _).2.1; rfl
    rw [p1, p2]
    intro a1 a2 a3
    have := I.spi q' hq' r' hr' a1 a2 a3
    rw [← e1, ← e2, this]
  · rw [hh]; exact I.fr
  · intro q hq
    obtain ⟨r, hr, e⟩ := mem_change.mp hq
    obtain ⟨k1, k2, k3, k4, k5, k6, k7⟩ := I.cl r hr
    by_cases c : r.h = q0.h
    · rw [if_pos c] at e
      have er := uniq I hr hq0 c
      subst er
      subst e
      rw [(hf r).1, (hf r).2.1, (hf r).2.2]
      exact ⟨k1, k2, h2.1, k4, h2.2.1, h2.2.2, k7⟩
    · rw [if_neg c] at e
      subst e
      obtain ⟨j1, j2, j3⟩ := h1 r.h c
      refine ⟨k1, k2, ?_, k4, ?_, ?_, k7⟩
      · show sel' _ = _; rw [j2]; exact k3
      · show dis' _ = _ ↔ _; rw [j1]; exact k5
      · show job' _ = _; rw [j3]; exact k6
  · intro h hh'
    obtain ⟨k1, k2, k3⟩ := I.sk h hh'
    rw [hh]
    have c : h ≠ q0.h := fun e => k1 (e ▸ hmem)
    refine ⟨k1, k2, ?_⟩
    show dis' h = _; rw [(h1 h c).1]; exact k3
  · intro h; rw [hh, hown]; exact I.rf h
  · intro h hU
    obtain ⟨i1, i2⟩ := I.inf h hU
    rw [hh]
    refine ⟨i1, fun hn => ?_⟩
    have c : h ≠ q0.h := fun e => hn (e ▸ hmem)
    obtain ⟨i3, i4⟩ := i2 hn
    refine ⟨?_, i4⟩
    show dis' h = _; rw [(h1 h c).1]; exact i3
  · rw [hh]; exact I.la

/-! ### Creation -/

theorem core_alloc_fail (I : Core s db st U par ld) (h : s.free = none) :
    ∀ h < s.num, h ∈ hs db ∨ h ∈ st ∨ 0 < U h := by
  obtain ⟨fl, g1, g2, g3⟩ := I.fr
  have hfl : fl = [] := by
    cases fl with
    | nil => rfl
    | cons a l => have := g1.1; rw [h] at this; exact absurd this (by simp)
  subst hfl
  intro x hx
  have := (g3 x).not.mp (by simp)
  by_cases c1 : x ∈ hs db
  · exact Or.inl c1
  · by_cases c2 : x ∈ st
    · exact Or.inr (Or.inl c2)
    · right; right
      by_contra hc
      exact this ⟨hx, c1, c2, by omega⟩

/-- The head of the free list. -/
theorem core_free (I : Core s db st U par ld) {a : Nat} (h : s.free = some a) :
    a < s.num ∧ a ∉ hs db ∧ a ∉ st ∧ U a = 0 := by
  obtain ⟨fl, g1, g2, g3⟩ := I.fr
  refine (g3 a).mp ?_
  cases fl with
  | nil => rw [h] at g1; exact absurd g1 (by simp [Chain])
  | cons b l => have := g1.1; rw [h] at this; simp at this; simp [this]

/-- An SA is taken from the free list, filled in and entered in the list. -/
theorem core_add (I : Core s db st U par ld) {a o : Nat} {p : Param} (h : s.free = some a)
    (hid : ∀ q ∈ db, q.p.id ≠ p.id)
    (hspi : ∀ q ∈ db, p.dir = .inb → q.p.dir = .inb → q.p.spi ≠ p.spi)
    (hj : s.job a = none) {log' : List OdpCall} :
    Core { s with
      free := s.next a
      ref := put s.ref a 2
      par := put s.par a p
      dis := put s.dis a false
      sel := put s.sel a none
      gone := put s.gone a false
      odp := put s.odp a o
      log := log'
      next := put s.next a s.list
      list := some a } (⟨a, p, o, .active, none⟩ :: db) st (bump U a)
        (fun x => if x = a then p else par x) ld := by
  obtain ⟨a1, a2, a3, a4⟩ := core_free I h
  have hne : ∀ x ∈ hs db, x ≠ a := fun x hx e => a2 (e ▸ hx)
  have hne' : ∀ x ∈ st, x ≠ a := fun x hx e => a3 (e ▸ hx)
  have hneU : ∀ x, 0 < bump U a x → x = a ∨ (x ≠ a ∧ 0 < U x) := by
    intro x; unfold bump; by_cases e : x = a
    · intro _; exact Or.inl e
    · simp only [e, if_false]; exact fun h => Or.inr ⟨e, h⟩
  obtain ⟨fl, g1, g2, g3⟩ := I.fr
  have hch : ∀ {l : List Nat} {b : Option Nat}, a ∉ l → Chain s.next b l →
      Chain (put s.next a s.list) b l := fun hn hc =>
    chain_congr (fun x hx => put_other _ _ (fun e => hn (e ▸ hx))) hc
  have hown : ∀ x, x ≠ a → own (⟨a, p, o, .active, none⟩ :: db) st x = own db st x := by
    intro x hx; unfold own; simp [hx]
  constructor
  · refine ⟨rfl, ?_⟩
    show Chain (put s.next a s.list) (put s.next a s.list a) _
    rw [put_same]
    exact hch a2 I.ch
  · rw [hs, List.map_cons, List.nodup_cons]; exact ⟨a2, I.nd⟩
  · rw [List.map_cons, List.nodup_cons]
    refine ⟨?_, I.ids⟩
    intro hc
    obtain ⟨q, hq, e⟩ := List.mem_map.mp hc
    exact hid q hq e
  · intro q hq r hr d1 d2 d3
    rcases List.mem_cons.mp hq with rfl | hq
    · rcases List.mem_cons.mp hr with rfl | hr
      · rfl
      · exact absurd d3.symm (hspi r hr d1 d2)
    · rcases List.mem_cons.mp hr with rfl | hr
      · exact absurd d3 (hspi q hq d2 d1)
      · exact I.spi q hq r hr d1 d2 d3
  · cases fl with
    | nil => rw [h] at g1; exact absurd g1 (by simp [Chain])
    | cons b l =>
      have hb : b = a := by have := g1.1; rw [h] at this; simpa using this.symm
      subst hb
      rw [List.nodup_cons] at g2
      refine ⟨l, ?_, g2.2, ?_⟩
      · exact hch g2.1 g1.2
      · intro x
        show _ ↔ x < s.num ∧ x ∉ (b :: hs db) ∧ x ∉ st ∧ _
        by_cases e : x = b
        · subst e; simp [g2.1]
        · have := g3 x
          rw [List.mem_cons] at this
          simp only [e, false_or] at this
          rw [this, List.mem_cons]
          simp [bump, e]
  · intro q hq
    rcases List.mem_cons.mp hq with rfl | hq
    · simp [jobOf, hj]
    · have c := hne q.h (List.mem_map_of_mem hq)
      obtain ⟨k1, k2, k3, k4, k5, k6, k7⟩ := I.cl q hq
      simp only [put_other _ _ c, c, if_false]
      exact ⟨k1, k2, k3, k4, k5, k6, k7⟩
  · intro x hx
    have c := hne' x hx
    obtain ⟨k1, k2, k3⟩ := I.sk x hx
    simp only [put_other _ _ c]
    refine ⟨?_, k2, k3⟩
    rw [hs, List.map_cons, List.mem_cons]
    rintro (e | e)
    · exact c e
    · exact k1 e
  · intro x hx
    show x < s.num ∧ _
    by_cases e : x = a
    · subst e
      simp only [put_same, bump, if_true, own, hs, List.map_cons, List.mem_cons, true_or, a4]
      exact ⟨a1, trivial, by omega⟩
    · simp only [put_other _ _ e, bump, e, if_false, hown x e]
      refine I.rf x ?_
      rcases hx with hx | hx | hx
      · rw [hs, List.map_cons, List.mem_cons] at hx
        rcases hx with hx | hx
        · exact absurd hx e
        · exact Or.inl hx
      · exact Or.inr (Or.inl hx)
      · rcases hneU x hx with hx | hx
        · exact absurd hx e
        · exact Or.inr (Or.inr hx.2)
  · intro x hx
    rcases hneU x hx with rfl | ⟨e, hx⟩
    · simp
    · obtain ⟨i1, i2⟩ := I.inf x hx
      simp only [put_other _ _ e, e, if_false]
      refine ⟨i1, fun hn => i2 (fun hc => hn (by simp [hc]))⟩
  · intro x y e hn hx
    have e1 : x ≠ a := fun hc => hn (by simp [hc])
    have e2 : x ∉ hs db := fun hc => hn (by simp [hc])
    rcases hneU x hx with hx | ⟨_, hx⟩
    · exact absurd hx e1
    · obtain ⟨l1, l2⟩ := I.la x y e e2 hx
      simp only [put_other _ _ e1]
      exact ⟨l1, fun k hk => by simp [l2 k hk]⟩

/-! ### Removal -/

theorem follower_split {a : Nat} {l1 l2 : List Nat} (h : a ∉ l1) :
    follower a (l1 ++ a :: l2) = l2.head? := by
  induction l1 with
  | nil => simp [follower]
  | cons b l1 ih =>
    simp only [List.mem_cons, not_or] at h
    simp only [List.cons_append, follower]
    rw [if_neg (fun e => h.1 e.symm)]
    exact ih h.2

theorem filter_split {db pre post : List Sa} {q : Sa} (e : db = pre ++ q :: post)
    (hn : (hs db).Nodup) : db.filter (fun r => r.h ≠ q.h) = pre ++ post := by
  subst e
  rw [hs, List.map_append, List.map_cons, List.nodup_append] at hn
  obtain ⟨n1, n2, n3⟩ := hn
  rw [List.nodup_cons] at n2
  rw [List.filter_append, List.filter_cons]
  have h1 : pre.filter (fun r => r.h ≠ q.h) = pre := by
    rw [List.filter_eq_self]
    intro r hr
    have := n3 r.h (List.mem_map_of_mem hr) q.h (by simp)
    simpa using this
  have h2 : post.filter (fun r => r.h ≠ q.h) = post := by
    rw [List.filter_eq_self]
    intro r hr
    have : r.h ≠ q.h := fun e => n2.1 (e ▸ List.mem_map_of_mem hr)
    simpa using this
  rw [h1, h2]; simp

/-- The list is cut around an SA. -/
theorem core_unlink (I : Core s db st U par ld) {q : Sa} (hq : q ∈ db) (hd : q.phase ≠ .active)
    {job' : Nat → Option Stage} (hj : ∀ x, x ≠ q.h → job' x = s.job x) :
    ∃ w, walk s.next (fun x => x == q.h) s.fuel none s.list = some (w, some q.h) ∧
      ∀ log', Core { setNx { s with job := job' } w (s.next q.h) with log := log' }
        (db.filter (fun r => r.h ≠ q.h)) (q.h :: st) U par (some (q.h, follower q.h (hs db))) := by
  obtain ⟨l1, l2, e, w1, w2, w3⟩ := walk_split (p := fun x => x == q.h) (prev := none) I.ch (db_len I)
  have hmem : q.h ∈ hs db := List.mem_map_of_mem hq
  have hn1 : q.h ∉ l1 := fun h => by have := w1 _ h; simp at this
  -- the list splits at q
  obtain ⟨l3, hl2⟩ : ∃ l3, l2 = q.h :: l3 := by
    cases l2 with
    | nil => rw [e] at hmem; simp at hmem; exact absurd hmem hn1
    | cons b l3 => have := w2 b rfl; simp at this; exact ⟨l3, by rw [this]⟩
  subst hl2
  have hnd := I.nd
  rw [e, List.nodup_append] at hnd
  obtain ⟨n1, n2, n3⟩ := hnd
  rw [List.nodup_cons] at n2
  obtain ⟨pre, post0, hdb, hpre, hpost0⟩ := List.map_eq_append_iff.mp e
  obtain ⟨q', post, hpost0', hq', hpost⟩ := List.map_eq_cons_iff.mp hpost0
  subst hpost0'
  have hqq : q' = q := uniq I (by rw [hdb]; simp) hq hq'
  subst hqq
  have hfil := filter_split hdb I.nd
  have hf : hs (db.filter (fun r => r.h ≠ q'.h)) = l1 ++ l3 := by
    rw [hfil, hs, List.map_append, hpre, hpost]
  have hfm : ∀ x, x ∈ hs (db.filter (fun r => r.h ≠ q'.h)) ↔ x ∈ hs db ∧ x ≠ q'.h := by
    intro x
    rw [hf, e, List.mem_append, List.mem_append, List.mem_cons]
    constructor
    · rintro (h | h)
      · exact ⟨Or.inl h, fun e => hn1 (e ▸ h)⟩
      · exact ⟨Or.inr (Or.inr h), fun e => n2.1 (e ▸ h)⟩
    · rintro ⟨h | h | h, hne⟩
      · exact Or.inl h
      · exact absurd h hne
      · exact Or.inr h
  have hown : ∀ x, own (db.filter (fun r => r.h ≠ q'.h)) (q'.h :: st) x = own db st x := by
    intro x
    have hiff : (x ∈ hs (db.filter (fun r => r.h ≠ q'.h)) ∨ x ∈ q'.h :: st) ↔
        (x ∈ hs db ∨ x ∈ st) := by
      rw [hfm, List.mem_cons]
      by_cases c : x = q'.h
      · subst c; simp [hmem]
      · simp [c]
    unfold own
    simp only [hiff]
  have hnxt : s.next q'.h = l3.head? := by
    have hc := I.ch
    rw [e] at hc
    have := chain_drop hc
    exact chain_head this.2
  have htail : Chain s.next (s.next q'.h) l3 := by
    have hc := I.ch
    rw [e] at hc
    exact (chain_drop hc).2
  have hnum : s.num = s.num := rfl
  refine ⟨(l1.getLast?).or none, by rw [w3]; rfl, ?_⟩
  intro log'
  have hor : (l1.getLast?).or none = l1.getLast? := by cases l1.getLast? <;> rfl
  rw [hor]
  -- what setNx does
  have hfields : ∀ w : Option Nat, (setNx { s with job := job' } w (s.next q'.h)).par = s.par ∧
      (setNx { s with job := job' } w (s.next q'.h)).odp = s.odp ∧
      (setNx { s with job := job' } w (s.next q'.h)).sel = s.sel ∧
      (setNx { s with job := job' } w (s.next q'.h)).gone = s.gone ∧
      (setNx { s with job := job' } w (s.next q'.h)).dis = s.dis ∧
      (setNx { s with job := job' } w (s.next q'.h)).job = job' ∧
      (setNx { s with job := job' } w (s.next q'.h)).ref = s.ref ∧
      (setNx { s with job := job' } w (s.next q'.h)).num = s.num ∧
      (setNx { s with job := job' } w (s.next q'.h)).free = s.free := by
    intro w; cases w <;> exact ⟨rfl, rfl, rfl, rfl, rfl, rfl, rfl, rfl, rfl⟩
  have hnext : ∀ x, l1.getLast? ≠ some x →
      (setNx { s with job := job' } l1.getLast? (s.next q'.h)).next x = s.next x := by
    intro x hx
    cases hl : l1.getLast? with
    | none => rfl
    | some b =>
      rw [hl] at hx
      have : x ≠ b := fun e => hx (by rw [e])
      exact put_other _ _ this
  have hlast : ∀ x, l1.getLast? = some x →
      (setNx { s with job := job' } l1.getLast? (s.next q'.h)).next x = s.next q'.h := by
    intro x hx; rw [hx]; exact put_same _ _ _
  have hlistv : (setNx { s with job := job' } l1.getLast? (s.next q'.h)).list =
      if l1 = [] then s.next q'.h else s.list := by
    cases hl : l1.getLast? with
    | none => rw [List.getLast?_eq_none_iff] at hl; simp [hl, setNx]
    | some b =>
      have : l1 ≠ [] := fun hc => by rw [hc] at hl; simp at hl
      simp [this, setNx]
  have hout : ∀ x, x ∉ l1 → (setNx { s with job := job' } l1.getLast? (s.next q'.h)).next x = s.next x :=
    fun x hx => hnext x (fun hc => hx (List.mem_of_getLast? hc))
  obtain ⟨f1, f2, f3, f4, f5, f6, f7, f8, f9⟩ := hfields l1.getLast?
  generalize setNx { s with job := job' } l1.getLast? (s.next q'.h) = s2 at *
  constructor
  · show Chain s2.next s2.list _
    rw [hf, hlistv]
    refine chain_splice (nxt := s.next) (l2 := q'.h :: l3) ?_ (by rw [← e]; exact I.ch) ?_ hlast n1
    · refine chain_congr ?_ htail
      intro x hx
      exact hout x (fun hc => n3 x hc x (by simp [hx]) rfl)
    · intro x hx hl; exact hnext x hl
  · rw [hf, List.nodup_append]
    exact ⟨n1, n2.2, fun x hx y hy => n3 x hx y (by simp [hy])⟩
  · exact (List.filter_sublist.map _).nodup I.ids
  · intro x hx y hy
    exact I.spi x (List.mem_filter.mp hx).1 y (List.mem_filter.mp hy).1
  · obtain ⟨fl, g1, g2, g3⟩ := I.fr
    refine ⟨fl, ?_, g2, ?_⟩
    · show Chain s2.next s2.free fl
      rw [f9]
      refine chain_congr ?_ g1
      intro x hx
      refine hout x (fun hc => ((g3 x).mp hx).2.1 ?_)
      rw [e]; simp [hc]
    · intro x
      show _ ↔ x < s2.num ∧ _
      rw [f8, g3, hfm, List.mem_cons]
      by_cases c : x = q'.h
      · subst c; simp [hmem]
      · simp [c]
  · intro r hr
    obtain ⟨hr1, hr2⟩ := List.mem_filter.mp hr
    have c : r.h ≠ q'.h := by simpa using hr2
    obtain ⟨k1, k2, k3, k4, k5, k6, k7⟩ := I.cl r hr1
    show s2.par _ = _ ∧ s2.odp _ = _ ∧ s2.sel _ = _ ∧ s2.gone _ = _ ∧ (s2.dis _ = _ ↔ _) ∧
      s2.job _ = _ ∧ _
    rw [f1, f2, f3, f4, f5, f6, hj _ c]
    exact ⟨k1, k2, k3, k4, k5, k6, k7⟩
  · intro x hx
    show _ ∧ s2.gone x = _ ∧ s2.dis x = _
    rw [f4, f5, hfm]
    rcases List.mem_cons.mp hx with rfl | hx
    · obtain ⟨k1, k2, k3, k4, k5, k6, k7⟩ := I.cl q' hq
      exact ⟨fun h => h.2 rfl, k4, k5.mpr hd⟩
    · obtain ⟨k1, k2, k3⟩ := I.sk x hx
      exact ⟨fun h => k1 h.1, k2, k3⟩
  · intro x hx
    show x < s2.num ∧ s2.ref x = _ ∧ _
    rw [f7, f8, hown]
    refine I.rf x ?_
    rcases hx with hx | hx | hx
    · exact Or.inl ((hfm x).mp hx).1
    · rcases List.mem_cons.mp hx with rfl | hx
      · exact Or.inl hmem
      · exact Or.inr (Or.inl hx)
    · exact Or.inr (Or.inr hx)
  · intro x hx
    show s2.par x = _ ∧ (_ → s2.dis x = _ ∧ (_ → s2.gone x = _))
    rw [f1, f4, f5, hfm]
    obtain ⟨i1, i2⟩ := I.inf x hx
    refine ⟨i1, fun hn => ?_⟩
    by_cases c : x = q'.h
    · subst c
      exact ⟨(I.cl q' hq).2.2.2.2.1.mpr hd, fun h => absurd (by simp) h⟩
    · have hx' : x ∉ hs db := fun hc => hn ⟨hc, c⟩
      exact ⟨(i2 hx').1, fun h => (i2 hx').2 (fun hc => h (by simp [hc]))⟩
  · intro x y hld hn hx
    simp only [Option.some.injEq, Prod.mk.injEq] at hld
    obtain ⟨rfl, rfl⟩ := hld
    show s2.next q'.h = _ ∧ _
    rw [hout _ hn1, hnxt, e, follower_split hn1]
    refine ⟨rfl, fun k hk => ?_⟩
    rw [hf]
    simp [List.mem_of_mem_head? hk]

end Verif.Sad

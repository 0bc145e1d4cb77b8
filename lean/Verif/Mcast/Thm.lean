import Verif.Mcast.Spec

/-!
# Membership calls do what they say
-/

namespace Verif.Mcast

open Spec (M)

/-- A filter between calls: nothing pending, each source listed once and in the mode of the
filter. -/
structure Good (f : Filt) : Prop where
  st : f.st1 = f.st0
  mode : f.st0 ≠ .undef
  src : ∀ s ∈ f.src, s.s0 = f.st0 ∧ s.s1 = f.st0
  uniq : (f.src.map (·.addr)).Nodup

def key (x : Ent) : Nat × Nat × Nat := (x.sock, x.ifp, x.grp)

structure Inv (w : St) : Prop where
  good : ∀ x ∈ w.mem, Good x.f
  uniq : (w.mem.map key).Nodup

/-- The memberships as a program sees them. -/
def has (f : Filt) (a : Nat) : Bool := f.src.any (fun s => s.addr = a)

def view (x : Ent) : M := ⟨x.sock, x.ifp, x.grp, x.f.st0 = .excl, has x.f⟩

def views (w : St) : List M := w.mem.map view

/-! ## Filters -/

theorem map_id_of {α : Type} {l : List α} {f : α → α} (h : ∀ x ∈ l, f x = x) : l.map f = l := by
  induction l with
  | nil => rfl
  | cons a l ih =>
    rw [List.map_cons, h a (List.mem_cons_self ..), ih (fun x hx => h x (List.mem_cons_of_mem _ hx))]

theorem filter_id_of {α : Type} {l : List α} {p : α → Bool} (h : ∀ x ∈ l, p x = true) : l.filter p = l :=
  List.filter_eq_self.mpr h

theorem has_iff {f : Filt} {a : Nat} : has f a = true ↔ ∃ s ∈ f.src, s.addr = a := by
  unfold has; rw [List.any_eq_true]; simp

theorem graft_commit {f : Filt} (h : Good f) (a : Nat) :
    imfCommit (imfGraft f f.st0 a) = { f with src := ⟨a, f.st0, f.st0⟩ :: f.src } := by
  unfold imfCommit imfGraft
  obtain ⟨src, st0, st1⟩ := f
  have h1 := h.st
  dsimp only at h1 ⊢
  subst h1
  rw [List.map_cons, map_id_of]
  intro s hs
  obtain ⟨q1, q2⟩ := h.src s hs
  obtain ⟨x, y, z⟩ := s
  dsimp only at q1 q2 ⊢
  rw [q1, q2]

theorem graft_good {f : Filt} (h : Good f) {a : Nat} (ha : has f a = false) : Good { f with src := ⟨a, f.st0, f.st0⟩ :: f.src } := by
  refine ⟨h.st, h.mode, ?_, ?_⟩
  · intro s hs
    rcases List.mem_cons.mp hs with hs | hs
    · subst hs; exact ⟨rfl, rfl⟩
    · exact h.src s hs
  · show (List.map _ (_ :: _)).Nodup
    rw [List.map_cons, List.nodup_cons]
    refine ⟨?_, h.uniq⟩
    intro hm
    obtain ⟨s, hs, he⟩ := List.mem_map.mp hm
    have : has f a = true := has_iff.mpr ⟨s, hs, he⟩
    rw [ha] at this; cases this

theorem reap_good {f : Filt} (h : Good f) : imfReap f = f := by
  unfold imfReap
  rw [filter_id_of]
  intro s hs
  have := h.src s hs
  simp [this.1, this.2, h.mode]

theorem prune_commit {f : Filt} (h : Good f) (a : Nat) :
    imfReap (imfCommit (imfPrune f a)) = { f with src := f.src.filter (fun s => s.addr ≠ a) } := by
  obtain ⟨src, st0, st1⟩ := f
  have h1 := h.st
  have h2 := h.mode
  have h3 := h.src
  clear h
  dsimp only at h1 h2 h3
  subst h1
  show Filt.mk _ _ _ = Filt.mk _ _ _
  congr 1
  induction src with
  | nil => rfl
  | cons s r ih =>
    have h4 := h3 s (List.mem_cons_self ..)
    have ih := ih (fun x hx => h3 x (List.mem_cons_of_mem _ hx))
    show List.filter _ (_ :: _) = _
    dsimp only [imfCommit, imfPrune] at ih ⊢
    by_cases hs : s.addr = a
    · rw [List.filter_cons_of_neg (by simp [hs]), List.filter_cons_of_neg (by simp [hs])]
      exact ih
    · rw [List.filter_cons_of_pos (by simp [hs, h4.2, h2]), List.filter_cons_of_pos (by simp [hs]), ih]
      congr 1
      obtain ⟨x, y, z⟩ := s
      dsimp only at h4 hs ⊢
      rw [if_neg hs]
      dsimp only
      rw [h4.1, h4.2]

theorem filter_good {f : Filt} (h : Good f) (a : Nat) : Good { f with src := f.src.filter (fun s => s.addr ≠ a) } :=
  ⟨h.st, h.mode, fun s hs => h.src s (List.mem_filter.mp hs).1, (List.Sublist.map _ List.filter_sublist).nodup h.uniq⟩

theorem rollback_good {f : Filt} (h : Good f) : imfRollback f = f := by
  obtain ⟨src, st0, st1⟩ := f
  have h1 := h.st
  dsimp only at h1
  subst h1
  unfold imfRollback
  dsimp only
  rw [filter_id_of, map_id_of]
  · intro s hs
    have := h.src s hs
    obtain ⟨x, y, z⟩ := s
    dsimp only at this ⊢
    rw [this.1, this.2]
  · intro s hs
    have := h.src s hs
    simp [this.1, this.2]

theorem rollback_graft {f : Filt} (h : Good f) {m : Mode} (hm : m ≠ .undef) (a : Nat) : imfRollback (imfGraft f m a) = f := by
  have e : imfRollback (imfGraft f m a) = imfRollback f := by
    unfold imfRollback imfGraft
    dsimp only
    rw [List.filter_cons_of_neg]
    simp only [ne_eq, not_true_eq_false, or_false, decide_eq_true_eq]
    exact fun x => hm x.symm
  rw [e, rollback_good h]

theorem rollback_prune {f : Filt} (h : Good f) (a : Nat) : imfRollback (imfPrune f a) = f := by
  obtain ⟨src, st0, st1⟩ := f
  have h1 := h.st
  dsimp only at h1
  subst h1
  have h2 := h.mode
  have h3 := h.src
  unfold imfRollback imfPrune
  dsimp only at h2 h3 ⊢
  congr 1
  clear h
  induction src with
  | nil => rfl
  | cons s r ih =>
    have h4 := h3 s (List.mem_cons_self ..)
    have ih := ih (fun x hx => h3 x (List.mem_cons_of_mem _ hx))
    obtain ⟨x, y, z⟩ := s
    dsimp only at h4
    rw [List.map_cons, List.filter_cons_of_pos, List.map_cons, ih]
    · congr 1
      by_cases hs : x = a
      · rw [if_pos hs]; dsimp only; rw [h4.1, h4.2]
      · rw [if_neg hs]; dsimp only; rw [h4.1, h4.2]
    · by_cases hs : x = a
      · rw [if_pos hs]; simp [h4.1, h2]
      · rw [if_neg hs]; simp [h4.1, h2]

theorem addr_inj {f : Filt} (h : (f.src.map (·.addr)).Nodup) {s t : Src} (hs : s ∈ f.src) (ht : t ∈ f.src) (e : s.addr = t.addr) : s = t := by
  generalize f.src = l at *
  induction l with
  | nil => cases hs
  | cons x l ih =>
    rw [List.map_cons, List.nodup_cons] at h
    rcases List.mem_cons.mp hs with hs | hs <;> rcases List.mem_cons.mp ht with ht | ht
    · rw [hs, ht]
    · exact absurd (List.mem_map.mpr ⟨t, ht, by rw [← e, hs]⟩) h.1
    · exact absurd (List.mem_map.mpr ⟨s, hs, by rw [e, ht]⟩) h.1
    · exact ih h.2 hs ht

/-- While a new list is loaded into the filter `f0`, `got` having been seen. -/
structure Loading (f0 : Filt) (md : Mode) (got : List Nat) (f : Filt) : Prop where
  st0 : f.st0 = f0.st0
  st1 : f.st1 = md
  s1 : ∀ s ∈ f.src, s.s1 = md ∨ s.s1 = .undef
  new : ∀ s ∈ f.src, s.s0 = .undef → s.s1 = md
  got : ∀ a, (∃ s ∈ f.src, s.addr = a ∧ s.s1 = md) ↔ a ∈ got
  old : (f.src.filter (fun s => s.s0 ≠ .undef)).map (fun s => ({ s with s1 := s.s0 } : Src)) = f0.src
  uniq : (f.src.map (·.addr)).Nodup

theorem load_start {f : Filt} (h : Good f) {md : Mode} (hm : md ≠ .undef) : Loading f md [] { imfLeave { f with st1 := md } with st1 := md } := by
  refine ⟨rfl, rfl, ?_, ?_, ?_, ?_, ?_⟩
  · intro s hs
    obtain ⟨t, _, rfl⟩ := List.mem_map.mp hs
    exact .inr rfl
  · intro s hs h0
    obtain ⟨t, ht, rfl⟩ := List.mem_map.mp hs
    have := (h.src t ht).1
    dsimp only at h0
    rw [this] at h0
    exact absurd h0 h.mode
  · intro a
    constructor
    · rintro ⟨s, hs, _, h1⟩
      obtain ⟨t, _, rfl⟩ := List.mem_map.mp hs
      exact absurd h1.symm hm
    · intro x; cases x
  · show ((f.src.map _).filter _).map _ = f.src
    rw [filter_id_of, List.map_map, map_id_of]
    · intro s hs
      have := h.src s hs
      obtain ⟨x, y, z⟩ := s
      dsimp only at this ⊢
      show Src.mk _ _ _ = _
      rw [this.1, this.2]
    · intro s hs
      obtain ⟨t, ht, rfl⟩ := List.mem_map.mp hs
      simp [(h.src t ht).1, h.mode]
  · show ((f.src.map _).map _).Nodup
    rw [List.map_map]
    exact h.uniq

theorem load_step {f0 f f' : Filt} {md : Mode} {got : List Nat} {maxs : Nat} {nm : Bool} {a : Nat} (hm : md ≠ .undef)
    (h : Loading f0 md got f) (he : imfGetSource maxs nm f a = .ok f') : Loading f0 md (a :: got) f' := by
  unfold imfGetSource at he
  by_cases hh : f.src.any (fun s => decide (s.addr = a)) = true
  · rw [if_pos hh] at he
    injection he with he
    subst he
    rw [List.any_eq_true] at hh
    obtain ⟨t, ht, hta⟩ := hh
    have hta : t.addr = a := by simpa using hta
    refine ⟨h.st0, h.st1, ?_, ?_, ?_, ?_, ?_⟩
    · intro s hs
      obtain ⟨u, hu, rfl⟩ := List.mem_map.mp hs
      by_cases hx : u.addr = a
      · rw [if_pos hx]; exact .inl h.st1
      · rw [if_neg hx]; exact h.s1 u hu
    · intro s hs h0
      obtain ⟨u, hu, rfl⟩ := List.mem_map.mp hs
      by_cases hx : u.addr = a
      · rw [if_pos hx]; exact h.st1
      · rw [if_neg hx] at h0 ⊢; exact h.new u hu h0
    · intro b
      rw [List.mem_cons]
      constructor
      · rintro ⟨s, hs, hb, h1⟩
        obtain ⟨u, hu, rfl⟩ := List.mem_map.mp hs
        by_cases hx : u.addr = a
        · rw [if_pos hx] at hb; left; exact hb.symm.trans hx
        · rw [if_neg hx] at hb h1; right; exact (h.got b).mp ⟨u, hu, hb, h1⟩
      · rintro (hb | hb)
        · subst hb
          refine ⟨_, List.mem_map.mpr ⟨t, ht, rfl⟩, ?_, ?_⟩
          · rw [if_pos hta]; exact hta
          · rw [if_pos hta]; exact h.st1
        · obtain ⟨u, hu, h1, h2⟩ := (h.got b).mpr hb
          refine ⟨_, List.mem_map.mpr ⟨u, hu, rfl⟩, ?_, ?_⟩
          · by_cases hx : u.addr = a
            · rw [if_pos hx]; exact h1
            · rw [if_neg hx]; exact h1
          · by_cases hx : u.addr = a
            · rw [if_pos hx]; exact h.st1
            · rw [if_neg hx]; exact h2
    · rw [← h.old]
      dsimp only
      generalize f.src = l
      induction l with
      | nil => rfl
      | cons s l ih =>
        rw [List.map_cons]
        have e0 : (if s.addr = a then ({ s with s1 := f.st1 } : Src) else s).s0 = s.s0 := by split <;> rfl
        by_cases h0 : s.s0 = .undef
        · rw [List.filter_cons_of_neg (by rw [e0]; simp [h0]), List.filter_cons_of_neg (by simp [h0])]
          exact ih
        · rw [List.filter_cons_of_pos (by rw [e0]; simp [h0]), List.filter_cons_of_pos (by simp [h0]), List.map_cons, List.map_cons, ih]
          congr 1
          split <;> rfl
    · show ((f.src.map _).map _).Nodup
      rw [List.map_map]
      have : ((fun s : Src => s.addr) ∘ fun s : Src => if s.addr = a then ({ s with s1 := f.st1 } : Src) else s) = (fun s : Src => s.addr) := by
        funext s
        show (if s.addr = a then ({ s with s1 := f.st1 } : Src) else s).addr = s.addr
        split <;> rfl
      rw [this]
      exact h.uniq
  · rw [if_neg hh] at he
    by_cases h1 : f.src.length = maxs
    · rw [if_pos h1] at he; cases he
    · rw [if_neg h1] at he
      cases nm with
      | true => simp at he
      | false =>
        simp only [Bool.false_eq_true, if_false, Except.ok.injEq] at he
        subst he
        refine ⟨h.st0, h.st1, ?_, ?_, ?_, ?_, ?_⟩
        · intro s hs
          rcases List.mem_cons.mp hs with hs | hs
          · subst hs; exact .inl h.st1
          · exact h.s1 s hs
        · intro s hs h0
          rcases List.mem_cons.mp hs with hs | hs
          · subst hs; exact h.st1
          · exact h.new s hs h0
        · intro b
          rw [List.mem_cons]
          constructor
          · rintro ⟨s, hs, hb, h1⟩
            rcases List.mem_cons.mp hs with hs | hs
            · subst hs; left; exact hb.symm
            · right; exact (h.got b).mp ⟨s, hs, hb, h1⟩
          · rintro (hb | hb)
            · subst hb
              exact ⟨_, List.mem_cons_self .., rfl, h.st1⟩
            · obtain ⟨u, hu, q⟩ := (h.got b).mpr hb
              exact ⟨u, List.mem_cons_of_mem _ hu, q⟩
        · rw [← h.old]
          dsimp only
          rw [List.filter_cons_of_neg (by simp)]
        · show (List.map _ (_ :: _)).Nodup
          rw [List.map_cons, List.nodup_cons]
          refine ⟨?_, h.uniq⟩
          intro hmm
          obtain ⟨s, hs, hes⟩ := List.mem_map.mp hmm
          apply hh
          rw [List.any_eq_true]
          exact ⟨s, hs, by simpa using hes⟩

theorem load_all {f0 : Filt} {md : Mode} {maxs : Nat} {nm : Bool} (hm : md ≠ .undef) : ∀ (srcs : List (Option Nat)) (f : Filt) (got : List Nat),
    Loading f0 md got f → ∃ got', Loading f0 md got' (imfLoad maxs nm f srcs).1 ∧
      ((imfLoad maxs nm f srcs).2 = .ok → ∀ a, a ∈ got' ↔ a ∈ got ∨ some a ∈ srcs) ∧
      ((imfLoad maxs nm f srcs).2 ≠ .ok → (imfLoad maxs nm f srcs).2 = .enospc ∨ ((imfLoad maxs nm f srcs).2 = .enomem ∧ nm = true) ∨
        ((imfLoad maxs nm f srcs).2 = .eafnosupport ∧ none ∈ srcs)) := by
  intro srcs
  induction srcs with
  | nil => intro f got h; exact ⟨got, h, fun _ a => by simp, fun x => absurd rfl x⟩
  | cons s r ih =>
    intro f got h
    cases s with
    | none => exact ⟨got, h, fun x => (by cases x), fun _ => .inr (.inr ⟨rfl, List.mem_cons_self ..⟩)⟩
    | some a =>
      match he : imfGetSource maxs nm f a with
      | .error e =>
        have e1 : imfLoad maxs nm f (some a :: r) = (f, e) := by rw [imfLoad, he]
        rw [e1]
        have hk : e = .enospc ∨ (e = .enomem ∧ nm = true) := by
          unfold imfGetSource at he
          split at he
          · cases he
          · split at he
            · left; injection he with he; exact he.symm
            · split at he
              · right; injection he with he; exact ⟨he.symm, by assumption⟩
              · cases he
        refine ⟨got, h, ?_, ?_⟩
        · intro x; dsimp only at x; subst x; rcases hk with hk | hk
          · cases hk
          · cases hk.1
        · intro _
          rcases hk with hk | hk
          · exact .inl hk
          · exact .inr (.inl hk)
      | .ok f' =>
        have e1 : imfLoad maxs nm f (some a :: r) = imfLoad maxs nm f' r := by rw [imfLoad, he]
        rw [e1]
        obtain ⟨got', q1, q2, q3⟩ := ih f' (a :: got) (load_step hm h he)
        refine ⟨got', q1, ?_, ?_⟩
        · intro ho b
          rw [q2 ho b, List.mem_cons, List.mem_cons]
          constructor
          · rintro ((hb | hb) | hb)
            · subst hb; exact .inr (.inl rfl)
            · exact .inl hb
            · exact .inr (.inr hb)
          · rintro (hb | hb | hb)
            · exact .inl (.inr hb)
            · injection hb with hb; exact .inl (.inl hb)
            · exact .inr hb
        · intro ho
          rcases q3 ho with q | q | q
          · exact .inl q
          · exact .inr (.inl q)
          · exact .inr (.inr ⟨q.1, List.mem_cons_of_mem _ q.2⟩)

theorem load_rollback {f0 f : Filt} {md : Mode} {got : List Nat} (h0 : Good f0) (hm : md ≠ .undef) (h : Loading f0 md got f) : imfReap (imfRollback f) = f0 := by
  have e : imfRollback f = f0 := by
    unfold imfRollback
    have e1 : f.src.filter (fun s => decide (s.s0 = s.s1 ∨ s.s0 ≠ .undef)) = f.src.filter (fun s => decide (s.s0 ≠ .undef)) := by
      apply List.filter_congr
      intro s hs
      by_cases h1 : s.s0 = .undef
      · have := h.new s hs h1
        rw [h1, this]
        simp [Ne.symm hm]
      · simp [h1]
    rw [e1, h.old, h.st0]
    obtain ⟨a, b, c⟩ := f0
    have := h0.st
    dsimp only at this ⊢
    rw [this]
  rw [e, reap_good h0]

theorem load_commit {f0 f : Filt} {md : Mode} {got : List Nat} (hm : md ≠ .undef) (h : Loading f0 md got f) :
    Good (imfReap (imfCommit f)) ∧ (imfReap (imfCommit f)).st0 = md ∧ ∀ a, has (imfReap (imfCommit f)) a = true ↔ a ∈ got := by
  have hsrc : ∀ s, s ∈ (imfReap (imfCommit f)).src ↔ ∃ t ∈ f.src, s = ⟨t.addr, md, md⟩ ∧ t.s1 = md := by
    intro s
    unfold imfReap imfCommit
    dsimp only
    rw [List.mem_filter, List.mem_map]
    constructor
    · rintro ⟨⟨t, ht, rfl⟩, hp⟩
      refine ⟨t, ht, ?_⟩
      rcases h.s1 t ht with h1 | h1
      · refine ⟨?_, h1⟩; obtain ⟨x, y, z⟩ := t; dsimp only at h1 ⊢; rw [h1]
      · simp [h1] at hp
    · rintro ⟨t, ht, rfl, h1⟩
      refine ⟨⟨t, ht, ?_⟩, ?_⟩
      · obtain ⟨x, y, z⟩ := t; dsimp only at h1 ⊢; rw [h1]
      · simp [hm]
  refine ⟨⟨?_, ?_, ?_, ?_⟩, h.st1, ?_⟩
  · rfl
  · show f.st1 ≠ .undef; rw [h.st1]; exact hm
  · intro s hs
    obtain ⟨t, _, rfl, _⟩ := (hsrc s).mp hs
    exact ⟨h.st1.symm, h.st1.symm⟩
  · show (List.map _ (List.filter _ (List.map _ _))).Nodup
    refine List.Sublist.nodup (List.Sublist.map _ List.filter_sublist) ?_
    rw [List.map_map]
    exact h.uniq
  · intro a
    rw [has_iff, ← h.got a]
    constructor
    · rintro ⟨s, hs, ha⟩
      obtain ⟨t, ht, rfl, h1⟩ := (hsrc s).mp hs
      exact ⟨t, ht, ha, h1⟩
    · rintro ⟨t, ht, ha, h1⟩
      exact ⟨_, (hsrc _).mpr ⟨t, ht, rfl, h1⟩, ha⟩

/-! ## Memberships -/

theorem view_key {x y : Ent} : ((view x).sock = (view y).sock ∧ (view x).ifp = (view y).ifp ∧ (view x).grp = (view y).grp) ↔
    (x.sock = y.sock ∧ x.ifp = y.ifp ∧ x.grp = y.grp) := Iff.rfl

theorem find_map {l : List Ent} {i : Nat} {k : Option Nat} {g : Nat} :
    Spec.find (l.map view) i k g = (l.find? (fun x => x.sock = i ∧ (k = none ∨ k = some x.ifp) ∧ x.grp = g)).map view := by
  unfold Spec.find
  rw [List.find?_map]
  rfl

theorem find_views (w : St) (i : Nat) (k : Option Nat) (g : Nat) : Spec.find (views w) i k g = (matchGroup w i k g).map view := find_map

theorem match_mem {w : St} {i : Nat} {k : Option Nat} {g : Nat} {x : Ent} (h : matchGroup w i k g = some x) :
    x ∈ w.mem ∧ x.sock = i ∧ (k = none ∨ k = some x.ifp) ∧ x.grp = g := by
  unfold matchGroup at h
  refine ⟨List.mem_of_find?_eq_some h, ?_⟩
  have := List.find?_some h
  simpa using this

theorem put_views {m : List Ent} {x : Ent} {f : Filt} {b : Bool} {lst : Nat → Bool} (h1 : decide (f.st0 = .excl) = b) (h2 : has f = lst) :
    (setFilt m x f).map view = Spec.put (m.map view) (view x) b lst := by
  unfold setFilt Spec.put
  rw [List.map_map, List.map_map]
  apply List.map_congr_left
  intro y _
  show view (if y.sock = x.sock ∧ y.ifp = x.ifp ∧ y.grp = x.grp then { y with f := f } else y) =
    if y.sock = x.sock ∧ y.ifp = x.ifp ∧ y.grp = x.grp then { view y with excl := b, lst := lst } else view y
  by_cases h : y.sock = x.sock ∧ y.ifp = x.ifp ∧ y.grp = x.grp
  · rw [if_pos h, if_pos h]
    unfold view
    dsimp only
    rw [h1, h2]
  · rw [if_neg h, if_neg h]

theorem drop_views {m : List Ent} {x : Ent} : (dropEnt m x).map view = Spec.drop (m.map view) (view x) := by
  unfold dropEnt Spec.drop
  rw [List.filter_map]
  rfl

theorem ent_inj {m : List Ent} (h : (m.map key).Nodup) {x y : Ent} (hx : x ∈ m) (hy : y ∈ m) (e : key x = key y) : x = y := by
  induction m with
  | nil => cases hx
  | cons z l ih =>
    rw [List.map_cons, List.nodup_cons] at h
    rcases List.mem_cons.mp hx with hs | hs <;> rcases List.mem_cons.mp hy with ht | ht
    · rw [hs, ht]
    · exact absurd (List.mem_map.mpr ⟨y, ht, by rw [← e, hs]⟩) h.1
    · exact absurd (List.mem_map.mpr ⟨x, hs, by rw [e, ht]⟩) h.1
    · exact ih h.2 hs ht

theorem set_same {m : List Ent} (h : (m.map key).Nodup) {x : Ent} (hx : x ∈ m) : setFilt m x x.f = m := by
  unfold setFilt
  apply map_id_of
  intro y hy
  by_cases hk : y.sock = x.sock ∧ y.ifp = x.ifp ∧ y.grp = x.grp
  · rw [if_pos hk]
    have : y = x := ent_inj h hy hx (by unfold key; rw [hk.1, hk.2.1, hk.2.2])
    subst this; rfl
  · rw [if_neg hk]

theorem set_inv {w : St} (hi : Inv w) {x : Ent} {f : Filt} (hf : Good f) :
    (∀ y ∈ setFilt w.mem x f, Good y.f) ∧ ((setFilt w.mem x f).map key).Nodup := by
  constructor
  · intro y hy
    obtain ⟨z, hz, rfl⟩ := List.mem_map.mp hy
    split
    · exact hf
    · exact hi.good z hz
  · have : (setFilt w.mem x f).map key = w.mem.map key := by
      unfold setFilt
      rw [List.map_map]
      apply List.map_congr_left
      intro y _
      show key (if _ then _ else _) = key y
      split <;> rfl
    rw [this]; exact hi.uniq

theorem graft_has (f : Filt) (m : Mode) (a : Nat) : has { f with src := ⟨a, m, m⟩ :: f.src } = (fun b => b = a || has f b) := by
  funext b
  unfold has
  rw [List.any_cons]
  congr 1
  dsimp only
  by_cases h : a = b
  · simp [h]
  · simp [h, Ne.symm h]

theorem filter_has (f : Filt) (a : Nat) : has { f with src := f.src.filter (fun s => s.addr ≠ a) } = (fun b => b ≠ a && has f b) := by
  funext b
  rw [Bool.eq_iff_iff, has_iff]
  simp only [Bool.and_eq_true, decide_eq_true_eq, has_iff]
  constructor
  · rintro ⟨s, hs, rfl⟩
    have := List.mem_filter.mp hs
    exact ⟨by simpa using this.2, s, this.1, rfl⟩
  · rintro ⟨h, s, hs, rfl⟩
    exact ⟨s, List.mem_filter.mpr ⟨hs, by simpa using h⟩, rfl⟩

theorem good_excl {f : Filt} (h : Good f) : (f.st0 = .excl) ∨ f.st0 = .incl := by
  have := h.mode
  cases hh : f.st0 with
  | undef => exact absurd hh this
  | incl => exact .inr rfl
  | excl => exact .inl rfl

/-- Calls whose effect is as specified: setting a filter must name a source. -/
def Named : Op → Prop
  | .set _ _ _ _ srcs => srcs ≠ []
  | _ => True

def socks (w : St) (i : Nat) : Nat := w.mem.countP (fun x => x.sock = i)

def caller : Op → Nat
  | .join i _ _ _ => i
  | .leave i _ _ _ => i
  | .block i _ _ _ _ => i
  | .set i _ _ _ _ => i
  | .close i => i
  | .igmp _ _ _ => 0

/-- Outcome of a call. -/
def Exact (w : St) (e : Env) (o : Op) (p : St × Res) : Prop :=
  Inv p.1 ∧ (p.2 = .hang ∨ p.2 = .fault → views p.1 = views w) ∧
  ∀ r, p.2 = .ret r → Spec.call (views w) o = (views p.1, r) ∨ (views p.1 = views w ∧ Spec.Lacking e w.maxs (socks w (caller o)) o r)

theorem exact_same {w : St} {e : Env} {o : Op} (hi : Inv w) {r : Err} (h : Spec.call (views w) o = (views w, r)) : Exact w e o (w, .ret r) :=
  ⟨hi, fun _ => rfl, fun r' hr => by injection hr with hr; subst hr; exact .inl h⟩

theorem exact_lack {w : St} {e : Env} {o : Op} (hi : Inv w) {w' : St} (hi' : w'.mem = w.mem) {r : Err} (h : Spec.Lacking e w.maxs (socks w (caller o)) o r) :
    Exact w e o (w', .ret r) := by
  refine ⟨⟨by rw [hi']; exact hi.good, by rw [hi']; exact hi.uniq⟩, ?_, ?_⟩
  · intro h; rcases h with h | h <;> cases h
  · intro r' hr; injection hr with hr; subst hr; exact .inr ⟨by unfold views; rw [hi'], h⟩

theorem exact_stop {w : St} {e : Env} {o : Op} (hi : Inv w) {r : Res} (h : r = .hang ∨ r = .fault) : Exact w e o (w, r) :=
  ⟨hi, fun _ => rfl, fun r' hr => by rcases h with h | h <;> rw [h] at hr <;> cases hr⟩

theorem exact_ok {w : St} {e : Env} {o : Op} {w' : St} (h : (∀ y ∈ w'.mem, Good y.f) ∧ (w'.mem.map key).Nodup)
    (hs : Spec.call (views w) o = (views w', .ok)) : Exact w e o (w', .ret .ok) := by
  refine ⟨⟨h.1, h.2⟩, ?_, ?_⟩
  · intro h; rcases h with h | h <;> cases h
  · intro r' hr; injection hr with hr; subst hr; exact .inl hs

theorem join_exact {w : St} {e : Env} (hi : Inv w) (i : Nat) (ifp : Option Nat) (g : Nat) (src : Option Nat) :
    Exact w e (.join i ifp g src) (join w e i ifp g src) := by
  cases ifp with
  | none => exact exact_same hi rfl
  | some k =>
    have hfind := find_views w i (some k) g
    unfold join
    dsimp only
    match hm : matchGroup w i (some k) g with
    | some x =>
      obtain ⟨hx, hxs, hxk, hxg⟩ := match_mem hm
      have hg := hi.good x hx
      rw [hm] at hfind
      cases src with
      | none =>
        refine exact_same hi ?_
        unfold Spec.call
        dsimp only
        rw [hfind]
        show (views w, if decide (x.f.st0 = .excl) = true then _ else _) = _
        rw [hg.st]
        by_cases h : x.f.st0 = .excl
        · rw [if_pos (by simpa using h), if_pos h]
        · rw [if_neg (by simpa using h), if_neg h]
      | some a =>
        dsimp only
        have hcall : Spec.call (views w) (.join i (some k) g (some a)) =
            if decide (x.f.st0 = .excl) = true then (views w, .einval) else if has x.f a = true then (views w, .eaddrnotavail)
            else (Spec.put (views w) (view x) false (fun b => b = a || has x.f b), .ok) := by
          unfold Spec.call
          dsimp only
          rw [hfind]
          rfl
        rcases good_excl hg with h | h
        · rw [if_pos (by rw [hg.st, h]; decide)]
          refine exact_same hi ?_
          rw [hcall, if_pos (by simpa using h)]
        · rw [if_neg (by rw [hg.st, h]; decide)]
          rw [if_neg (by rw [h]; decide)] at hcall
          by_cases ha : has x.f a = true
          · rw [if_pos (show x.f.src.any (fun s => decide (s.addr = a)) = true from ha)]
            refine exact_same hi ?_
            rw [hcall, if_pos ha]
          · rw [if_neg (show ¬ (x.f.src.any (fun s => decide (s.addr = a)) = true) from ha)]
            rw [if_neg ha] at hcall
            have ha : has x.f a = false := by simpa using ha
            by_cases hn : e.noMem = true
            · rw [if_pos hn]; exact exact_lack hi rfl hn
            · rw [if_neg hn]
              by_cases hl : w.lock = true
              · rw [if_pos hl]; exact exact_stop hi (.inl rfl)
              · rw [if_neg hl]
                match hme : mergeAt w e k g (imfGraft x.f .incl a) with
                | none => exact exact_stop hi (.inr rfl)
                | some gs =>
                  dsimp only
                  by_cases hig : e.igmpErr = true
                  · rw [if_pos hig, rollback_graft hg (by decide), reap_good hg, set_same hi.uniq hx]
                    refine exact_lack (r := .igmp) hi ?_ hig; rfl
                  · rw [if_neg hig]
                    have hc : imfCommit (imfGraft x.f .incl a) = { x.f with src := ⟨a, x.f.st0, x.f.st0⟩ :: x.f.src } := by
                      rw [← graft_commit hg a, h]
                    refine exact_ok ?_ ?_
                    · rw [hc]; exact set_inv hi (graft_good hg ha)
                    · rw [hcall]
                      congr 1
                      show _ = (setFilt w.mem x _).map view
                      refine (put_views ?_ ?_).symm
                      · rw [hc]; simp [h]
                      · rw [hc, graft_has]
    | none =>
      rw [hm] at hfind
      dsimp only
      by_cases hc : w.mem.countP (fun x => decide (x.sock = i)) = 4095
      · rw [if_pos hc]; exact exact_lack hi rfl hc
      · rw [if_neg hc]
        by_cases hn : (src.isSome && e.noMem) = true
        · rw [if_pos hn]
          simp only [Bool.and_eq_true] at hn
          exact exact_lack hi rfl hn.2
        · rw [if_neg hn]
          by_cases hl : w.lock = true
          · rw [if_pos hl]; exact exact_stop hi (.inl rfl)
          · rw [if_neg hl]
            generalize hf : newFilt src = f
            match hme : mergeAt { w with grps := getMulti w.grps k g } e k g f with
            | none => exact exact_stop hi (.inr rfl)
            | some gs =>
              dsimp only
              by_cases hig : e.igmpErr = true
              · rw [if_pos hig]; refine exact_lack (r := .igmp) hi ?_ hig; rfl
              · rw [if_neg hig]
                have hgood : Good (imfCommit f) := by
                  subst hf
                  cases src with
                  | none => exact ⟨rfl, by decide, fun s hs => (by cases hs), by simp [imfCommit, imfInit, newFilt]⟩
                  | some a =>
                    refine ⟨rfl, (by show Mode.incl ≠ .undef; decide), fun s hs => ?_, by simp [imfCommit, imfInit, imfGraft, newFilt]⟩
                    simp only [newFilt, imfCommit, imfInit, imfGraft, List.map_cons, List.map_nil, List.mem_singleton] at hs
                    subst hs
                    exact ⟨rfl, rfl⟩
                refine exact_ok ⟨?_, ?_⟩ ?_
                · intro y hy
                  rcases List.mem_append.mp hy with hy | hy
                  · exact hi.good y hy
                  · rw [List.mem_singleton] at hy; subst hy; exact hgood
                · show ((w.mem ++ [_]).map key).Nodup
                  rw [List.map_append, List.nodup_append]
                  refine ⟨hi.uniq, by simp, fun a ha b hb => ?_⟩
                  rw [List.map_singleton, List.mem_singleton] at hb
                  obtain ⟨y, hy, rfl⟩ := List.mem_map.mp ha
                  subst hb
                  intro he
                  unfold matchGroup at hm
                  rw [List.find?_eq_none] at hm
                  have := hm y hy
                  simp only [key, Prod.mk.injEq] at he
                  simp [he.1, he.2.1, he.2.2] at this
                · unfold Spec.call
                  dsimp only
                  rw [hfind]
                  subst hf
                  cases src with
                  | none =>
                    show (_ ++ [_], Err.ok) = ((w.mem ++ [_]).map view, Err.ok)
                    rw [List.map_append]
                    rfl
                  | some a =>
                    show (_ ++ [_], Err.ok) = ((w.mem ++ [_]).map view, Err.ok)
                    rw [List.map_append]
                    congr 2
                    show [_] = [_]
                    congr 1
                    unfold view
                    ext1
                    · rfl
                    · rfl
                    · rfl
                    · rfl
                    · funext b
                      show _ = has { (imfInit .incl) with src := [_] } b
                      simp [has, eq_comm]

theorem leave_exact {w : St} {e : Env} (hi : Inv w) (i : Nat) (ifp : Option Nat) (g : Nat) (src : Option Nat) :
    Exact w e (.leave i ifp g src) (leave w e i ifp g src) := by
  have hfind := find_views w i ifp g
  unfold leave
  match hm : matchGroup w i ifp g with
  | none =>
    refine exact_same hi ?_
    unfold Spec.call
    dsimp only
    rw [hfind, hm]
    rfl
  | some x =>
    obtain ⟨hx, hxs, hxk, hxg⟩ := match_mem hm
    have hg := hi.good x hx
    rw [hm] at hfind
    cases src with
    | none =>
      dsimp only
      by_cases hl : w.lock = true
      · rw [if_pos hl]; exact exact_stop hi (.inl rfl)
      · rw [if_neg hl]
        match hme : mergeAt w e x.ifp g (imfLeave x.f) with
        | none => exact exact_stop hi (.inr rfl)
        | some gs =>
          refine exact_ok ⟨?_, ?_⟩ ?_
          · intro y hy; exact hi.good y (List.mem_filter.mp hy).1
          · exact (List.Sublist.map _ List.filter_sublist).nodup hi.uniq
          · unfold Spec.call
            dsimp only
            rw [hfind]
            show (Spec.drop _ _, Err.ok) = ((dropEnt w.mem x).map view, Err.ok)
            rw [drop_views]
            rfl
    | some a =>
      dsimp only
      have hcall : Spec.call (views w) (.leave i ifp g (some a)) =
          if (decide (x.f.st0 = .excl) || !has x.f a) = true then (views w, .eaddrnotavail)
          else (Spec.put (views w) (view x) false (fun b => b ≠ a && has x.f b), .ok) := by
        unfold Spec.call
        dsimp only
        rw [hfind]
        rfl
      by_cases h : x.f.st0 = .excl
      · rw [if_pos h]
        refine exact_same hi ?_
        rw [hcall, if_pos (by simp [h])]
      · rw [if_neg h]
        by_cases ha : has x.f a = true
        · rw [if_neg (show ¬ ((!x.f.src.any (fun s => decide (s.addr = a))) = true) by
            have : x.f.src.any (fun s => decide (s.addr = a)) = true := ha
            rw [this]; decide)]
          rw [if_neg (by simp [h, ha])] at hcall
          by_cases hl : w.lock = true
          · rw [if_pos hl]; exact exact_stop hi (.inl rfl)
          · rw [if_neg hl]
            match hme : mergeAt w e x.ifp g (imfPrune x.f a) with
            | none => exact exact_stop hi (.inr rfl)
            | some gs =>
              dsimp only
              by_cases hig : e.igmpErr = true
              · rw [if_pos hig, rollback_prune hg, reap_good hg, set_same hi.uniq hx]
                refine exact_lack (r := .igmp) hi ?_ hig; rfl
              · rw [if_neg hig, prune_commit hg]
                refine exact_ok (set_inv hi (filter_good hg a)) ?_
                rw [hcall]
                congr 1
                refine (put_views ?_ (filter_has x.f a)).symm
                simp [h]
        · have ha' : x.f.src.any (fun s => decide (s.addr = a)) = false := by
            have : has x.f a = false := by simpa using ha
            exact this
          rw [if_pos (by rw [ha']; decide)]
          refine exact_same hi ?_
          rw [hcall, if_pos (by simp [ha])]

theorem block_exact {w : St} {e : Env} (hi : Inv w) (i : Nat) (ifp : Option Nat) (g a : Nat) (b : Bool) :
    Exact w e (.block i ifp g a b) (block w e i ifp g a b) := by
  have hfind := find_views w i ifp g
  unfold block
  match hm : matchGroup w i ifp g with
  | none =>
    refine exact_same hi ?_
    unfold Spec.call
    dsimp only
    rw [hfind, hm]
    rfl
  | some x =>
    obtain ⟨hx, hxs, hxk, hxg⟩ := match_mem hm
    have hg := hi.good x hx
    rw [hm] at hfind
    dsimp only
    have hcall : Spec.call (views w) (.block i ifp g a b) =
        if (!decide (x.f.st0 = .excl)) = true then (views w, .einval) else if has x.f a = b then (views w, .eaddrnotavail)
        else (Spec.put (views w) (view x) true (fun c => if c = a then b else has x.f c), .ok) := by
      unfold Spec.call
      dsimp only
      rw [hfind]
      rfl
    by_cases h : x.f.st0 = .excl
    · rw [if_neg (show ¬ (x.f.st0 ≠ .excl) from fun q => q h)]
      rw [if_neg (by simp [h])] at hcall
      by_cases ha : has x.f a = b
      · rw [if_pos (show x.f.src.any (fun s => decide (s.addr = a)) = b from ha)]
        refine exact_same hi ?_
        rw [hcall, if_pos ha]
      · rw [if_neg (show ¬ x.f.src.any (fun s => decide (s.addr = a)) = b from ha)]
        rw [if_neg ha] at hcall
        by_cases hn : (b && e.noMem) = true
        · rw [if_pos hn, rollback_good hg, reap_good hg, set_same hi.uniq hx]
          simp only [Bool.and_eq_true] at hn
          exact exact_lack hi rfl hn.2
        · rw [if_neg hn]
          by_cases hl : w.lock = true
          · rw [if_pos hl]; exact exact_stop hi (.inl rfl)
          · rw [if_neg hl]
            match hme : mergeAt w e x.ifp g (if b = true then imfGraft x.f .excl a else imfPrune x.f a) with
            | none => exact exact_stop hi (.inr rfl)
            | some gs =>
              dsimp only
              cases b with
              | true =>
                rw [if_pos (rfl : true = true)]
                by_cases hig : e.igmpErr = true
                · rw [if_pos hig, rollback_graft hg (by decide), reap_good hg, set_same hi.uniq hx]
                  refine exact_lack (r := .igmp) hi ?_ hig; rfl
                · rw [if_neg hig]
                  have ha' : has x.f a = false := by simpa using ha
                  have hc : imfReap (imfCommit (imfGraft x.f .excl a)) = { x.f with src := ⟨a, x.f.st0, x.f.st0⟩ :: x.f.src } := by
                    rw [← h, graft_commit hg a, reap_good (graft_good hg ha')]
                  rw [hc]
                  refine exact_ok (set_inv hi (graft_good hg ha')) ?_
                  rw [hcall]
                  congr 1
                  refine (put_views ?_ ?_).symm
                  · simp [h]
                  · rw [graft_has]
                    funext c
                    by_cases hca : c = a <;> simp [hca]
              | false =>
                rw [if_neg (show ¬ (false = true) by decide)]
                by_cases hig : e.igmpErr = true
                · rw [if_pos hig, rollback_prune hg, reap_good hg, set_same hi.uniq hx]
                  refine exact_lack (r := .igmp) hi ?_ hig; rfl
                · rw [if_neg hig, prune_commit hg]
                  refine exact_ok (set_inv hi (filter_good hg a)) ?_
                  rw [hcall]
                  congr 1
                  refine (put_views ?_ ?_).symm
                  · simp [h]
                  · rw [filter_has]
                    funext c
                    by_cases hca : c = a <;> simp [hca]
    · rw [if_pos h]
      refine exact_same hi ?_
      rw [hcall, if_pos (by simp [h])]

theorem set_exact {w : St} {e : Env} (hi : Inv w) (i : Nat) (ifp : Option Nat) (g : Nat) (m : Bool) (srcs : List (Option Nat)) (hne : srcs ≠ []) :
    Exact w e (.set i ifp g m srcs) (setSources w e i ifp g m srcs) := by
  unfold setSources
  by_cases hlen : srcs.length > w.maxs
  · rw [if_pos hlen]; exact exact_lack hi rfl ⟨_, _, _, _, _, rfl, hlen⟩
  · rw [if_neg hlen]
    cases ifp with
    | none => exact exact_same hi rfl
    | some k =>
      have hfind := find_views w i (some k) g
      dsimp only
      match hm : matchGroup w i (some k) g with
      | none =>
        refine exact_same hi ?_
        unfold Spec.call
        dsimp only
        rw [hfind, hm]
        rfl
      | some x =>
        obtain ⟨hx, hxs, hxk, hxg⟩ := match_mem hm
        have hg := hi.good x hx
        rw [hm] at hfind
        dsimp only
        rw [if_neg hne]
        have hmd : (if m = true then Mode.excl else Mode.incl) ≠ .undef := by cases m <;> decide
        have hme : decide ((if m = true then Mode.excl else Mode.incl) = .excl) = m := by cases m <;> rfl
        generalize (if m = true then Mode.excl else Mode.incl) = md at hmd hme ⊢
        obtain ⟨got, hL, hok, herr⟩ := load_all (maxs := w.maxs) (nm := e.noMem) hmd srcs _ [] (load_start hg hmd)
        generalize imfLoad w.maxs e.noMem { imfLeave { x.f with st1 := md } with st1 := md } srcs = p at hL hok herr ⊢
        by_cases hp : p.2 = .ok
        · rw [if_neg (fun q => q hp)]
          by_cases hl : w.lock = true
          · rw [if_pos hl]; exact exact_stop hi (.inl rfl)
          · rw [if_neg hl]
            match hmg : mergeAt w e k g p.1 with
            | none => exact exact_stop hi (.inr rfl)
            | some gs =>
              dsimp only
              by_cases hig : e.igmpErr = true
              · rw [if_pos hig, load_rollback hg hmd hL, set_same hi.uniq hx]
                refine exact_lack (r := .igmp) hi ?_ hig; rfl
              · rw [if_neg hig]
                obtain ⟨c1, c2, c3⟩ := load_commit hmd hL
                refine exact_ok (set_inv hi c1) ?_
                unfold Spec.call
                dsimp only
                rw [hfind]
                show (Spec.put _ _ _ _, Err.ok) = ((setFilt w.mem x _).map view, Err.ok)
                rw [put_views (b := m) (lst := fun b => decide (some b ∈ srcs))]
                · rfl
                · rw [c2]; exact hme
                · funext b
                  rw [Bool.eq_iff_iff, c3, hok hp]
                  simp
        · rw [if_pos hp, load_rollback hg hmd hL, set_same hi.uniq hx]
          refine exact_lack hi rfl ?_
          rcases herr hp with h | h | h
          · rw [h]; exact ⟨_, _, _, _, _, rfl⟩
          · rw [h.1]; exact h.2
          · rw [h.1]; exact ⟨_, _, _, _, _, rfl, h.2⟩

theorem step_exact {w : St} (hi : Inv w) (e : Env) (o : Op) (ho : Named o) : Exact w e o (step w e o) := by
  cases o with
  | join i k g a => exact join_exact hi i k g a
  | leave i k g a => exact leave_exact hi i k g a
  | block i k g a b => exact block_exact hi i k g a b
  | set i k g m l => exact set_exact hi i k g m l ho
  | close i =>
    refine exact_ok ⟨?_, ?_⟩ ?_
    · intro y hy; exact hi.good y (List.mem_filter.mp hy).1
    · exact (List.Sublist.map _ List.filter_sublist).nodup hi.uniq
    · show (List.filter _ (w.mem.map view), Err.ok) = ((w.mem.filter _).map view, Err.ok)
      rw [List.filter_map]
      rfl
  | igmp k g op =>
    unfold step
    dsimp only
    by_cases hl : w.lock = true
    · rw [if_pos hl]; exact exact_stop hi (.inl rfl)
    · rw [if_neg hl]; exact exact_ok ⟨hi.good, hi.uniq⟩ rfl

theorem init_inv : Inv init := ⟨fun x hx => (by cases hx), List.nodup_nil⟩

theorem run_inv : ∀ (h : List (Env × Op)) (w : St), Inv w → (∀ p ∈ h, Named p.2) → Inv (run w h) := by
  intro h
  induction h with
  | nil => intro w hi _; exact hi
  | cons p h ih =>
    intro w hi hn
    exact ih _ (step_exact hi p.1 p.2 (hn p (List.mem_cons_self ..))).1 (fun q hq => hn q (List.mem_cons_of_mem _ hq))

end Verif.Mcast

import Verif.Arp.Lemmas
import Verif.Arp.Spec
/-! The exact effect of every operation on the table a user sees. -/
namespace Verif.Arp

variable {E : Env} {s : St}

theorem find_congr {s' : St} (ht : s'.tab = s.tab) (hk : ∀ j, (s'.ent j).key = (s.ent j).key)
    (k : K) : find E s' k = find E s k := by
  unfold find
  rw [ht]
  congr 1
  funext i
  rw [hk]

theorem view_some {k : K} {e : Info} (I : Inv E s) :
    view E s k = some e ↔ ∃ i, Live E s i ∧ (s.ent i).key = k ∧ e = info i (s.ent i) := by
  unfold view
  cases hf : find E s k with
  | none =>
    simp only [Option.map_none, reduceCtorEq, false_iff]
    rintro ⟨i, hl, hk, -⟩
    exact (find_none_iff I k).mp hf i hl hk
  | some j =>
    have hj := (find_some_iff I k j).mp hf
    simp only [Option.map_some, Option.some.injEq]
    constructor
    · intro h; exact ⟨j, hj.1, hj.2, h.symm⟩
    · rintro ⟨i, hl, hk, he⟩
      have := I.uniq_live hl hj.1 (by rw [hk, hj.2])
      subst this; exact he.symm

theorem view_congr {s' : St} (ht : s'.tab = s.tab) (hk : ∀ j, (s'.ent j).key = (s.ent j).key)
    (hi : ∀ j, info j (s'.ent j) = info j (s.ent j)) : view E s' = view E s := by
  funext k
  unfold view
  rw [find_congr ht hk]
  simp only [hi]

/-- Changing one entry, key kept. -/
theorem view_put {s' : St} (i : Nat) (e : Entry) (ht : s'.tab = s.tab)
    (he : s'.ent = put s.ent i e) (hk : e.key = (s.ent i).key) :
    ∀ k, view E s' k = (find E s k).map (fun j => if j = i then info i e else info j (s.ent j)) := by
  intro k
  unfold view
  rw [find_congr ht]
  · cases find E s k with
    | none => rfl
    | some j =>
      simp only [Option.map_some]
      rw [he]
      by_cases hj : j = i
      · subst hj; rw [put_same]; simp
      · rw [put_ne _ _ hj]; simp [hj]
  · intro j
    rw [he]
    by_cases hj : j = i
    · subst hj; rw [put_same]; exact hk
    · rw [put_ne _ _ hj]

theorem view_put_mod {s' : St} (i : Nat) (e : Entry) (f : Info → Info) (ht : s'.tab = s.tab)
    (he : s'.ent = put s.ent i e) (hk : e.key = (s.ent i).key)
    (hf : info i e = f (info i (s.ent i))) : view E s' = modIdx (view E s) i f := by
  funext k
  rw [view_put i e ht he hk]
  unfold modIdx view
  cases find E s k with
  | none => rfl
  | some j =>
    simp only [Option.map_some, info]
    by_cases hj : j = i
    · subst hj; simp only [if_true]; exact congrArg some hf
    · simp only [hj, if_false]

theorem view_alloc (I : Inv E s) {k : K} {i : Nat} {rest : List Nat} {s' : St}
    (hn : find E s k = none) (hfr : s.free = i :: rest)
    (he : s'.ent = put s.ent i (freshEnt (s.ent i) k)) (hf : s'.free = rest)
    (ht : s'.tab = put s.tab (E.hash k) (i :: s.tab (E.hash k))) (hc : s'.cache = s.cache) :
    (∀ k', find E s' k' = if k' = k then some i else find E s k') ∧
    view E s' = setKey (view E s) k (some (info i (freshEnt (s.ent i) k))) := by
  have I' := inv_alloc I hn hfr he hf ht hc
  have hif : i ∈ s.free := by rw [hfr]; exact List.mem_cons_self
  have hki : (s'.ent i).key = k := by rw [he, put_same]; rfl
  have hli : Live E s' i := by
    unfold Live; rw [hki, ht, put_same]; exact List.mem_cons_self
  have hfind : ∀ k', find E s' k' = if k' = k then some i else find E s k' := by
    intro k'
    by_cases hk : k' = k
    · rw [if_pos hk, hk]
      exact (find_some_iff I' k i).mpr ⟨hli, hki⟩
    · rw [if_neg hk]
      cases hf : find E s k' with
      | none =>
        rw [find_none_iff I']
        intro j hj hjk
        by_cases hji : j = i
        · subst hji; rw [hki] at hjk; exact hk hjk.symm
        · have hej : s'.ent j = s.ent j := by rw [he, put_ne _ _ hji]
          rw [hej] at hjk
          refine (find_none_iff I k').mp hf j ?_ hjk
          unfold Live at hj ⊢
          rw [hej, ht] at hj
          by_cases hh : E.hash (s.ent j).key = E.hash k
          · rw [hh, put_same] at hj
            rw [hh]
            cases hj with
            | head => exact absurd rfl hji
            | tail _ h => exact h
          · rw [put_ne _ _ hh] at hj; exact hj
      | some j =>
        have hj := (find_some_iff I k' j).mp hf
        have hji : j ≠ i := by
          intro h; subst h; exact I.not_free_of_live hj.1 hif
        have hej : s'.ent j = s.ent j := by rw [he, put_ne _ _ hji]
        rw [find_some_iff I']
        refine ⟨?_, by rw [hej]; exact hj.2⟩
        have hl := hj.1
        unfold Live at hl ⊢
        rw [hej, ht]
        by_cases hh : E.hash (s.ent j).key = E.hash k
        · rw [hh, put_same]; rw [hh] at hl; exact List.mem_cons_of_mem _ hl
        · rw [put_ne _ _ hh]; exact hl
  refine ⟨hfind, ?_⟩
  funext k'
  unfold view setKey
  dsimp only
  rw [hfind]
  by_cases hk : k' = k
  · rw [if_pos hk, if_pos hk, Option.map_some, he, put_same]
  · rw [if_neg hk, if_neg hk]
    cases hf : find E s k' with
    | none => rfl
    | some j =>
      have hj := (find_some_iff I k' j).mp hf
      have hji : j ≠ i := by
        intro h; subst h; exact I.not_free_of_live hj.1 hif
      simp only [Option.map_some]
      rw [he, put_ne _ _ hji]

/-- Removal through the entry's own set. -/
theorem view_remove (I : Inv E s) {i : Nat} (h1 : 1 ≤ i) (h2 : i ≤ E.n) :
    view E (remove E s (E.hash (s.ent i).key) i) = dropIdx (view E s) i := by
  cases hr : removable s i with
  | false =>
    rw [remove_noop _ _ hr]
    funext k
    unfold dropIdx
    cases hv : view E s k with
    | none => rfl
    | some e =>
      obtain ⟨j, hl, hk, rfl⟩ := (view_some I).mp hv
      simp only [Option.bind_some, info]
      rw [if_neg]
      rintro ⟨rfl, hz⟩
      have hu := (I.live_range hl).2.2
      simp [removable, hu, hz] at hr
  | true =>
    have hru : (s.ent i).ref = 0#32 ∧ (s.ent i).used = true := by
      simpa [removable] using hr
    have I' := inv_remove I h1 h2
    have he := remove_ent (E := E) (E.hash (s.ent i).key) i hr
    have ht := remove_tab (E := E) (E.hash (s.ent i).key) i hr
    generalize remove E s (E.hash (s.ent i).key) i = s' at I' he ht
    have hl : Live E s i := (I.live_iff_used h1 h2).mpr hru.2
    have hnl : ∀ j, Live E s' j ↔ Live E s j ∧ j ≠ i := by
      intro j
      by_cases hj : j = i
      · subst hj
        constructor
        · intro h
          have := (I'.live_range h).2.2
          rw [he, put_same] at this
          cases this
        · intro h; exact absurd rfl h.2
      · have hej : s'.ent j = s.ent j := by rw [he, put_ne _ _ hj]
        unfold Live
        rw [hej, ht]
        by_cases hh : E.hash (s.ent j).key = E.hash (s.ent i).key
        · rw [hh, put_same, (I.tabN _).mem_erase_iff]
          exact And.comm
        · rw [put_ne _ _ hh]
          exact ⟨fun h => ⟨h, hj⟩, fun h => h.1⟩
    funext k
    unfold dropIdx
    cases hv : view E s k with
    | none =>
      rw [Option.bind_none]
      cases hv' : view E s' k with
      | none => rfl
      | some e =>
        obtain ⟨j, hlj, hk, rfl⟩ := (view_some I').mp hv'
        have hj := (hnl j).mp hlj
        rw [he, put_ne _ _ hj.2] at hk
        have := (view_some I (e := info j (s.ent j))).mpr ⟨j, hj.1, hk, rfl⟩
        rw [hv] at this; cases this
    | some e =>
      obtain ⟨j, hlj, hk, rfl⟩ := (view_some I).mp hv
      simp only [Option.bind_some, info]
      by_cases hj : j = i
      · subst hj
        rw [if_pos ⟨rfl, hru.1⟩]
        cases hv' : view E s' k with
        | none => rfl
        | some e =>
          obtain ⟨m, hlm, hkm, rfl⟩ := (view_some I').mp hv'
          have hm := (hnl m).mp hlm
          rw [he, put_ne _ _ hm.2] at hkm
          exact absurd (I.uniq_live hm.1 hlj (by rw [hkm, hk])) hm.2
      · rw [if_neg (fun h => hj h.1)]
        refine (view_some I').mpr ⟨j, (hnl j).mpr ⟨hlj, hj⟩, ?_, ?_⟩
        · rw [he, put_ne _ _ hj]; exact hk
        · rw [he, put_ne _ _ hj]; rfl

/-- The handle in the view identifies the entry. -/
theorem view_idx (I : Inv E s) {k : K} {e : Info} (h : view E s k = some e) :
    Live E s e.idx ∧ (s.ent e.idx).key = k ∧ e = info e.idx (s.ent e.idx) ∧ 1 ≤ e.idx ∧
      e.idx ≤ E.n := by
  obtain ⟨i, hl, hk, rfl⟩ := (view_some I).mp h
  have := I.live_range hl
  exact ⟨hl, hk, rfl, this.1, this.2.1⟩

theorem modIdx_eq_setKey (I : Inv E s) {k : K} {e : Info} (h : view E s k = some e)
    (f : Info → Info) : modIdx (view E s) e.idx f = setKey (view E s) k (some (f e)) := by
  have he := view_idx I h
  funext k'
  unfold modIdx setKey
  by_cases hk : k' = k
  · rw [if_pos hk, hk, h]; simp
  · rw [if_neg hk]
    cases hv : view E s k' with
    | none => rfl
    | some e' =>
      have he' := view_idx I hv
      have : e'.idx ≠ e.idx := by
        intro hh
        apply hk
        rw [← he'.2.1, ← he.2.1, hh]
      simp [this]

theorem dropIdx_eq_setKey (I : Inv E s) {k : K} {e : Info} (h : view E s k = some e) :
    dropIdx (view E s) e.idx = setKey (view E s) k (if e.ref = 0#32 then none else some e) := by
  have he := view_idx I h
  funext k'
  unfold dropIdx setKey
  by_cases hk : k' = k
  · rw [if_pos hk, hk, h]; simp
  · rw [if_neg hk]
    cases hv : view E s k' with
    | none => rfl
    | some e' =>
      have he' := view_idx I hv
      have : e'.idx ≠ e.idx := by
        intro hh
        apply hk
        rw [← he'.2.1, ← he.2.1, hh]
      simp [this]

end Verif.Arp

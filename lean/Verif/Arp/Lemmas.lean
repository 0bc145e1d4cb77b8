import Verif.Arp.Model
/-! Structural invariant of the ARP tables and its preservation. -/
namespace Verif.Arp

theorem put_same {α : Type} (f : Nat → α) (i : Nat) (v : α) : put f i v i = v := by simp [put]

theorem put_ne {α : Type} (f : Nat → α) {i j : Nat} (v : α) (h : j ≠ i) : put f i v j = f j := by
  simp [put, h]

/-- Entry `i` is in the table of its own set. -/
def Live (E : Env) (s : St) (i : Nat) : Prop := i ∈ s.tab (E.hash (s.ent i).key)

structure Inv (E : Env) (s : St) : Prop where
  pool : ∀ i, 1 ≤ i → i ≤ E.n → i ∈ s.free ∨ Live E s i
  freeR : ∀ i ∈ s.free, 1 ≤ i ∧ i ≤ E.n ∧ (s.ent i).used = false
  tabR : ∀ h, ∀ i ∈ s.tab h, 1 ≤ i ∧ i ≤ E.n ∧ (s.ent i).used = true ∧ E.hash (s.ent i).key = h
  freeN : s.free.Nodup
  tabN : ∀ h, (s.tab h).Nodup
  uniq : ∀ h, ∀ i ∈ s.tab h, ∀ j ∈ s.tab h, (s.ent i).key = (s.ent j).key → i = j
  cache : ∀ h, s.cache h = 0 ∨ s.cache h ∈ s.tab h
  zero : (s.ent 0).key = (0x01010101#32, 0x01010101#32)

variable {E : Env} {s : St}

theorem Inv.live_of_mem (I : Inv E s) {h i : Nat} (m : i ∈ s.tab h) : Live E s i := by
  have := (I.tabR h i m).2.2.2
  unfold Live; rw [this]; exact m

theorem Inv.live_range (I : Inv E s) {i : Nat} (m : Live E s i) :
    1 ≤ i ∧ i ≤ E.n ∧ (s.ent i).used = true :=
  ⟨(I.tabR _ i m).1, (I.tabR _ i m).2.1, (I.tabR _ i m).2.2.1⟩

theorem Inv.not_free_of_live (I : Inv E s) {i : Nat} (m : Live E s i) : i ∉ s.free := by
  intro hf
  have h1 := (I.freeR i hf).2.2
  have h2 := (I.live_range m).2.2
  rw [h1] at h2; cases h2

/-- A pool entry is live exactly when its is_used flag is set. -/
theorem Inv.live_iff_used (I : Inv E s) {i : Nat} (h1 : 1 ≤ i) (h2 : i ≤ E.n) :
    Live E s i ↔ (s.ent i).used = true := by
  constructor
  · intro h; exact (I.live_range h).2.2
  · intro h
    rcases I.pool i h1 h2 with hf | hl
    · have := (I.freeR i hf).2.2
      rw [this] at h; cases h
    · exact hl

theorem Inv.uniq_live (I : Inv E s) {i j : Nat} (hi : Live E s i) (hj : Live E s j)
    (hk : (s.ent i).key = (s.ent j).key) : i = j := by
  unfold Live at hi hj
  rw [← hk] at hj
  exact I.uniq _ i hi j hj hk

theorem find_some_iff (I : Inv E s) (k : K) (i : Nat) :
    find E s k = some i ↔ Live E s i ∧ (s.ent i).key = k := by
  unfold find
  constructor
  · intro h
    have hm := List.mem_of_find?_eq_some h
    have hk := List.find?_some h
    simp only [beq_iff_eq] at hk
    exact ⟨I.live_of_mem hm, hk⟩
  · rintro ⟨hl, hk⟩
    unfold Live at hl
    rw [hk] at hl
    cases hf : (s.tab (E.hash k)).find? (fun i => (s.ent i).key == k) with
    | none =>
      have := List.find?_eq_none.mp hf i hl
      simp [hk] at this
    | some j =>
      have hm := List.mem_of_find?_eq_some hf
      have hj := List.find?_some hf
      simp only [beq_iff_eq] at hj
      rw [I.uniq _ i hl j hm (by rw [hk, hj])]

theorem find_none_iff (I : Inv E s) (k : K) :
    find E s k = none ↔ ∀ i, Live E s i → (s.ent i).key ≠ k := by
  constructor
  · intro h i hl hk
    rw [(find_some_iff I k i).mpr ⟨hl, hk⟩] at h
    cases h
  · intro h
    cases hf : find E s k with
    | none => rfl
    | some i =>
      have := (find_some_iff I k i).mp hf
      exact absurd this.2 (h i this.1)

/-- A change that keeps keys, is_used, the free list and the tables keeps the invariant, if every
cache still points nowhere or into its own set. -/
theorem inv_mod (I : Inv E s) (s' : St) (hf : s'.free = s.free) (ht : s'.tab = s.tab)
    (he : ∀ j, (s'.ent j).key = (s.ent j).key ∧ (s'.ent j).used = (s.ent j).used)
    (hc : ∀ h, s'.cache h = 0 ∨ s'.cache h ∈ s.tab h) : Inv E s' := by
  constructor
  · intro i h1 h2
    have := I.pool i h1 h2
    unfold Live at *
    rw [hf, ht, (he i).1]; exact this
  · intro i hi
    rw [hf] at hi
    have := I.freeR i hi
    rw [(he i).2]; exact this
  · intro h i hi
    rw [ht] at hi
    have := I.tabR h i hi
    rw [(he i).1, (he i).2]; exact this
  · rw [hf]; exact I.freeN
  · rw [ht]; exact I.tabN
  · intro h i hi j hj hk
    rw [ht] at hi hj
    rw [(he i).1, (he j).1] at hk
    exact I.uniq h i hi j hj hk
  · intro h; rw [ht]; exact hc h
  · rw [(he 0).1]; exact I.zero

/-- Overwriting one entry, key and is_used kept. -/
theorem inv_put (I : Inv E s) (i : Nat) (e : Entry) (s' : St) (he : s'.ent = put s.ent i e)
    (hf : s'.free = s.free) (ht : s'.tab = s.tab) (hc : s'.cache = s.cache)
    (hk : e.key = (s.ent i).key) (hu : e.used = (s.ent i).used) : Inv E s' := by
  refine inv_mod I s' hf ht ?_ ?_
  · intro j
    rw [he]
    by_cases hj : j = i
    · subst hj; rw [put_same]; exact ⟨hk, hu⟩
    · rw [put_ne _ _ hj]; exact ⟨rfl, rfl⟩
  · intro h; rw [hc]; exact I.cache h

theorem inv_init (E : Env) : Inv E (init E) := by
  constructor
  · intro i h1 h2
    left
    simp [init, List.mem_range']
    exact ⟨i - 1, by omega, by omega⟩
  · intro i hi
    simp [init, List.mem_range'] at hi
    obtain ⟨k, hk, rfl⟩ := hi
    refine ⟨by omega, by omega, ?_⟩
    simp [init, initEnt]
  · intro h i hi; simp [init] at hi
  · exact List.nodup_range'
  · intro h; simp [init]
  · intro h i hi; simp [init] at hi
  · intro h; left; rfl
  · rfl

/-- Everything about `insertNew`. -/
theorem insertNew_spec (I : Inv E s) (k : K) :
    (∃ i, find E s k = some i ∧ insertNew E s k = some (s, i)) ∨
    (find E s k = none ∧ s.free = [] ∧ insertNew E s k = none) ∨
    (∃ i rest s', find E s k = none ∧ s.free = i :: rest ∧ insertNew E s k = some (s', i) ∧
      s'.ent = put s.ent i (freshEnt (s.ent i) k) ∧ s'.free = rest ∧
      s'.tab = put s.tab (E.hash k) (i :: s.tab (E.hash k)) ∧ s'.cache = s.cache ∧
      s'.pktFree = s.pktFree ∧ s'.nextT = s.nextT ∧
      s'.timers = s.timers.filter (fun p => some p.1 != (s.ent i).pktTmo)) := by
  unfold insertNew
  cases hfi : find E s k with
  | some i => left; exact ⟨i, rfl, rfl⟩
  | none =>
    cases hfr : s.free with
    | nil => right; left; exact ⟨rfl, rfl, rfl⟩
    | cons i rest =>
      right; right
      exact ⟨i, rest, _, rfl, rfl, rfl, rfl, rfl, rfl, rfl, rfl, rfl, rfl⟩

theorem inv_alloc (I : Inv E s) {k : K} {i : Nat} {rest : List Nat} {s' : St}
    (hn : find E s k = none) (hfr : s.free = i :: rest)
    (he : s'.ent = put s.ent i (freshEnt (s.ent i) k)) (hf : s'.free = rest)
    (ht : s'.tab = put s.tab (E.hash k) (i :: s.tab (E.hash k))) (hc : s'.cache = s.cache) :
    Inv E s' := by
  have hif : i ∈ s.free := by rw [hfr]; exact List.mem_cons_self
  have hiR := I.freeR i hif
  have hnot : ∀ h, i ∉ s.tab h := by
    intro h hm
    exact I.not_free_of_live (I.live_of_mem hm) hif
  have hi0 : (0 : Nat) ≠ i := by omega
  have hnd := I.freeN
  rw [hfr] at hnd
  have hkey : ∀ h, ∀ j ∈ s.tab h, (s'.ent j) = s.ent j := by
    intro h j hj
    rw [he, put_ne]
    intro hji; subst hji; exact hnot h hj
  have hki : (s'.ent i).key = k := by rw [he, put_same]; rfl
  constructor
  · intro j h1 h2
    by_cases hj : j = i
    · right
      subst hj
      unfold Live
      rw [hki, ht, put_same]; exact List.mem_cons_self
    · rcases I.pool j h1 h2 with hm | hm
      · left
        rw [hfr] at hm
        rw [hf]
        cases hm with
        | head => exact absurd rfl hj
        | tail _ h => exact h
      · right
        unfold Live at *
        rw [hkey _ j hm, ht]
        by_cases hh : E.hash (s.ent j).key = E.hash k
        · rw [hh, put_same]; rw [hh] at hm; exact List.mem_cons_of_mem _ hm
        · rw [put_ne _ _ hh]; exact hm
  · intro j hj
    rw [hf] at hj
    have hj2 : j ∈ s.free := by rw [hfr]; exact List.mem_cons_of_mem _ hj
    have hji : j ≠ i := by
      intro h; subst h; exact (List.nodup_cons.mp hnd).1 hj
    rw [he, put_ne _ _ hji]
    exact I.freeR j hj2
  · intro h j hj
    rw [ht] at hj
    have main : j = i ∧ h = E.hash k ∨ j ∈ s.tab h := by
      by_cases hh : h = E.hash k
      · subst hh
        rw [put_same] at hj
        cases hj with
        | head => left; exact ⟨rfl, rfl⟩
        | tail _ h => right; exact h
      · rw [put_ne _ _ hh] at hj; right; exact hj
    rcases main with ⟨rfl, hh⟩ | hm
    · refine ⟨hiR.1, hiR.2.1, ?_, ?_⟩
      · rw [he, put_same]; rfl
      · rw [hki, hh]
    · rw [hkey h j hm]; exact I.tabR h j hm
  · rw [hf]; exact (List.nodup_cons.mp hnd).2
  · intro h
    rw [ht]
    by_cases hh : h = E.hash k
    · rw [hh, put_same]
      exact List.nodup_cons.mpr ⟨hnot _, I.tabN _⟩
    · rw [put_ne _ _ hh]; exact I.tabN h
  · intro h a ha b hb hab
    rw [ht] at ha hb
    by_cases hh : h = E.hash k
    · rw [hh, put_same] at ha hb
      have hno : ∀ j ∈ s.tab (E.hash k), (s.ent j).key ≠ k := by
        intro j hj
        exact (find_none_iff I k).mp hn j (I.live_of_mem hj)
      cases ha with
      | head =>
        cases hb with
        | head => rfl
        | tail _ hb =>
          rw [hki, hkey _ b hb] at hab
          exact absurd hab.symm (hno b hb)
      | tail _ ha =>
        cases hb with
        | head =>
          rw [hki, hkey _ a ha] at hab
          exact absurd hab (hno a ha)
        | tail _ hb =>
          rw [hkey _ a ha, hkey _ b hb] at hab
          exact I.uniq _ a ha b hb hab
    · rw [put_ne _ _ hh] at ha hb
      rw [hkey _ a ha, hkey _ b hb] at hab
      exact I.uniq _ a ha b hb hab
  · intro h
    rw [hc, ht]
    rcases I.cache h with h0 | hm
    · left; exact h0
    · right
      by_cases hh : h = E.hash k
      · rw [hh, put_same]; rw [hh] at hm; exact List.mem_cons_of_mem _ hm
      · rw [put_ne _ _ hh]; exact hm
  · rw [he, put_ne _ _ hi0]; exact I.zero

/-- The entry left behind by a removal. -/
def deadEnt (e : Entry) : Entry :=
  { e with
    pkts := []
    updTmo := false
    used := false
    complete := false
    manual := false
    pktTmo := none }

theorem put_put {α : Type} (f : Nat → α) (i : Nat) (v w : α) : put (put f i v) i w = put f i w := by
  funext j
  by_cases h : j = i
  · subst h; simp [put_same]
  · simp [put, h]

theorem remove_ent (set i : Nat) (h : removable s i = true) :
    (remove E s set i).ent = put s.ent i (deadEnt (s.ent i)) := by
  simp only [remove, h, if_true, removeEntry, put_same, put_put]
  rfl

theorem remove_free (set i : Nat) (h : removable s i = true) :
    (remove E s set i).free = s.free ++ [i] := by
  simp only [remove, h, if_true, removeEntry]

theorem remove_tab (set i : Nat) (h : removable s i = true) :
    (remove E s set i).tab = put s.tab set ((s.tab set).erase i) := by
  simp only [remove, h, if_true, removeEntry]

theorem remove_pktFree (set i : Nat) (h : removable s i = true) :
    (remove E s set i).pktFree = s.pktFree + (s.ent i).pkts.length := by
  simp only [remove, h, if_true, removeEntry]

theorem remove_timers (set i : Nat) : (remove E s set i).timers = s.timers := by
  unfold remove; split <;> rfl

theorem remove_nextT (set i : Nat) : (remove E s set i).nextT = s.nextT := by
  unfold remove; split <;> rfl

theorem remove_cache (set i : Nat) (h : removable s i = true) :
    (remove E s set i).cache =
      if (s.ent (s.cache set)).key == (s.ent i).key then put s.cache set 0 else s.cache := by
  simp only [remove, h, if_true, removeEntry, put_same]
  by_cases hc : s.cache set = i
  · simp only [hc, put_same]
  · rw [put_ne _ _ hc]

theorem remove_noop (set i : Nat) (h : removable s i = false) : remove E s set i = s := by
  simp [remove, h]

/-- Removing a pool entry through its own set keeps the invariant. -/
theorem inv_remove (I : Inv E s) {i : Nat} (h1 : 1 ≤ i) (h2 : i ≤ E.n) :
    Inv E (remove E s (E.hash (s.ent i).key) i) := by
  cases hr : removable s i with
  | false => rw [remove_noop _ _ hr]; exact I
  | true =>
    have hu : (s.ent i).used = true := by
      simp only [removable, Bool.and_eq_true] at hr; exact hr.2
    have hl : Live E s i := (I.live_iff_used h1 h2).mpr hu
    have hnf : i ∉ s.free := I.not_free_of_live hl
    have he := remove_ent (E := E) (E.hash (s.ent i).key) i hr
    have hf := remove_free (E := E) (E.hash (s.ent i).key) i hr
    have ht := remove_tab (E := E) (E.hash (s.ent i).key) i hr
    have hc := remove_cache (E := E) (E.hash (s.ent i).key) i hr
    generalize remove E s (E.hash (s.ent i).key) i = s' at he hf ht hc
    have hkey : ∀ j, (s'.ent j).key = (s.ent j).key := by
      intro j; rw [he]
      by_cases hj : j = i
      · subst hj; rw [put_same]; rfl
      · rw [put_ne _ _ hj]
    have hmem : ∀ h j, j ∈ s'.tab h ↔ j ∈ s.tab h ∧ j ≠ i := by
      intro h j
      rw [ht]
      by_cases hh : h = E.hash (s.ent i).key
      · subst hh
        rw [put_same, (I.tabN _).mem_erase_iff]
        exact And.comm
      · rw [put_ne _ _ hh]
        constructor
        · intro hj
          refine ⟨hj, ?_⟩
          intro hji; subst hji
          exact hh (I.tabR h j hj).2.2.2.symm
        · intro hj; exact hj.1
    constructor
    · intro j hj1 hj2
      by_cases hj : j = i
      · left; rw [hf, hj]; simp
      · rcases I.pool j hj1 hj2 with hm | hm
        · left; rw [hf]; simp [hm]
        · right
          unfold Live at *
          rw [hkey, hmem]; exact ⟨hm, hj⟩
    · intro j hj
      rw [hf] at hj
      by_cases hji : j = i
      · subst hji
        exact ⟨h1, h2, by rw [he, put_same]; rfl⟩
      · have : j ∈ s.free := by
          simp only [List.mem_append, List.mem_singleton] at hj
          rcases hj with h | h
          · exact h
          · exact absurd h hji
        rw [he, put_ne _ _ hji]
        exact I.freeR j this
    · intro h j hj
      have hj' := (hmem h j).mp hj
      rw [he, put_ne _ _ hj'.2]
      exact I.tabR h j hj'.1
    · rw [hf]
      rw [List.nodup_append]
      refine ⟨I.freeN, by simp, ?_⟩
      intro a ha b hb
      simp only [List.mem_singleton] at hb
      rw [hb]; intro hab; rw [hab] at ha; exact hnf ha
    · intro h
      rw [ht]
      by_cases hh : h = E.hash (s.ent i).key
      · rw [hh, put_same]; exact (I.tabN _).erase i
      · rw [put_ne _ _ hh]; exact I.tabN h
    · intro h a ha b hb hab
      rw [hkey, hkey] at hab
      exact I.uniq h a ((hmem h a).mp ha).1 b ((hmem h b).mp hb).1 hab
    · intro h
      rw [hmem]
      by_cases hh : h = E.hash (s.ent i).key
      · rw [hc]
        by_cases hhit : (s.ent (s.cache h)).key = (s.ent i).key
        · left
          rw [hh] at hhit
          simp only [hhit, beq_self_eq_true, if_true]
          rw [hh, put_same]
        · have : ¬ ((s.ent (s.cache (E.hash (s.ent i).key))).key == (s.ent i).key) = true := by
            rw [← hh]; simpa using hhit
          rw [if_neg this]
          rcases I.cache h with h0 | hm
          · left; exact h0
          · right
            refine ⟨hm, ?_⟩
            intro hci; rw [hci] at hhit; exact hhit rfl
      · have hsame : s'.cache h = s.cache h := by
          rw [hc]
          split
          · rw [put_ne _ _ hh]
          · rfl
        rw [hsame]
        rcases I.cache h with h0 | hm
        · left; exact h0
        · right
          refine ⟨hm, ?_⟩
          intro hci
          rw [hci] at hm
          exact hh (I.tabR h i hm).2.2.2.symm
    · rw [hkey]; exact I.zero

end Verif.Arp

import Verif.Sad.Steps
/-!
# IPsec SA database: theorems (C110-C113)
-/
namespace Verif.Sad
open Verif.Ipsec (put walk Chain put_same put_other)

/-- Every history of calls by all threads, from start-up with room for `n` SAs and `m` policies:
the state of the library and what a user knows from the calls and their results. -/
inductive Reach (n m : Nat) : St → Abs → Prop
  | start (junk : St) (par : Nat → Param) : junk.num = n → junk.nsp = m →
      Reach n m (init junk) (abs0 par)
  | call {s s' : St} {A : Abs} {op : Op} {r : Ret} :
      Reach n m s A → Allowed m A op → step s op = some (s', r) →
      Reach n m s' (absStep s.sync A op r)

theorem init_frame (junk : St) : (init junk).num = junk.num ∧ (init junk).nsp = junk.nsp ∧
    (init junk).log = [] := by
  unfold init
  obtain ⟨f1, f2, f3, f4, f5, f6, f7⟩ := freeAll_frame ({ junk with
    list := none
    free := none
    slot := fun _ => none
    job := fun _ => none
    log := [] } : St) junk.num
  exact ⟨f2, f4, f7⟩

theorem reach_inv {n m : Nat} {s : St} {A : Abs} (h : Reach n m s A) :
    Inv s A ∧ s.num = n ∧ s.nsp = m := by
  induction h with
  | start junk par h1 h2 =>
    exact ⟨inv_init junk par, (init_frame junk).1.trans h1, (init_frame junk).2.1.trans h2⟩
  | @call s s' A op r _ ha hs ih =>
    obtain ⟨I, e1, e2⟩ := ih
    rw [← e2] at ha
    obtain ⟨s1, r1, h1, h2, h3, h4⟩ := good_step I ha
    rw [h1] at hs
    simp only [Option.some.injEq, Prod.mk.injEq] at hs
    obtain ⟨rfl, rfl⟩ := hs
    exact ⟨h3, h4.1.trans e1, h4.2.1.trans e2⟩

/-- A cell is in the free pool: it is on the list that starts at the free pointer. -/
def InPool (s : St) (h : Nat) : Prop := ∃ fl, Chain s.next s.free fl ∧ h ∈ fl

theorem chain_unique {nxt : Nat → Option Nat} : ∀ {l l' : List Nat} {h : Option Nat},
    Chain nxt h l → Chain nxt h l' → l = l'
  | [], [], _, _, _ => rfl
  | [], b :: l', h, h1, h2 => by
    have h1' : h = none := h1
    rw [h1'] at h2; exact absurd h2.1 (by simp)
  | a :: l, [], h, h1, h2 => by
    have h2' : h = none := h2
    rw [h2'] at h1; exact absurd h1.1 (by simp)
  | a :: l, b :: l', h, h1, h2 => by
    have e := h1.1.symm.trans h2.1
    simp only [Option.some.injEq] at e
    subst e
    rw [chain_unique h1.2 h2.2]

/-! ## C110: life of SA objects -/

/-- C110 (results).  Every allowed call terminates and returns what the abstract database says:
creation succeeds exactly when the parameters are supported, collide with no SA, ODP agrees and
some object is neither in the database nor referenced, and then yields such an object; searches and
iteration yield the right SA; a destruction is accepted exactly when none was accepted before. -/
theorem sa_calls_exact_partial {n m : Nat} {s : St} {A : Abs} (h : Reach n m s A) {op : Op}
    (ha : Allowed m A op) : ∃ s' r, step s op = some (s', r) ∧ RetOk n m A op r ∧
      Reach n m s' (absStep s.sync A op r) := by
  obtain ⟨I, e1, e2⟩ := reach_inv h
  have ha' := ha
  rw [← e2] at ha'
  obtain ⟨s1, r1, h1, h2, h3, h4⟩ := good_step I ha'
  rw [e1, e2] at h2
  exact ⟨s1, r1, h1, h2, .call h ha h1⟩

/-- C110 (life).  At any time an SA object is in the free pool exactly when it is not in the
database, no handle and no policy refers to it, and ODP did not refuse to destroy it. -/
theorem sa_lifetime_partial {n m : Nat} {s : St} {A : Abs} (h : Reach n m s A) (a : Nat) :
    InPool s a ↔ a < n ∧ (∀ q ∈ A.db, q.h ≠ a) ∧ a ∉ A.stuck ∧ A.held a = 0 ∧
      ∀ k < m, A.bnd k ≠ some a := by
  obtain ⟨I, e1, e2⟩ := reach_inv h
  obtain ⟨fl, h1, h2, h3⟩ := I.core.fr
  have hx : (∀ q ∈ A.db, q.h ≠ a) ↔ a ∉ hs A.db := by
    constructor
    · intro hh hc
      obtain ⟨q, hq, e⟩ := List.mem_map.mp hc
      exact hh q hq e
    · intro hh q hq e; exact hh (e ▸ List.mem_map_of_mem hq)
  have hu : A.users m a = 0 ↔ A.held a = 0 ∧ ∀ k < m, A.bnd k ≠ some a := by
    unfold Abs.users Abs.bound
    rw [Nat.add_eq_zero_iff, List.countP_eq_zero]
    simp
  rw [hx, ← hu, ← e1, ← e2, ← h3]
  constructor
  · rintro ⟨l, hl, ha⟩
    rw [chain_unique h1 hl]; exact ha
  · intro ha; exact ⟨fl, h1, ha⟩

/-- C110 (handles stay valid).  A handle, also of a destroyed SA, keeps telling the parameters the
SA was created with and its status, as long as a handle or a policy refers to the SA. -/
theorem sa_info_partial {n m : Nat} {s : St} {A : Abs} (h : Reach n m s A) {a : Nat}
    (ha : 0 < A.users m a) : info s a = (statusOf A a, A.par a) := by
  obtain ⟨I, e1, e2⟩ := reach_inv h
  rw [← e2] at ha
  obtain ⟨h1, h2⟩ := I.core.inf a ha
  unfold info statusOf
  rw [h1]
  by_cases hm : a ∈ hs A.db
  · obtain ⟨q, hq, rfl⟩ := List.mem_map.mp hm
    obtain ⟨k1, k2, k3, k4, k5, k6, k7⟩ := I.core.cl q hq
    rw [sa?_of_mem I hq]
    simp only [k4, Bool.false_eq_true, if_false]
    by_cases c : q.phase = .active
    · have : ¬ s.dis q.h = true := fun hc => k5.mp hc c
      simp [c, this]
    · have : s.dis q.h = true := k5.mpr c
      simp [c, this]
  · have hn : A.sa? a = none := by
      unfold Abs.sa?
      rw [List.find?_eq_none]
      intro q hq hc
      exact hm ((by simpa using hc : q.h = a) ▸ List.mem_map_of_mem hq)
    rw [hn]
    by_cases c : a ∈ A.stuck
    · obtain ⟨_, k2, k3⟩ := I.core.sk a c
      simp [c, k2, k3]
    · simp [c, (h2 hm).2 c]

/-- C110 (what the data path sees).  An SA is usable by packets exactly while it is active; the
selectors read are those bound. -/
theorem sa_usable_partial {n m : Nat} {s : St} {A : Abs} (h : Reach n m s A) {q : Sa}
    (hq : q ∈ A.db) : (disabled s (some q.h) = false ↔ q.phase = .active) ∧ getSel s q.h = q.sel ∧
      s.odp q.h = q.odp ∧ ∀ k, s.slot k = A.bnd k := by
  obtain ⟨I, e1, e2⟩ := reach_inv h
  obtain ⟨k1, k2, k3, k4, k5, k6, k7⟩ := I.core.cl q hq
  refine ⟨?_, k3, k2, I.slot⟩
  show s.dis q.h = false ↔ _
  by_cases c : q.phase = .active
  · have : ¬ s.dis q.h = true := fun hc => k5.mp hc c
    simpa [c] using this
  · simp [c, k5.mpr c]

/-! ## C111: identifiers -/

/-- C111 (uniqueness).  No two SAs of the database have the same object or the same identifier, and
no two inbound SAs have the same SPI. -/
theorem sa_distinct_partial {n m : Nat} {s : St} {A : Abs} (h : Reach n m s A) :
    (∀ q ∈ A.db, ∀ r ∈ A.db, q.h = r.h ∨ q.p.id = r.p.id ∨
      (q.p.dir = .inb ∧ r.p.dir = .inb ∧ q.p.spi = r.p.spi) → q = r) ∧ ∀ q ∈ A.db, q.h < n := by
  obtain ⟨I, e1, e2⟩ := reach_inv h
  constructor
  · intro q hq r hr he
    rcases he with he | he | ⟨he1, he2, he3⟩
    · exact uniq I.core hq hr he
    · exact List.inj_on_of_nodup_map I.core.ids hq hr he
    · exact I.core.spi q hq r hr he1 he2 he3
  · intro q hq; rw [← e1]; exact (I.core.rf q.h (Or.inl (List.mem_map_of_mem hq))).1

/-- C111 (failed creation).  A creation that fails leaves the database, every reference, every
handle's information and the pool as they were, and makes no ODP SA. -/
theorem failed_create_partial {n m : Nat} {s s' : St} {A : Abs} (h : Reach n m s A) {p : Param}
    {o : Option Nat} (hs : step s (.create p o) = some (s', .handle none)) :
    Reach n m s' A ∧ s'.log = s.log ∧
      ∀ id, (findById s' id) = findById s id := by
  have R : Reach n m s' A := by
    have := Reach.call h (op := .create p o) trivial hs
    have e : absStep s.sync A (.create p o) (.handle none) = A := by cases o <;> rfl
    rwa [e] at this
  obtain ⟨I, e1, e2⟩ := reach_inv h
  obtain ⟨I', _⟩ := reach_inv R
  refine ⟨R, ?_, fun id => by rw [findById_eq I, findById_eq I']⟩
  simp only [step, Option.map_eq_some_iff] at hs
  obtain ⟨⟨s1, x⟩, h1, h2⟩ := hs
  simp only [Prod.mk.injEq, Ret.handle.injEq] at h2
  obtain ⟨rfl, rfl⟩ := h2
  unfold create at h1
  cases hf : s.free with
  | none => simp [saAlloc, hf] at h1; rw [h1]
  | some a =>
    simp only [saAlloc, hf, Option.map_eq_some_iff] at h1
    obtain ⟨b, _, h3⟩ := h1
    unfold createAt at h3
    cases b with
    | false =>
      simp only [Bool.false_eq_true, if_false, Prod.mk.injEq, and_true] at h3
      rw [← h3, (saUnref_frame _ _).2.2.2.2.2]
    | true =>
      cases o with
      | none =>
        simp only [if_true, saFill, Bool.false_eq_true, if_false, Prod.mk.injEq, and_true] at h3
        rw [← h3, (saUnref_frame _ _).2.2.2.2.2]
      | some o => simp [saFill] at h3

/-! ## C112: destruction -/

/-- Order of the statuses. -/
def rank : Status → Nat
  | .active => 0
  | .disabled => 1
  | .destroyed => 2

theorem sa?_none {A : Abs} {a : Nat} (h : ∀ q ∈ A.db, q.h ≠ a) : A.sa? a = none := by
  unfold Abs.sa?
  rw [List.find?_eq_none]
  intro q hq
  simpa using h q hq

theorem find_congr {α : Type} {p p' : α → Bool} : ∀ {l : List α}, (∀ q ∈ l, p q = p' q) →
    l.find? p = l.find? p'
  | [], _ => rfl
  | a :: l, h => by
    rw [List.find?_cons, List.find?_cons, h a (by simp), find_congr (fun q hq => h q (by simp [hq]))]

theorem sa?_change {A : Abs} {f : Sa → Sa} {a b : Nat} (hf : ∀ q, (f q).h = q.h) :
    ({ A with db := change f b A.db } : Abs).sa? a =
      (A.sa? a).map fun q => if q.h = b then f q else q := by
  unfold Abs.sa? change
  show (A.db.map _).find? _ = _
  rw [List.find?_map]
  congr 1
  apply find_congr
  intro q _
  simp only [Function.comp]
  split
  · rw [hf]
  · rfl

/-- An SA whose destruction began stays so while it is referred to. -/
theorem rank_step {n m : Nat} {s s' : St} {A : Abs} (h : Reach n m s A) {op : Op} {r : Ret}
    (ha : Allowed m A op) (hs : step s op = some (s', r)) {a : Nat} (hu : 0 < A.users m a) :
    rank (statusOf A a) ≤ rank (statusOf (absStep s.sync A op r) a) := by
  obtain ⟨s1, r1, h1, h2, h3⟩ := sa_calls_exact_partial h ha
  rw [h1] at hs
  simp only [Option.some.injEq, Prod.mk.injEq] at hs
  obtain ⟨rfl, rfl⟩ := hs
  obtain ⟨I, e1, e2⟩ := reach_inv h
  have same : ∀ B : Abs, B.db = A.db → B.stuck = A.stuck →
      rank (statusOf A a) ≤ rank (statusOf B a) := by
    intro B h1 h2; unfold statusOf Abs.sa?; rw [h1, h2]; exact Nat.le_refl _
  -- a change that keeps every SA out of `active` or leaves the phases alone
  have chg : ∀ (f : Sa → Sa) (b : Nat), (∀ q, (f q).h = q.h) →
      (∀ q ∈ A.db, q.phase ≠ .active → (f q).phase ≠ .active) →
      rank (statusOf A a) ≤ rank (statusOf { A with db := change f b A.db } a) := by
    intro f b h1 h2
    unfold statusOf
    rw [sa?_change h1]
    cases hq : A.sa? a with
    | none => exact Nat.le_refl _
    | some q =>
      have hm : q ∈ A.db := List.mem_of_find?_eq_some hq
      simp only [Option.map_some]
      by_cases c : q.phase = .active
      · simp [c, rank]
      · by_cases e : q.h = b
        · simp only [e, if_true, c, if_false, h2 q hm c]; exact Nat.le_refl _
        · simp only [e, if_false, c]; exact Nat.le_refl _
  cases op with
  | create p o =>
    cases o with
    | none => cases r1 <;> exact same _ rfl rfl
    | some o =>
      cases r1 with
      | code c => exact same _ rfl rfl
      | handle x =>
        cases x with
        | none => exact same _ rfl rfl
        | some h =>
          have hne : h ≠ a := fun e => by
            have := h2.2.2.2.2.2.2
            rw [e] at this; omega
          have : statusOf (absStep s.sync A (.create p (some o)) (.handle (some h))) a = statusOf A a := by
            unfold statusOf Abs.sa?
            simp only [absStep, List.find?_cons, hne, decide_false]
            rfl
          rw [this]; exact Nat.le_refl _
  | destroy b =>
    cases r1 with
    | handle x => exact same _ rfl rfl
    | code c =>
      simp only [absStep]
      split
      · exact chg (fun q => { q with phase := .dying .odp }) b (fun _ => rfl) (fun _ _ _ => by simp)
      · exact same _ rfl rfl
  | adv b ok =>
    obtain ⟨q, hq, rfl, stg, hph⟩ := ha
    have hsa := sa?_of_mem I hq
    cases stg with
    | odp =>
      cases ok with
      | true =>
        simp only [absStep, hsa, hph]
        exact chg (fun q => { q with phase := .dying (after s.sync q.p.dir) }) q.h (fun _ => rfl)
          (fun _ _ _ => by simp)
      | false =>
        simp only [absStep, hsa, hph]
        exact chg (fun q => { q with phase := .broken }) q.h (fun _ => rfl) (fun _ _ _ => by simp)
    | evt =>
      cases ok with
      | true =>
        simp only [absStep, hsa, hph]
        exact chg (fun q => { q with phase := .dying .fin }) q.h (fun _ => rfl)
          (fun _ _ _ => by simp)
      | false =>
        simp only [absStep, hsa, hph]
        exact chg (fun q => { q with phase := .broken }) q.h (fun _ => rfl) (fun _ _ _ => by simp)
    | fin =>
      simp only [absStep, hsa, hph]
      by_cases e : q.h = a
      · subst e
        have hl : statusOf A q.h = .disabled := by
          unfold statusOf; rw [hsa]; simp [hph]
        rw [hl]
        unfold statusOf
        rw [sa?_none]
        · show 1 ≤ rank (if q.h ∈ (if ok then A.stuck else q.h :: A.stuck) then Status.disabled
            else Status.destroyed)
          by_cases c : q.h ∈ (if ok then A.stuck else q.h :: A.stuck)
          · rw [if_pos c]; exact Nat.le_refl _
          · rw [if_neg c]; exact Nat.le_succ _
        · intro r hr; simpa using (List.mem_filter.mp hr).2
      · have h1 : ∀ B : Abs, B.db = A.db.filter (fun r => r.h ≠ q.h) → B.sa? a = A.sa? a := by
          intro B hB
          unfold Abs.sa?
          rw [hB, List.find?_filter]
          apply find_congr
          intro r _
          by_cases c : r.h = a
          · have : a ≠ q.h := fun x => e x.symm
            simp [c, this]
          · simp [c]
        unfold statusOf
        rw [h1 { A with
          db := A.db.filter (fun r => r.h ≠ q.h)
          stuck := if ok then A.stuck else q.h :: A.stuck
          lastDel := some (q.h, follower q.h A.hs) } rfl]
        have hmem : a ∈ (if ok then A.stuck else q.h :: A.stuck) ↔ a ∈ A.stuck := by
          have : a ≠ q.h := fun x => e x.symm
          cases ok
          · simp [this]
          · simp
        cases A.sa? a with
        | some r => exact Nat.le_refl _
        | none =>
          show rank (if a ∈ A.stuck then _ else _) ≤ rank (if a ∈ (if ok then A.stuck else q.h :: A.stuck) then _ else _)
          by_cases c : a ∈ A.stuck
          · rw [if_pos c, if_pos (hmem.mpr c)]; exact Nat.le_refl _
          · rw [if_neg c, if_neg (fun hc => c (hmem.mp hc))]; exact Nat.le_refl _
  | find id => cases r1 <;> exact same _ rfl rfl
  | first => cases r1 <;> exact same _ rfl rfl
  | next b => cases r1 <;> exact same _ rfl rfl
  | ref b => cases r1 <;> exact same _ rfl rfl
  | unref b => cases r1 <;> exact same _ rfl rfl
  | select b x =>
    cases r1 with
    | handle x => exact same _ rfl rfl
    | code c =>
      simp only [absStep]
      split
      · exact chg (fun q => { q with sel := some x }) b (fun _ => rfl) (fun _ _ h => h)
      · exact same _ rfl rfl
  | bind k b => cases r1 <;> exact same _ rfl rfl
  | unbind k => cases r1 <;> exact same _ rfl rfl

/-- A later part of the history, during which somebody keeps referring to the SA `a`. -/
inductive Later (n m a : Nat) : St → Abs → St → Abs → Prop
  | refl {s : St} {A : Abs} : Later n m a s A s A
  | call {s0 s s' : St} {A0 A : Abs} {op : Op} {r : Ret} :
      Later n m a s0 A0 s A → Allowed m A op → 0 < A.users m a → step s op = some (s', r) →
      Later n m a s0 A0 s' (absStep s.sync A op r)

theorem later_reach {n m a : Nat} {s0 s : St} {A0 A : Abs} (L : Later n m a s0 A0 s A)
    (h : Reach n m s0 A0) : Reach n m s A := by
  induction L with
  | refl => exact h
  | call _ ha _ hs ih => exact .call (ih h) ha hs

/-- C112 (status).  While somebody holds a handle, the status reported for it only goes from active
to disabled to destroyed. -/
theorem status_monotone_partial {n m a : Nat} {s0 s : St} {A0 A : Abs} (h : Reach n m s0 A0)
    (L : Later n m a s0 A0 s A) (h0 : 0 < A0.users m a) (hu : 0 < A.users m a) :
    rank (info s0 a).1 ≤ rank (info s a).1 := by
  have hle : rank (statusOf A0 a) ≤ rank (statusOf A a) := by
    clear hu
    induction L with
    | refl => exact Nat.le_refl _
    | call L ha hu hs ih => exact Nat.le_trans (ih h h0) (rank_step (later_reach L h) ha hs hu)
  rw [sa_info_partial h h0, sa_info_partial (later_reach L h) hu]
  exact hle

theorem live_status {n m : Nat} {s : St} {A : Abs} (h : Reach n m s A) (a : Nat) :
    Live A a ↔ statusOf A a = .active := by
  obtain ⟨I, e1, e2⟩ := reach_inv h
  unfold statusOf
  by_cases hm : a ∈ hs A.db
  · obtain ⟨q, hq, rfl⟩ := List.mem_map.mp hm
    rw [sa?_of_mem I hq]
    constructor
    · rintro ⟨r, hr, e, hr'⟩
      rw [uniq I.core hr hq e] at hr'
      simp [hr']
    · intro hh
      by_cases c : q.phase = .active
      · exact ⟨q, hq, rfl, c⟩
      · simp [c] at hh
  · rw [sa?_none (fun q hq e => hm (by rw [← e]; exact List.mem_map_of_mem hq))]
    constructor
    · rintro ⟨r, hr, e, _⟩; exact absurd (e ▸ List.mem_map_of_mem hr) hm
    · intro hh
      exfalso
      revert hh
      show (if a ∈ A.stuck then Status.disabled else Status.destroyed) = .active → False
      split <;> simp

/-- C112 (once).  After a destruction of an SA was accepted, every later one is refused, for as long
as a handle keeps the SA alive, whatever else happens. -/
theorem destroy_once_partial {n m a : Nat} {s s1 s2 s3 : St} {A A2 : Abs} {r : Ret} (h : Reach n m s A)
    (hu : 0 < A.held a) (hd : step s (.destroy a) = some (s1, .code 0))
    (L : Later n m a s1 (absStep s.sync A (.destroy a) (.code 0)) s2 A2) (hu2 : 0 < A2.held a)
    (hd2 : step s2 (.destroy a) = some (s3, r)) : r = .code (-1) := by
  have hR1 : Reach n m s1 (absStep s.sync A (.destroy a) (.code 0)) :=
    .call h (op := .destroy a) hu hd
  have hR2 := later_reach L hR1
  obtain ⟨s1', r1, k1, k2, _⟩ := sa_calls_exact_partial h (op := .destroy a) hu
  rw [hd] at k1
  simp only [Option.some.injEq, Prod.mk.injEq] at k1
  rw [← k1.2] at k2
  have hl : Live A a := by
    rcases k2 with k2 | k2
    · exact k2.2
    · exact absurd k2.1 (by simp)
  obtain ⟨s3', r3, k3, k4, _⟩ := sa_calls_exact_partial hR2 (op := .destroy a) hu2
  rw [hd2] at k3
  simp only [Option.some.injEq, Prod.mk.injEq] at k3
  rw [← k3.2] at k4
  rcases k4 with k4 | k4
  · exfalso
    have hu1 : 0 < (absStep s.sync A (.destroy a) (.code 0)).users m a := by
      show 0 < A.held a + _; omega
    have hu2' : 0 < A2.users m a := by unfold Abs.users; omega
    have := status_monotone_partial hR1 L hu1 hu2'
    rw [sa_info_partial hR1 hu1, sa_info_partial hR2 hu2'] at this
    have e2 := (live_status hR2 a).mp k4.2
    simp only [e2, rank] at this
    have e1 : statusOf (absStep s.sync A (.destroy a) (.code 0)) a ≠ .active := by
      intro hc
      obtain ⟨q, hq, e, hp⟩ := (live_status hR1 a).mpr hc
      obtain ⟨q', hq', e'⟩ := mem_change.mp hq
      by_cases c : q'.h = a
      · rw [if_pos c] at e'; rw [← e'] at hp; simp at hp
      · rw [if_neg c] at e'; rw [← e'] at e; exact c e
    cases hst : statusOf (absStep s.sync A (.destroy a) (.code 0)) a with
    | active => exact e1 hst
    | disabled => rw [hst] at this; simp at this
    | destroyed => rw [hst] at this; simp at this
  · exact k4.1

/-! ### What ODP is told -/

/-- History in which ODP never gives out the same handle twice. -/
inductive ReachF (n m : Nat) : St → Abs → Prop
  | start (junk : St) (par : Nat → Param) : junk.num = n → junk.nsp = m →
      ReachF n m (init junk) (abs0 par)
  | call {s s' : St} {A : Abs} {op : Op} {r : Ret} :
      ReachF n m s A → Allowed m A op → (∀ p o, op = .create p (some o) → .create o ∉ s.log) →
      step s op = some (s', r) → ReachF n m s' (absStep s.sync A op r)

theorem reachF_reach {n m : Nat} {s : St} {A : Abs} (h : ReachF n m s A) : Reach n m s A := by
  induction h with
  | start junk par h1 h2 => exact .start junk par h1 h2
  | call _ ha _ hs ih => exact .call ih ha hs

/-- The calls about one ODP SA. -/
abbrev about (log : List OdpCall) (o : Nat) : List OdpCall :=
  log.filter (fun c => c = .create o ∨ c = .disable o ∨ c = .destroy o)

/-- What ODP was told about an SA in a phase. -/
def told (o : Nat) : Phase → List OdpCall
  | .active => [.create o]
  | .dying .odp => [.create o]
  | _ => [.create o, .disable o]

structure Order (log : List OdpCall) (db : List Sa) : Prop where
  told : ∀ q ∈ db, about log q.odp = told q.odp q.phase
  nd : (db.map Sa.odp).Nodup
  all : ∀ o, InOrder log o

theorem order_same {log : List OdpCall} {db db' : List Sa} (h : Order log db)
    (h1 : db'.map Sa.odp = db.map Sa.odp)
    (h2 : ∀ q ∈ db', ∃ r ∈ db, q.odp = r.odp ∧ Verif.Sad.told q.odp q.phase = Verif.Sad.told r.odp r.phase) :
    Order log db' :=
  ⟨fun q hq => by
    obtain ⟨r, hr, e1, e2⟩ := h2 q hq
    rw [e2, e1]; exact h.told r hr, by rw [h1]; exact h.nd, h.all⟩

theorem about_append (log l : List OdpCall) (o : Nat) : about (log ++ l) o = about log o ++ about l o :=
  List.filter_append ..

theorem about_other {o o' : Nat} (h : o ≠ o') :
    about [.create o] o' = [] ∧ about [.disable o] o' = [] ∧ about [.destroy o] o' = [] := by
  simp [about, h]

theorem about_same (o : Nat) : about [.create o] o = [.create o] ∧
    about [.disable o] o = [.disable o] ∧ about [.destroy o] o = [.destroy o] := by
  simp [about]

theorem about_fresh {log : List OdpCall} {o : Nat} (h : InOrder log o) (hn : .create o ∉ log) :
    about log o = [] := by
  obtain ⟨k, e⟩ := h
  cases k with
  | zero => rw [about, e]; rfl
  | succ k =>
    exfalso
    apply hn
    have : OdpCall.create o ∈ log.filter (fun c => c = .create o ∨ c = .disable o ∨ c = .destroy o) := by
      rw [e]; simp
    exact (List.mem_filter.mp this).1

theorem order_create {log : List OdpCall} {db : List Sa} (h : Order log db) {o : Nat}
    (hn : .create o ∉ log) {a : Nat} {p : Param} :
    Order (log ++ [.create o]) (⟨a, p, o, .active, none⟩ :: db) := by
  have hne : ∀ q ∈ db, o ≠ q.odp := by
    intro q hq e
    apply hn
    have : OdpCall.create o ∈ about log q.odp := by
      rw [h.told q hq, e]
      cases q.phase with
      | active => simp [Verif.Sad.told]
      | dying st => cases st <;> simp [Verif.Sad.told]
      | broken => simp [Verif.Sad.told]
    exact (List.mem_filter.mp this).1
  have h0 := about_fresh (h.all o) hn
  refine ⟨?_, ?_, ?_⟩
  · intro q hq
    rcases List.mem_cons.mp hq with rfl | hq
    · rw [about_append, h0, (about_same o).1]; rfl
    · rw [about_append, (about_other (hne q hq)).1, List.append_nil]; exact h.told q hq
  · rw [List.map_cons, List.nodup_cons]
    refine ⟨fun hc => ?_, h.nd⟩
    obtain ⟨q, hq, e⟩ := List.mem_map.mp hc
    exact hne q hq e.symm
  · intro o'
    unfold InOrder
    show ∃ n, about _ o' = _
    rw [about_append]
    by_cases e : o = o'
    · subst e; rw [h0, (about_same o).1]; exact ⟨1, rfl⟩
    · rw [(about_other e).1, List.append_nil]; exact h.all o'

theorem order_disable {log : List OdpCall} {db db' : List Sa} (h : Order log db) {q : Sa}
    (hq : q ∈ db) (ht : Verif.Sad.told q.odp q.phase = [.create q.odp])
    (h1 : db'.map Sa.odp = db.map Sa.odp)
    (h2 : ∀ x ∈ db', ∃ r ∈ db, x.odp = r.odp ∧ (r.odp ≠ q.odp → x.phase = r.phase) ∧
      (r.odp = q.odp → Verif.Sad.told x.odp x.phase = [.create q.odp, .disable q.odp])) :
    Order (log ++ [.disable q.odp]) db' := by
  have hq' := h.told q hq
  refine ⟨?_, by rw [h1]; exact h.nd, ?_⟩
  · intro x hx
    obtain ⟨r, hr, e1, e2, e3⟩ := h2 x hx
    rw [about_append]
    by_cases e : r.odp = q.odp
    · rw [e3 e, e1, e, hq', ht, (about_same _).2.1]; rfl
    · rw [e1, (about_other (fun x => e x.symm)).2.1, List.append_nil, e2 e]
      exact h.told r hr
  · intro o'
    unfold InOrder
    show ∃ n, about _ o' = _
    rw [about_append]
    by_cases e : q.odp = o'
    · subst e; rw [hq', ht, (about_same _).2.1]; exact ⟨2, rfl⟩
    · rw [(about_other e).2.1, List.append_nil]; exact h.all o'

theorem order_destroy {log : List OdpCall} {db : List Sa} (h : Order log db) {q : Sa}
    (hq : q ∈ db) (hnd : (hs db).Nodup)
    (ht : Verif.Sad.told q.odp q.phase = [.create q.odp, .disable q.odp]) :
    Order (log ++ [.destroy q.odp]) (db.filter (fun r => r.h ≠ q.h)) := by
  have hq' := h.told q hq
  refine ⟨?_, (List.filter_sublist.map _).nodup h.nd, ?_⟩
  · intro x hx
    obtain ⟨hx1, hx2⟩ := List.mem_filter.mp hx
    have hne : q.odp ≠ x.odp := by
      intro e
      have := List.inj_on_of_nodup_map h.nd hq hx1 e
      rw [this] at hx2; simp at hx2
    rw [about_append, (about_other hne).2.2, List.append_nil]
    exact h.told x hx1
  · intro o'
    unfold InOrder
    show ∃ n, about _ o' = _
    rw [about_append]
    by_cases e : q.odp = o'
    · subst e; rw [hq', ht, (about_same _).2.2]; exact ⟨3, rfl⟩
    · rw [(about_other e).2.2, List.append_nil]; exact h.all o'

theorem change_odp {f : Sa → Sa} {h : Nat} {l : List Sa} (hf : ∀ q, (f q).odp = q.odp) :
    (change f h l).map Sa.odp = l.map Sa.odp := change_map hf

theorem reach_order {n m : Nat} {s : St} {A : Abs} (h : ReachF n m s A) : Order s.log A.db := by
  induction h with
  | start junk par _ _ =>
    rw [(init_frame junk).2.2]
    exact ⟨by simp [abs0], by simp [abs0], fun o => ⟨0, rfl⟩⟩
  | @call s s' A op r h ha hfr hst ih =>
    obtain ⟨I, e1, e2⟩ := reach_inv (reachF_reach h)
    cases op with
    | create p o =>
      have hst0 := hst
      simp only [step, Option.map_eq_some_iff] at hst
      obtain ⟨⟨s1, x⟩, k1, k2⟩ := hst
      simp only [Prod.mk.injEq] at k2
      obtain ⟨rfl, rfl⟩ := k2
      cases x with
      | none =>
        have := (failed_create_partial (reachF_reach h) hst0).2.1
        rw [this]
        have e : absStep s.sync A (.create p o) (.handle none) = A := by cases o <;> rfl
        rw [e]; exact ih
      | some a =>
        unfold create at k1
        cases hf : s.free with
        | none => simp [saAlloc, hf] at k1
        | some b =>
          simp only [saAlloc, hf, Option.map_eq_some_iff] at k1
          obtain ⟨ok, _, k3⟩ := k1
          unfold createAt at k3
          cases ok with
          | false => simp at k3
          | true =>
            cases o with
            | none => simp [saFill] at k3
            | some o =>
              simp only [if_true, saFill, Prod.mk.injEq, Option.some.injEq] at k3
              obtain ⟨k4, rfl⟩ := k3
              have hlog : s1.log = s.log ++ [.create o] := by
                rw [← k4, (saRef_frame _ _).2.2.2.2.2]
              rw [hlog]
              exact order_create ih (hfr p o rfl)
    | destroy a =>
      simp only [step, Option.some.injEq, Prod.mk.injEq] at hst
      obtain ⟨rfl, rfl⟩ := hst
      unfold disable
      by_cases c : s.dis a = true
      · rw [if_pos c]; exact ih
      · rw [if_neg c]
        refine order_same ih (change_odp fun _ => rfl) ?_
        intro q hq
        obtain ⟨r, hr, e⟩ := mem_change.mp hq
        refine ⟨r, hr, ?_⟩
        by_cases c2 : r.h = a
        · rw [if_pos c2] at e
          have hact : r.phase = .active := by
            by_contra hc
            have := (I.core.cl r hr).2.2.2.2.1.mpr hc
            rw [c2] at this; exact c this
          rw [← e, hact]; exact ⟨rfl, rfl⟩
        · rw [if_neg c2] at e; rw [e]; exact ⟨rfl, rfl⟩
    | adv a ok =>
      obtain ⟨q, hq, rfl, stg, hph⟩ := ha
      obtain ⟨k1, k2, k3, k4, k5, k6, k7⟩ := I.core.cl q hq
      have hsa := sa?_of_mem I hq
      have hjob : s.job q.h = some stg := by rw [k6, hph]; rfl
      have hodp : ∀ r ∈ A.db, r.odp = q.odp ↔ r.h = q.h := by
        intro r hr
        constructor
        · intro e; rw [List.inj_on_of_nodup_map ih.nd hr hq e]
        · intro e; rw [uniq I.core hr hq e]
      cases stg with
      | odp =>
        have ht : told q.odp q.phase = [.create q.odp] := by rw [hph]; rfl
        simp only [step, adv, hjob, Option.map_some, Option.some.injEq, Prod.mk.injEq] at hst
        obtain ⟨rfl, rfl⟩ := hst
        have hlog : (odpOff s q.h ok).1.log = s.log ++ [.disable q.odp] := by
          unfold odpOff
          rw [k1, k2]
          by_cases hd : q.p.dir = .inb <;> cases ok <;> simp [hd]
        rw [hlog]
        have key : ∀ f : Sa → Phase, (∀ r, told r.odp (f r) = [.create r.odp, .disable r.odp]) →
            Order (s.log ++ [.disable q.odp]) (change (fun r => { r with phase := f r }) q.h A.db) := by
          intro f hf
          refine order_disable ih hq ht (change_odp fun _ => rfl) ?_
          intro x hx
          obtain ⟨r, hr, e⟩ := mem_change.mp hx
          refine ⟨r, hr, ?_⟩
          by_cases c2 : r.h = q.h
          · rw [if_pos c2] at e
            rw [← e]
            refine ⟨rfl, fun hc => absurd ((hodp r hr).mpr c2) hc, fun _ => ?_⟩
            show told r.odp (f r) = _
            rw [hf, (hodp r hr).mpr c2]
          · rw [if_neg c2] at e
            rw [← e]
            exact ⟨rfl, fun _ => rfl, fun hc => absurd ((hodp r hr).mp hc) c2⟩
        cases ok with
        | true =>
          simp only [absStep, hsa, hph]
          exact key (fun r => .dying (after s.sync r.p.dir)) (fun r => by
            unfold after; split <;> rfl)
        | false =>
          simp only [absStep, hsa, hph]
          exact key (fun r => .broken) (fun r => rfl)
      | evt =>
        simp only [step, adv, hjob, Option.map_some, Option.some.injEq, Prod.mk.injEq, event] at hst
        obtain ⟨rfl, rfl⟩ := hst
        have key : ∀ f : Sa → Phase, (∀ r, told r.odp (f r) = [.create r.odp, .disable r.odp]) →
            Order s.log (change (fun r => { r with phase := f r }) q.h A.db) := by
          intro f hf
          refine order_same ih (change_odp fun _ => rfl) ?_
          intro x hx
          obtain ⟨r, hr, e⟩ := mem_change.mp hx
          refine ⟨r, hr, ?_⟩
          by_cases c2 : r.h = q.h
          · rw [if_pos c2] at e
            rw [← e]
            refine ⟨rfl, ?_⟩
            show told r.odp (f r) = _
            rw [hf, uniq I.core hr hq c2, hph]; rfl
          · rw [if_neg c2] at e
            rw [← e]; exact ⟨rfl, rfl⟩
        cases ok with
        | true =>
          simp only [absStep, hsa, hph]
          exact key (fun r => .dying .fin) (fun r => rfl)
        | false =>
          simp only [absStep, hsa, hph]
          exact key (fun r => .broken) (fun r => rfl)
      | fin =>
        have ht : told q.odp q.phase = [.create q.odp, .disable q.odp] := by rw [hph]; rfl
        have hact : q.phase ≠ .active := by rw [hph]; simp
        obtain ⟨w, hw, _⟩ := core_unlink I.core hq hact (job' := put s.job q.h none)
          (fun x hx => put_other _ _ hx)
        have hst' : s' = (finishAt { s with job := put s.job q.h none } q.h ok (w, some q.h)).1 := by
          have : step s (.adv q.h ok) = some
              ((finishAt { s with job := put s.job q.h none } q.h ok (w, some q.h)).1,
               .code (finishAt { s with job := put s.job q.h none } q.h ok (w, some q.h)).2) := by
            simp [step, adv, hjob, finish, hw]
          rw [this] at hst
          simp only [Option.some.injEq, Prod.mk.injEq] at hst
          exact hst.1.symm
        have hset : (setNx { s with job := put s.job q.h none } w (s.next q.h)).log = s.log ∧
            (setNx { s with job := put s.job q.h none } w (s.next q.h)).odp = s.odp := by
          cases w <;> exact ⟨rfl, rfl⟩
        have hlog : s'.log = s.log ++ [.destroy q.odp] := by
          rw [hst']
          unfold finishAt
          simp only [hset]
          cases ok
          · simp [k2]
          · simp only [Bool.not_true, Bool.false_eq_true, if_false]
            rw [(saUnref_frame _ _).2.2.2.2.2]
            simp [hset, k2]
        rw [hlog]
        simp only [absStep, hsa, hph]
        exact order_destroy ih hq I.core.nd ht
    | find id =>
      simp only [step, saFind, Option.map_map, Option.map_eq_some_iff] at hst
      obtain ⟨x, _, k2⟩ := hst
      simp only [Function.comp, Prod.mk.injEq] at k2
      obtain ⟨rfl, rfl⟩ := k2
      rw [(saRef_frame _ _).2.2.2.2.2]; exact ih
    | first =>
      simp only [step, saFirst, Option.some.injEq, Prod.mk.injEq] at hst
      obtain ⟨rfl, rfl⟩ := hst
      rw [(saRef_frame _ _).2.2.2.2.2]; exact ih
    | next a =>
      simp only [step, saNext, Option.some.injEq, Prod.mk.injEq] at hst
      obtain ⟨rfl, rfl⟩ := hst
      rw [(saUnref_frame _ _).2.2.2.2.2, (saRef_frame _ _).2.2.2.2.2]; exact ih
    | ref a =>
      simp only [step, Option.some.injEq, Prod.mk.injEq] at hst
      obtain ⟨rfl, rfl⟩ := hst
      rw [(saRef_frame _ _).2.2.2.2.2]; exact ih
    | unref a =>
      simp only [step, Option.some.injEq, Prod.mk.injEq] at hst
      obtain ⟨rfl, rfl⟩ := hst
      rw [(saUnref_frame _ _).2.2.2.2.2]; exact ih
    | select a x =>
      simp only [step, Option.some.injEq, Prod.mk.injEq] at hst
      obtain ⟨rfl, rfl⟩ := hst
      unfold setSel
      by_cases c : (s.sel a).isSome = true
      · rw [if_pos c]; exact ih
      · rw [if_neg c]
        refine order_same ih (change_odp fun _ => rfl) ?_
        intro q hq
        obtain ⟨r, hr, e⟩ := mem_change.mp hq
        refine ⟨r, hr, ?_⟩
        by_cases c2 : r.h = a
        · rw [if_pos c2] at e; rw [← e]; exact ⟨rfl, rfl⟩
        · rw [if_neg c2] at e; rw [e]; exact ⟨rfl, rfl⟩
    | bind k a =>
      simp only [step, Option.some.injEq, Prod.mk.injEq, bind] at hst
      obtain ⟨rfl, rfl⟩ := hst
      rw [(saRef_frame _ _).2.2.2.2.2, (saUnref_frame _ _).2.2.2.2.2]; exact ih
    | unbind k =>
      simp only [step, Option.some.injEq, Prod.mk.injEq, unbind] at hst
      obtain ⟨rfl, rfl⟩ := hst
      rw [(saUnref_frame _ _).2.2.2.2.2]; exact ih

/-- C112 (ODP).  Every ODP SA is created once, then disabled at most once, then destroyed at most
once, and nothing is asked of ODP about it afterwards, whatever callers do and whatever ODP answers. -/
theorem odp_in_order_partial {n m : Nat} {s : St} {A : Abs} (h : ReachF n m s A) (o : Nat) :
    InOrder s.log o := (reach_order h).all o

end Verif.Sad

import Verif.Sad.Inv
/-! Every call preserves the invariant and returns what the specification says. -/
namespace Verif.Sad
open Verif.Ipsec (put walk Chain chain_congr chain_head walk_split walk_find put_same put_other)

/-- The invariant. -/
structure Inv (s : St) (A : Abs) : Prop where
  core : Core s A.db A.stuck (A.users s.nsp) A.par A.lastDel
  slot : ∀ k, s.slot k = A.bnd k
  job : ∀ h, h ∉ hs A.db → s.job h = none

/-- The empty database. -/
def abs0 (par : Nat → Param) : Abs := ⟨[], [], fun _ => 0, fun _ => none, par, none⟩

/-- Indicator. -/
def ind (p : Prop) [Decidable p] : Nat := if p then 1 else 0

theorem count_upd {b : Nat → Option Nat} {k : Nat} {v : Option Nat} (h : Nat) : ∀ m,
    (List.range m).countP (fun x => (if x = k then v else b x) == some h) +
      (if k < m then ind (b k = some h) else 0) =
    (List.range m).countP (fun x => b x == some h) + (if k < m then ind (v = some h) else 0)
  | 0 => by simp
  | m + 1 => by
    have ih := count_upd (b := b) (k := k) (v := v) h m
    rw [List.range_succ, List.countP_append, List.countP_append, List.countP_singleton,
      List.countP_singleton]
    by_cases e : m = k
    · subst e
      have h1 : ¬ m < m := by omega
      have h2 : m < m + 1 := by omega
      simp only [h1, if_false, h2, if_true, beq_iff_eq] at ih ⊢
      unfold ind
      omega
    · by_cases c : k < m
      · have h2 : k < m + 1 := by omega
        simp only [c, h2, if_true, e, if_false] at ih ⊢
        omega
      · have h2 : ¬ k < m + 1 := by omega
        simp only [c, h2, if_false, e] at ih ⊢
        omega

/-- The policy slot `k` changes from `A.bnd k` to `v`. -/
def setBnd (A : Abs) (k : Nat) (v : Option Nat) : Abs :=
  { A with bnd := fun x => if x = k then v else A.bnd x }

theorem users_set {A : Abs} {m k : Nat} {v : Option Nat} (hk : k < m) (h : Nat) :
    (setBnd A k v).users m h + ind (A.bnd k = some h) = A.users m h + ind (v = some h) := by
  have := count_upd (b := A.bnd) (k := k) (v := v) h m
  simp only [hk, if_true] at this
  show A.held h + (List.range m).countP (fun x => (if x = k then v else A.bnd x) == some h) + _ = _
  show _ = A.held h + (List.range m).countP (fun x => A.bnd x == some h) + _
  omega

theorem bound_pos {A : Abs} {m k a : Nat} (hk : k < m) (h : A.bnd k = some a) : 0 < A.bound m a := by
  unfold Abs.bound
  rw [List.countP_pos_iff]
  exact ⟨k, by simpa using hk, by simp [h]⟩

theorem users_clear {A : Abs} {m k : Nat} (hk : k < m) :
    (setBnd A k none).users m = lose (A.users m) (A.bnd k) := by
  funext h
  have := users_set (A := A) (v := none) hk h
  cases hb : A.bnd k with
  | none => rw [hb] at this; simpa [ind, lose] using this
  | some a =>
    rw [hb] at this
    simp only [lose, drop1, ind, Option.some.injEq] at this ⊢
    by_cases e : h = a
    · subst e; simp at this ⊢; omega
    · have e' : ¬ a = h := fun x => e x.symm
      simpa [e, e'] using this

theorem users_bind {A : Abs} {m k a : Nat} (hk : k < m) :
    (setBnd A k (some a)).users m = bump (lose (A.users m) (A.bnd k)) a := by
  funext h
  rw [← users_clear hk]
  have h1 := users_set (A := A) (v := none) hk h
  have h2 := users_set (A := A) (v := some a) hk h
  simp only [bump, ind, Option.some.injEq, reduceCtorEq, if_false] at h1 h2 ⊢
  by_cases e : h = a
  · subst e; simp at h2 ⊢; omega
  · have e' : ¬ a = h := fun x => e x.symm
    simp only [e, e', if_false] at h2 ⊢; omega

theorem users_held {A : Abs} {m : Nat} {H : Nat → Nat} {G : Nat → Nat}
    (h : ∀ x, H x + A.bound m x = G x) : ({ A with held := H } : Abs).users m = G := by
  funext x; exact h x

theorem users_bump {A : Abs} {m a : Nat} :
    ({ A with held := bump A.held a } : Abs).users m = bump (A.users m) a := by
  funext x
  show bump A.held a x + A.bound m x = bump (fun y => A.held y + A.bound m y) a x
  unfold bump; split <;> simp only <;> omega

theorem users_gain {A : Abs} {m : Nat} {r : Option Nat} :
    ({ A with held := gain A.held r } : Abs).users m = gain (A.users m) r := by
  cases r with
  | none => rfl
  | some a => exact users_bump

theorem users_drop {A : Abs} {m a : Nat} (h : 0 < A.held a) :
    ({ A with held := drop1 A.held a } : Abs).users m = drop1 (A.users m) a := by
  funext x
  show drop1 A.held a x + A.bound m x = drop1 (fun y => A.held y + A.bound m y) a x
  unfold drop1
  by_cases e : x = a
  · subst e; simp; omega
  · simp [e]

theorem inv_init (junk : St) (par : Nat → Param) : Inv (init junk) (abs0 par) := by
  have f := freeAll_frame ({ junk with
    list := none
    free := none
    slot := fun _ => none
    job := fun _ => none
    log := [] } : St) junk.num
  refine ⟨?_, ?_, ?_⟩
  · have : (abs0 par).users (init junk).nsp = fun _ => 0 := by
      funext h
      show 0 + (List.range _).countP _ = 0
      simp [abs0]
    rw [this]
    exact core_init junk par
  · intro k; unfold init; rw [f.2.2.1]; rfl
  · intro h _; unfold init; rw [f.2.2.2.2.2.1]

/-! ### What does not change -/

theorem saRef_frame (s : St) (r : Option Nat) : (saRef s r).num = s.num ∧ (saRef s r).nsp = s.nsp ∧
    (saRef s r).sync = s.sync ∧ (saRef s r).slot = s.slot ∧ (saRef s r).job = s.job ∧
    (saRef s r).log = s.log := by
  cases r <;> exact ⟨rfl, rfl, rfl, rfl, rfl, rfl⟩

theorem saUnref_frame (s : St) (r : Option Nat) : (saUnref s r).num = s.num ∧
    (saUnref s r).nsp = s.nsp ∧ (saUnref s r).sync = s.sync ∧ (saUnref s r).slot = s.slot ∧
    (saUnref s r).job = s.job ∧ (saUnref s r).log = s.log := by
  cases r with
  | none => exact ⟨rfl, rfl, rfl, rfl, rfl, rfl⟩
  | some a => rw [unref_eq rfl]; exact ⟨rfl, rfl, rfl, rfl, rfl, rfl⟩

/-- Configuration that no call changes. -/
def Same (s s' : St) : Prop := s'.num = s.num ∧ s'.nsp = s.nsp ∧ s'.sync = s.sync

theorem Same.refl (s : St) : Same s s := ⟨rfl, rfl, rfl⟩

/-- What has to be shown about a call. -/
def Good (s : St) (A : Abs) (op : Op) (s' : St) (r : Ret) : Prop :=
  RetOk s.num s.nsp A op r ∧ Inv s' (absStep s.sync A op r) ∧ Same s s'

/-! ### Searches -/

theorem find_map {db : List Sa} {P : Nat → Bool} {Q : Sa → Bool} (h : ∀ q ∈ db, P q.h = Q q) :
    (hs db).find? P = (db.find? Q).map Sa.h := by
  induction db with
  | nil => rfl
  | cons q db ih =>
    rw [hs, List.map_cons, List.find?_cons, List.find?_cons, h q (by simp)]
    cases Q q
    · exact ih (fun r hr => h r (by simp [hr]))
    · rfl

theorem findById_eq {s : St} {A : Abs} (I : Inv s A) (id : Nat) :
    findById s id = some ((A.db.find? fun q => q.p.id = id).map Sa.h) := by
  unfold findById
  rw [walk_find I.core.ch (db_len I.core), find_map (Q := fun q => decide (q.p.id = id))]
  intro q hq
  rw [(I.core.cl q hq).1]
  rw [Bool.eq_iff_iff]; simp

theorem inLookup_eq {s : St} {A : Abs} (I : Inv s A) (x : Nat) :
    inLookup s x = some ((A.db.find? fun q => decide (q.p.dir = .inb ∧ q.p.spi = x)).map Sa.h) := by
  unfold inLookup
  rw [walk_find I.core.ch (db_len I.core),
    find_map (Q := fun q => decide (q.p.dir = .inb ∧ q.p.spi = x))]
  intro q hq
  rw [(I.core.cl q hq).1]
  rw [Bool.eq_iff_iff]; simp

theorem good_find {s : St} {A : Abs} (I : Inv s A) {id : Nat} (hb : Room A s.nsp) :
    ∃ s' r, step s (.find id) = some (s', r) ∧ Good s A (.find id) s' r := by
  refine ⟨_, _, by simp only [step, saFind, findById_eq I]; rfl, rfl, ?_, ?_⟩
  · generalize hr : (A.db.find? fun q => q.p.id = id).map Sa.h = r
    obtain ⟨f1, f2, f3, f4, f5, f6⟩ := saRef_frame s r
    refine ⟨?_, ?_, ?_⟩
    · show Core (saRef s r) A.db A.stuck (({ A with held := gain A.held r } : Abs).users _) _ _
      rw [f2, users_gain]
      refine core_ref_opt I.core ?_ hb
      intro a ha
      rw [ha] at hr
      cases hf : A.db.find? fun q => q.p.id = id with
      | none => rw [hf] at hr; exact absurd hr (by simp)
      | some q =>
        rw [hf] at hr
        simp at hr
        rw [← hr]
        exact List.mem_map_of_mem (List.mem_of_find?_eq_some hf)
    · intro k; show (saRef s r).slot k = _; rw [f4]; exact I.slot k
    · intro h hh; show (saRef s r).job h = _; rw [f5]; exact I.job h hh
  · obtain ⟨f1, f2, f3, _⟩ := saRef_frame s ((A.db.find? fun q => q.p.id = id).map Sa.h)
    exact ⟨f1, f2, f3⟩

theorem good_first {s : St} {A : Abs} (I : Inv s A) (hb : Room A s.nsp) :
    ∃ s' r, step s .first = some (s', r) ∧ Good s A .first s' r := by
  have hl : s.list = A.db.head?.map Sa.h := by
    rw [chain_head I.core.ch, hs, List.head?_map]
  refine ⟨_, _, rfl, by rw [saFirst]; simp only [hl]; rfl, ?_, ?_⟩
  · show Inv (saRef s s.list) { A with held := gain A.held s.list }
    obtain ⟨f1, f2, f3, f4, f5, f6⟩ := saRef_frame s s.list
    refine ⟨?_, ?_, ?_⟩
    · show Core (saRef s s.list) A.db A.stuck (({ A with held := gain A.held s.list } : Abs).users _) _ _
      rw [f2, users_gain]
      refine core_ref_opt I.core ?_ hb
      intro a ha
      rw [chain_head I.core.ch] at ha
      exact List.mem_of_mem_head? ha
    · intro k; rw [f4]; exact I.slot k
    · intro h hh; rw [f5]; exact I.job h hh
  · obtain ⟨f1, f2, f3, _⟩ := saRef_frame s s.list
    exact ⟨f1, f2, f3⟩

theorem chain_follower {nxt : Nat → Option Nat} {a : Nat} : ∀ {l : List Nat} {h : Option Nat},
    Chain nxt h l → a ∈ l → l.Nodup → nxt a = follower a l
  | [], _, _, hm, _ => absurd hm (by simp)
  | b :: l, h, hc, hm, hn => by
    rw [List.nodup_cons] at hn
    by_cases e : b = a
    · subst e
      simp only [follower, if_true]
      exact chain_head hc.2
    · simp only [follower, if_neg e]
      refine chain_follower hc.2 ?_ hn.2
      rcases List.mem_cons.mp hm with h | h
      · exact absurd h.symm e
      · exact h

theorem follower_mem {a k : Nat} : ∀ {l : List Nat}, follower a l = some k → k ∈ l
  | [], h => absurd h (by simp [follower])
  | b :: l, h => by
    unfold follower at h
    split at h
    · exact List.mem_cons_of_mem _ (List.mem_of_mem_head? h)
    · exact List.mem_cons_of_mem _ (follower_mem h)

theorem good_next {s : St} {A : Abs} (I : Inv s A) {a : Nat} (ha : Allowed s.nsp A (.next a)) :
    ∃ s' r, step s (.next a) = some (s', r) ∧ Good s A (.next a) s' r := by
  obtain ⟨hb, hp, hd⟩ := ha
  have hU : 0 < A.users s.nsp a := by unfold Abs.users; omega
  have hnext : (if a ∈ A.hs then s.next a = follower a A.hs else A.lastDel = some (a, s.next a)) ∧
      ∀ k, s.next a = some k → k ∈ hs A.db := by
    by_cases hm : a ∈ A.hs
    · rw [if_pos hm]
      have := chain_follower I.core.ch hm I.core.nd
      exact ⟨this, fun k hk => follower_mem (this ▸ hk)⟩
    · rw [if_neg hm]
      rcases hd with hd | ⟨y, hd⟩
      · exact absurd hd hm
      · obtain ⟨l1, l2⟩ := I.core.la a y hd hm hU
        rw [l1]; exact ⟨hd, l2⟩
  refine ⟨(saNext s a).1, .handle (saNext s a).2, by simp only [step], hnext.1, ?_, ?_⟩
  · unfold saNext
    simp only [absStep]
    show Inv (saUnref (saRef s (s.next a)) (some a)) { A with held := drop1 (gain A.held (s.next a)) a }
    obtain ⟨f1, f2, f3, f4, f5, f6⟩ := saRef_frame s (s.next a)
    obtain ⟨g1, g2, g3, g4, g5, g6⟩ := saUnref_frame (saRef s (s.next a)) (some a)
    have hg : 0 < gain A.held (s.next a) a := by
      cases s.next a with
      | none => exact hp
      | some k => simp only [gain, bump]; split <;> omega
    refine ⟨?_, ?_, ?_⟩
    · rw [g2, f2, users_drop (A := { A with held := gain A.held (s.next a) }) hg, users_gain]
      refine core_unref (core_ref_opt I.core hnext.2 hb) ?_
      rw [← users_gain]
      show 0 < gain A.held (s.next a) a + _
      omega
    · intro k; rw [g4, f4]; exact I.slot k
    · intro h hh; rw [g5, f5]; exact I.job h hh
  · obtain ⟨f1, f2, f3, _⟩ := saRef_frame s (s.next a)
    obtain ⟨g1, g2, g3, _⟩ := saUnref_frame (saRef s (s.next a)) (some a)
    exact ⟨g1.trans f1, g2.trans f2, g3.trans f3⟩

theorem good_ref {s : St} {A : Abs} (I : Inv s A) {a : Nat} (ha : Allowed s.nsp A (.ref a)) :
    ∃ s' r, step s (.ref a) = some (s', r) ∧ Good s A (.ref a) s' r := by
  obtain ⟨hb, hp⟩ := ha
  refine ⟨saRef s (some a), .code 0, by simp only [step], rfl, ⟨?_, I.slot, I.job⟩, ⟨rfl, rfl, rfl⟩⟩
  show Core (saRef s (some a)) A.db A.stuck (({ A with held := bump A.held a } : Abs).users _) _ _
  rw [users_bump]
  exact core_ref I.core (Or.inr (by unfold Abs.users; omega)) (hb a)

theorem good_unref {s : St} {A : Abs} (I : Inv s A) {a : Nat} (ha : 0 < A.held a) :
    ∃ s' r, step s (.unref a) = some (s', r) ∧ Good s A (.unref a) s' r := by
  obtain ⟨g1, g2, g3, g4, g5, g6⟩ := saUnref_frame s (some a)
  refine ⟨_, _, rfl, rfl, ⟨?_, ?_, ?_⟩, ⟨g1, g2, g3⟩⟩
  · rw [g2]
    show Core _ A.db A.stuck (({ A with held := drop1 A.held a } : Abs).users _) _ _
    rw [users_drop ha]
    exact core_unref I.core (by unfold Abs.users; omega)
  · intro k; rw [g4]; exact I.slot k
  · intro h hh; rw [g5]; exact I.job h hh

theorem good_unbind {s : St} {A : Abs} (I : Inv s A) {k : Nat} (hk : k < s.nsp) :
    ∃ s' r, step s (.unbind k) = some (s', r) ∧ Good s A (.unbind k) s' r := by
  have e : unbind s k = { saUnref s (s.slot k) with slot := put s.slot k none } := by
    unfold unbind
    cases hs : s.slot k with
    | none => rfl
    | some a =>
      rw [unref_eq (s := s) rfl, unref_eq (s := { s with slot := put s.slot k none }) rfl]
  obtain ⟨g1, g2, g3, g4, g5, g6⟩ := saUnref_frame s (s.slot k)
  refine ⟨_, _, rfl, rfl, ⟨?_, ?_, ?_⟩, ?_⟩
  · show Core (unbind s k) A.db A.stuck ((setBnd A k none).users (unbind s k).nsp) _ _
    rw [e]
    show Core _ A.db A.stuck ((setBnd A k none).users (saUnref s (s.slot k)).nsp) _ _
    rw [g2, users_clear hk, I.slot k]
    have h0 : Core (saUnref s (A.bnd k)) A.db A.stuck (lose (A.users s.nsp) (A.bnd k)) A.par A.lastDel := by
      exact core_unref_opt I.core (r := A.bnd k) (fun a ha => by
        have := bound_pos hk ha
        unfold Abs.users; omega)
    exact ⟨h0.ch, h0.nd, h0.ids, h0.spi, h0.fr, h0.cl, h0.sk, h0.rf, h0.inf, h0.la⟩
  · intro x
    show (unbind s k).slot x = (if x = k then none else A.bnd x)
    rw [e]
    show put s.slot k none x = _
    unfold put
    split
    · rfl
    · exact I.slot x
  · intro h hh
    show (unbind s k).job h = _
    rw [e]
    show (saUnref s (s.slot k)).job h = _
    rw [g5]; exact I.job h hh
  · show Same s (unbind s k)
    rw [e]; exact ⟨g1, g2, g3⟩

theorem good_bind {s : St} {A : Abs} (I : Inv s A) {k a : Nat} (ha : Allowed s.nsp A (.bind k a)) :
    ∃ s' r, step s (.bind k a) = some (s', r) ∧ Good s A (.bind k a) s' r := by
  obtain ⟨hb, hk, hp⟩ := ha
  have e : bind s k a = { saRef (saUnref s (s.slot k)) (some a) with slot := put s.slot k (some a) } := by
    unfold bind
    cases hs : s.slot k with
    | none => rfl
    | some b =>
      rw [unref_eq (s := s) rfl, unref_eq (s := { s with slot := put s.slot k (some a) }) rfl]
      simp only [saRef]
  obtain ⟨g1, g2, g3, g4, g5, g6⟩ := saUnref_frame s (s.slot k)
  refine ⟨bind s k a, .code 0, by simp only [step], rfl, ⟨?_, ?_, ?_⟩, ?_⟩
  · show Core (bind s k a) A.db A.stuck ((setBnd A k (some a)).users (bind s k a).nsp) _ _
    rw [e]
    show Core _ A.db A.stuck ((setBnd A k (some a)).users (saUnref s (s.slot k)).nsp) _ _
    rw [g2, users_bind hk, I.slot k]
    have h0 : Core (saUnref s (A.bnd k)) A.db A.stuck (lose (A.users s.nsp) (A.bnd k)) A.par A.lastDel := by
      exact core_unref_opt I.core (r := A.bnd k) (fun a ha => by
        have := bound_pos hk ha
        unfold Abs.users; omega)
    have hpos : 0 < lose (A.users s.nsp) (A.bnd k) a := by
      cases hb : A.bnd k with
      | none => simp only [lose, Abs.users]; omega
      | some b =>
        simp only [lose, drop1]
        split
        · rename_i he
          have := bound_pos hk hb
          rw [← he] at this
          unfold Abs.users; omega
        · unfold Abs.users; omega
    have hle : lose (A.users s.nsp) (A.bnd k) a ≤ A.users s.nsp a := by
      cases A.bnd k with
      | none => exact Nat.le_refl _
      | some b => simp only [lose, drop1]; split <;> omega
    have h1 := core_ref h0 (Or.inr hpos) (by have := hb a; omega)
    exact ⟨h1.ch, h1.nd, h1.ids, h1.spi, h1.fr, h1.cl, h1.sk, h1.rf, h1.inf, h1.la⟩
  · intro x
    show (bind s k a).slot x = (if x = k then some a else A.bnd x)
    rw [e]
    show put s.slot k (some a) x = _
    unfold put
    split
    · rfl
    · exact I.slot x
  · intro h hh
    show (bind s k a).job h = _
    rw [e]
    show (saUnref s (s.slot k)).job h = _
    rw [g5]; exact I.job h hh
  · show Same s (bind s k a)
    rw [e]; exact ⟨g1, g2, g3⟩

/-! ### Destruction and selectors -/

theorem sa?_of_mem {s : St} {A : Abs} (I : Inv s A) {q : Sa} (hq : q ∈ A.db) :
    A.sa? q.h = some q := by
  unfold Abs.sa?
  cases hf : A.db.find? fun r => r.h = q.h with
  | none => rw [List.find?_eq_none] at hf; exact absurd (hf q hq) (by simp)
  | some r =>
    have h1 := List.mem_of_find?_eq_some hf
    have h2 := List.find?_some hf
    rw [uniq I.core h1 hq (by simpa using h2)]

theorem good_select {s : St} {A : Abs} (I : Inv s A) {a x : Nat} (ha : Allowed s.nsp A (.select a x)) :
    ∃ s' r, step s (.select a x) = some (s', r) ∧ Good s A (.select a x) s' r := by
  obtain ⟨hp, hm⟩ := ha
  obtain ⟨q, hq, rfl⟩ := List.mem_map.mp hm
  obtain ⟨k1, k2, k3, k4, k5, k6, k7⟩ := I.core.cl q hq
  refine ⟨_, _, rfl, ?_⟩
  unfold setSel
  rw [k3]
  by_cases c : q.sel.isSome = true
  · rw [if_pos c]
    refine ⟨?_, I, Same.refl s⟩
    intro r hr e
    rw [uniq I.core hr hq e]
    have : q.sel ≠ none := fun h => by rw [h] at c; simp at c
    rw [if_neg this]
  · rw [if_neg c]
    have c' : q.sel = none := by simpa using c
    refine ⟨?_, ⟨?_, I.slot, ?_⟩, ⟨rfl, rfl, rfl⟩⟩
    · intro r hr e
      rw [uniq I.core hr hq e, if_pos c']
    · exact core_change I.core hq rfl (fun q => { q with sel := some x }) (fun _ => ⟨rfl, rfl, rfl⟩)
        (dis' := s.dis) (sel' := put s.sel q.h (some x)) (job' := s.job) (log' := s.log)
        (fun y hy => ⟨rfl, put_other _ _ hy, rfl⟩) ⟨by simp, k5, k6⟩
    · intro h hh
      refine I.job h (fun hc => hh ?_)
      exact mem_sel hc

theorem good_destroy {s : St} {A : Abs} (I : Inv s A) {a : Nat} (ha : 0 < A.held a) :
    ∃ s' r, step s (.destroy a) = some (s', r) ∧ Good s A (.destroy a) s' r := by
  refine ⟨_, _, rfl, ?_⟩
  have hU : 0 < A.users s.nsp a := by unfold Abs.users; omega
  have hlive : s.dis a = true ↔ ¬ Live A a := by
    by_cases hm : a ∈ hs A.db
    · obtain ⟨q, hq, rfl⟩ := List.mem_map.mp hm
      rw [(I.core.cl q hq).2.2.2.2.1]
      constructor
      · rintro h ⟨r, hr, e, hr'⟩
        rw [uniq I.core hr hq e] at hr'; exact h hr'
      · intro h hc; exact h ⟨q, hq, rfl, hc⟩
    · constructor
      · rintro _ ⟨r, hr, e, _⟩; exact hm (e ▸ List.mem_map_of_mem hr)
      · intro _; exact ((I.core.inf a hU).2 hm).1
  unfold disable
  by_cases c : s.dis a = true
  · rw [if_pos c]
    exact ⟨Or.inr ⟨rfl, hlive.mp c⟩, I, Same.refl s⟩
  · rw [if_neg c]
    have hl : Live A a := by
      by_contra h; exact c (hlive.mpr h)
    obtain ⟨q, hq, rfl, hph⟩ := hl
    obtain ⟨k1, k2, k3, k4, k5, k6, k7⟩ := I.core.cl q hq
    refine ⟨Or.inl ⟨rfl, q, hq, rfl, hph⟩, ⟨?_, I.slot, ?_⟩, ⟨rfl, rfl, rfl⟩⟩
    · exact core_change I.core hq rfl (fun q => { q with phase := .dying .odp })
        (fun _ => ⟨rfl, rfl, rfl⟩)
        (dis' := put s.dis q.h true) (sel' := s.sel) (job' := put s.job q.h (some .odp)) (log' := s.log)
        (fun y hy => ⟨put_other _ _ hy, rfl, put_other _ _ hy⟩) ⟨k3, by simp, by simp [jobOf]⟩
    · intro h hh
      have hh' : h ∉ hs A.db := fun hc => hh (mem_phase hc)
      show put s.job q.h _ h = none
      rw [put_other _ _ (fun e => hh' (by rw [e]; exact List.mem_map_of_mem hq))]
      exact I.job h hh'

/-- A destruction takes a step that changes the phase only. -/
theorem inv_phase {s : St} {A : Abs} (I : Inv s A) {q : Sa} (hq : q ∈ A.db) {f : Sa → Phase}
    (hf : f q ≠ .active) (hph : q.phase ≠ .active) {log' : List OdpCall} :
    Inv { s with log := log', job := put s.job q.h (jobOf (f q)) }
      { A with db := change (fun r => { r with phase := f r }) q.h A.db } := by
  obtain ⟨k1, k2, k3, k4, k5, k6, k7⟩ := I.core.cl q hq
  refine ⟨?_, I.slot, ?_⟩
  · exact core_change I.core hq rfl (fun r => { r with phase := f r })
      (fun _ => ⟨rfl, rfl, rfl⟩)
      (dis' := s.dis) (sel' := s.sel) (job' := put s.job q.h (jobOf (f q))) (log' := log')
      (fun y hy => ⟨rfl, rfl, put_other _ _ hy⟩) ⟨k3, by simp [k5, hf, hph], by simp⟩
  · intro h hh
    have hh' : h ∉ hs A.db := fun hc => hh (mem_phase hc)
    show put s.job q.h _ h = none
    rw [put_other _ _ (fun e => hh' (by rw [e]; exact List.mem_map_of_mem hq))]
    exact I.job h hh'

theorem good_adv {s : St} {A : Abs} (I : Inv s A) {a : Nat} {ok : Bool}
    (ha : Allowed s.nsp A (.adv a ok)) :
    ∃ s' r, step s (.adv a ok) = some (s', r) ∧ Good s A (.adv a ok) s' r := by
  obtain ⟨q, hq, rfl, stg, hph⟩ := ha
  obtain ⟨k1, k2, k3, k4, k5, k6, k7⟩ := I.core.cl q hq
  have hact : q.phase ≠ .active := by rw [hph]; simp
  have hsa := sa?_of_mem I hq
  have hjob : s.job q.h = some stg := by rw [k6, hph]; rfl
  have huq : ∀ r ∈ A.db, r.h = q.h → r = q := fun r hr e => uniq I.core hr hq e
  cases stg with
  | odp =>
    have hne : ¬ ∃ r ∈ A.db, r.h = q.h ∧ r.phase = .dying .evt := by
      rintro ⟨r, hr, e, h⟩; rw [huq r hr e, hph] at h; simp at h
    refine ⟨(odpOff s q.h ok).1, .code (odpOff s q.h ok).2, by simp [step, adv, hjob], ?_⟩
    unfold odpOff
    cases ok with
    | true =>
      refine ⟨by simp [RetOk], ?_, ⟨rfl, rfl, rfl⟩⟩
      simp only [if_true]
      have e : absStep s.sync A (.adv q.h true) (.code 0) =
          { A with db := change (fun r => { r with phase := .dying (after s.sync r.p.dir) }) q.h A.db } := by
        simp only [absStep, hsa, hph]
      rw [e, k1]
      exact inv_phase I hq (f := fun r => .dying (after s.sync r.p.dir)) (by simp) hact
    | false =>
      refine ⟨?_, ?_, ⟨rfl, rfl, rfl⟩⟩
      · simp only [RetOk, hne]; simp
      · simp only [Bool.false_eq_true, if_false]
        have e : absStep s.sync A (.adv q.h false) (.code (-1)) =
            { A with db := change (fun r => { r with phase := .broken }) q.h A.db } := by
          simp only [absStep, hsa, hph]
        rw [e]
        exact inv_phase I hq (f := fun _ => .broken) (by simp) hact
  | evt =>
    have hex : ∃ r ∈ A.db, r.h = q.h ∧ r.phase = .dying .evt := ⟨q, hq, rfl, hph⟩
    refine ⟨(event s q.h ok).1, .code (event s q.h ok).2, by simp [step, adv, hjob], ?_⟩
    unfold event
    refine ⟨by simp only [RetOk, hex]; simp, ?_, ⟨rfl, rfl, rfl⟩⟩
    cases ok with
    | true =>
      have e : absStep s.sync A (.adv q.h true) (.code 0) =
          { A with db := change (fun r => { r with phase := .dying .fin }) q.h A.db } := by
        simp only [absStep, hsa, hph]
      rw [e]
      exact inv_phase I hq (f := fun _ => .dying .fin) (log' := s.log) (by simp) hact
    | false =>
      have e : absStep s.sync A (.adv q.h false) (.code 0) =
          { A with db := change (fun r => { r with phase := .broken }) q.h A.db } := by
        simp only [absStep, hsa, hph]
      rw [e]
      exact inv_phase I hq (f := fun _ => .broken) (log' := s.log) (by simp) hact
  | fin =>
    have hne : ¬ ∃ r ∈ A.db, r.h = q.h ∧ r.phase = .dying .evt := by
      rintro ⟨r, hr, e, h⟩; rw [huq r hr e, hph] at h; simp at h
    obtain ⟨w, hw, hc⟩ := core_unlink I.core hq hact (job' := put s.job q.h none)
      (fun x hx => put_other _ _ hx)
    have hframe : ∀ s0 : St, (setNx s0 w (s.next q.h)).num = s0.num ∧
        (setNx s0 w (s.next q.h)).nsp = s0.nsp ∧ (setNx s0 w (s.next q.h)).sync = s0.sync ∧
        (setNx s0 w (s.next q.h)).slot = s0.slot ∧ (setNx s0 w (s.next q.h)).job = s0.job := by
      intro s0; cases w <;> exact ⟨rfl, rfl, rfl, rfl, rfl⟩
    obtain ⟨f1, f2, f3, f4, f5⟩ := hframe { s with job := put s.job q.h none }
    have hjobs : ∀ h, h ∉ hs (A.db.filter (fun r => r.h ≠ q.h)) → put s.job q.h none h = none := by
      intro h hh
      by_cases e : h = q.h
      · subst e; simp
      · rw [put_other _ _ e]
        refine I.job h (fun hc => hh ?_)
        obtain ⟨r, hr, er⟩ := List.mem_map.mp hc
        exact List.mem_map.mpr ⟨r, List.mem_filter.mpr ⟨hr, by rw [er]; simpa using e⟩, er⟩
    have hst : q.h ∉ A.stuck := fun h => (I.core.sk q.h h).1 (List.mem_map_of_mem hq)
    have hstep : step s (.adv q.h ok) = some
        ((finishAt { s with job := put s.job q.h none } q.h ok (w, some q.h)).1,
         .code (finishAt { s with job := put s.job q.h none } q.h ok (w, some q.h)).2) := by
      simp [step, adv, hjob, finish, hw]
    refine ⟨_, _, hstep, ?_⟩
    have hA : ∀ r, absStep s.sync A (.adv q.h ok) r = { A with
        db := A.db.filter (fun r => r.h ≠ q.h)
        stuck := if ok then A.stuck else q.h :: A.stuck
        lastDel := some (q.h, follower q.h A.hs) } := by
      intro r; simp only [absStep, hsa, hph]
    unfold finishAt
    simp only
    generalize setNx { s with job := put s.job q.h none } w (s.next q.h) = s2 at *
    cases ok with
    | false =>
      refine ⟨?_, ?_, ⟨f1, f2, f3⟩⟩
      · simp only [RetOk, hne]; simp
      · rw [hA]
        simp only [Bool.false_eq_true, if_false, Bool.not_false, if_true]
        refine ⟨?_, ?_, ?_⟩
        · have hu : A.users s2.nsp = A.users s.nsp := by rw [f2]
          show Core _ _ _ (A.users s2.nsp) _ _
          rw [hu]
          exact hc _
        · intro k; show s2.slot k = _; rw [f4]; exact I.slot k
        · intro h hh; show s2.job h = _; rw [f5]; exact hjobs h hh
    | true =>
      have hrel := core_release (hc (s2.log ++ [.destroy (s2.odp q.h)])) hst
      obtain ⟨g1, g2, g3, g4, g5, g6⟩ := saUnref_frame { s2 with
        log := s2.log ++ [.destroy (s2.odp q.h)]
        gone := put s2.gone q.h true } (some q.h)
      refine ⟨?_, ?_, ⟨g1.trans f1, g2.trans f2, g3.trans f3⟩⟩
      · simp [RetOk]
      · rw [hA]
        simp only [Bool.not_true, Bool.false_eq_true, if_false, if_true]
        refine ⟨?_, ?_, ?_⟩
        · rw [g2]
          have hu : A.users s2.nsp = A.users s.nsp := by rw [f2]
          show Core _ _ _ (A.users s2.nsp) _ _
          rw [hu]
          exact hrel
        · intro k; rw [g4]; show s2.slot k = _; rw [f4]; exact I.slot k
        · intro h hh; rw [g5]; show s2.job h = _; rw [f5]; exact hjobs h hh

/-! ### Creation -/

/-- A cell taken from the free list, some of its fields written. -/
def taken (s : St) (a : Nat) (par' : Nat → Param) (dis' : Nat → Bool) (sel' : Nat → Option Nat)
    (gone' : Nat → Bool) : St :=
  { s with
    free := s.next a
    ref := put s.ref a 1
    par := par'
    dis := dis'
    sel := sel'
    gone := gone' }

open Classical in
theorem good_create {s : St} {A : Abs} (I : Inv s A) {p : Param} {o : Option Nat} :
    ∃ s' r, step s (.create p o) = some (s', r) ∧ Good s A (.create p o) s' r := by
  cases hf : s.free with
  | none =>
    refine ⟨s, .handle none, by simp [step, create, saAlloc, hf], ?_, ?_, Same.refl s⟩
    · exact Or.inr (Or.inr (Or.inr (core_alloc_fail I.core hf)))
    · cases o <;> exact I
  | some a =>
    obtain ⟨a1, a2, a3, a4⟩ := core_free I.core hf
    have hsa : saAlloc s = ({ s with free := s.next a, ref := put s.ref a 1 }, some a) := by
      simp [saAlloc, hf]
    -- the checks
    have hok : saOk { s with free := s.next a, ref := put s.ref a 1 } p =
        some (decide (p.ok = true ∧ ¬ Clash A p)) := by
      have e1 : findById { s with free := s.next a, ref := put s.ref a 1 } p.id = findById s p.id := rfl
      have e2 : inLookup { s with free := s.next a, ref := put s.ref a 1 } p.spi = inLookup s p.spi := rfl
      unfold saOk
      rw [e1, e2, findById_eq I, inLookup_eq I]
      simp only [Option.some.injEq]
      rw [Bool.eq_iff_iff, decide_eq_true_iff]
      simp only [Bool.and_eq_true, Bool.not_eq_true', Bool.and_eq_false_iff, Option.isNone_iff_eq_none,
        Option.map_eq_none_iff, List.find?_eq_none, Clash, and_assoc, Option.isSome_map]
      refine and_congr_right fun _ => ?_
      constructor
      · rintro ⟨h1, h2⟩ ⟨q, hq, h | ⟨h3, h4, h5⟩⟩
        · exact h1 q hq (by simpa using h)
        · rcases h2 with h2 | h2
          · rw [h3] at h2; simp at h2
          · simp at h2; exact h2 q hq h4 h5
      · intro h
        refine ⟨fun q hq hc => h ⟨q, hq, Or.inl (by simpa using hc)⟩, ?_⟩
        by_cases hd : p.dir = .inb
        · right
          simp
          intro q hq h4 h5
          exact h ⟨q, hq, Or.inr ⟨hd, h4, h5⟩⟩
        · left; simp [hd]
    have hstep : ∀ b, saOk { s with free := s.next a, ref := put s.ref a 1 } p = some b →
        step s (.create p o) = some
          ((createAt { s with free := s.next a, ref := put s.ref a 1 } a p o b).1,
           .handle (createAt { s with free := s.next a, ref := put s.ref a 1 } a p o b).2) := by
      intro b hb
      simp only [step, create, hsa, hb, Option.map_some]
    -- giving the cell back
    have hback : ∀ (par' : Nat → Param) (dis' : Nat → Bool) (sel' : Nat → Option Nat) (gone' : Nat → Bool),
        (∀ x, x ≠ a → par' x = s.par x ∧ dis' x = s.dis x ∧ sel' x = s.sel x ∧ gone' x = s.gone x) →
        Inv (saUnref (taken s a par' dis' sel' gone') (some a)) A ∧
        Same s (saUnref (taken s a par' dis' sel' gone') (some a)) := by
      intro par' dis' sel' gone' hx
      rw [unref_eq (r := 0) (by simp [taken])]
      simp only [if_true]
      unfold taken
      have hneU : ∀ x, 0 < A.users s.nsp x → x ≠ a := fun x h e => by rw [e] at h; omega
      have hnh : ∀ x ∈ hs A.db, x ≠ a := fun x h e => a2 (e ▸ h)
      have hns : ∀ x ∈ A.stuck, x ≠ a := fun x h e => a3 (e ▸ h)
      have hnx : put s.next a (s.next a) = s.next := by
        funext x; unfold put; split
        · rename_i e; rw [e]
        · rfl
      refine ⟨⟨?_, I.slot, I.job⟩, ⟨rfl, rfl, rfl⟩⟩
      have J := I.core
      constructor
      · show Chain (put s.next a (s.next a)) s.list _; rw [hnx]; exact J.ch
      · exact J.nd
      · exact J.ids
      · exact J.spi
      · show ∃ fl, Chain (put s.next a (s.next a)) (some a) fl ∧ _
        rw [hnx, ← hf]; exact J.fr
      · intro q hq
        obtain ⟨c1, c2, c3, c4, c5, c6, c7⟩ := J.cl q hq
        obtain ⟨x1, x2, x3, x4⟩ := hx q.h (hnh _ (List.mem_map_of_mem hq))
        show par' _ = _ ∧ _ ∧ sel' _ = _ ∧ gone' _ = _ ∧ (dis' _ = _ ↔ _) ∧ _
        rw [x1, x2, x3, x4]
        exact ⟨c1, c2, c3, c4, c5, c6, c7⟩
      · intro x hh
        obtain ⟨c1, c2, c3⟩ := J.sk x hh
        obtain ⟨x1, x2, x3, x4⟩ := hx x (hns _ hh)
        show _ ∧ gone' _ = _ ∧ dis' _ = _
        rw [x2, x4]
        exact ⟨c1, c2, c3⟩
      · intro x hh
        have hxa : x ≠ a := by
          rcases hh with hh | hh | hh
          · exact hnh x hh
          · exact hns x hh
          · exact hneU x hh
        show x < s.num ∧ put (put s.ref a 1) a 0 x = _ ∧ _
        rw [put_other _ _ hxa, put_other _ _ hxa]
        exact J.rf x hh
      · intro x hh
        obtain ⟨x1, x2, x3, x4⟩ := hx x (hneU _ hh)
        show par' _ = _ ∧ (_ → dis' _ = _ ∧ (_ → gone' _ = _))
        rw [x1, x2, x4]
        exact J.inf x hh
      · show ∀ h y, A.lastDel = some (h, y) → h ∉ hs A.db → 0 < _ →
          put s.next a (s.next a) h = y ∧ _
        rw [hnx]; exact J.la
    by_cases hc : p.ok = true ∧ ¬ Clash A p
    · have hok' := hok
      rw [decide_eq_true hc] at hok'
      refine ⟨_, _, hstep _ hok', ?_⟩
      cases o with
      | none =>
        simp only [createAt, if_true, saFill, Bool.false_eq_true, if_false]
        obtain ⟨h1, h2⟩ := hback (put s.par a p) (put s.dis a false) (put s.sel a none)
          (put s.gone a false) (fun x hx => ⟨put_other _ _ hx, put_other _ _ hx, put_other _ _ hx,
            put_other _ _ hx⟩)
        exact ⟨Or.inr (Or.inr (Or.inl rfl)), h1, h2⟩
      | some o =>
        simp only [createAt, if_true, saFill]
        refine ⟨⟨hc.1, hc.2, rfl, a1, a2, a3, a4⟩, ⟨?_, ?_, ?_⟩, ⟨rfl, rfl, rfl⟩⟩
        · have := core_add I.core (a := a) (o := o) (p := p) hf
            (fun q hq e => hc.2 ⟨q, hq, Or.inl e⟩)
            (fun q hq d1 d2 e => hc.2 ⟨q, hq, Or.inr ⟨d1, d2, e⟩⟩)
            (I.job a a2) (log' := s.log ++ [.create o])
          rw [← users_bump] at this
          simp only [absStep]
          have hr : put (put s.ref a 1) a ((put s.ref a 1 a + 1) % 2 ^ 32) = put s.ref a 2 := by
            rw [put_put, put_same]
          simp only [saRef, hr]
          exact this
        · exact I.slot
        · intro h hh
          exact I.job h (fun hc => hh (by
            show h ∈ a :: hs A.db
            simp [hc]))
    · have hok' := hok
      rw [decide_eq_false hc] at hok'
      refine ⟨_, _, hstep _ hok', ?_⟩
      simp only [createAt, Bool.false_eq_true, if_false]
      obtain ⟨h1, h2⟩ := hback s.par s.dis s.sel s.gone (fun x _ => ⟨rfl, rfl, rfl, rfl⟩)
      refine ⟨?_, ?_, h2⟩
      · by_cases h : p.ok = true
        · right; left
          by_contra hcl
          exact hc ⟨h, hcl⟩
        · left; simpa using h
      · have e : absStep s.sync A (.create p o) (.handle none) = A := by cases o <;> rfl
        rw [e]; exact h1

/-- Every allowed call. -/
theorem good_step {s : St} {A : Abs} (I : Inv s A) {op : Op} (ha : Allowed s.nsp A op) :
    ∃ s' r, step s op = some (s', r) ∧ Good s A op s' r := by
  cases op with
  | create p o => exact good_create I
  | destroy a => exact good_destroy I ha
  | adv a ok => exact good_adv I ha
  | find id => exact good_find I ha
  | first => exact good_first I ha
  | next a => exact good_next I ha
  | ref a => exact good_ref I ha
  | unref a => exact good_unref I ha
  | select a x => exact good_select I ha
  | bind k a => exact good_bind I ha
  | unbind k => exact good_unbind I ha

end Verif.Sad

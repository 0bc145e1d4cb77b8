import Verif.Sad.Props
/-! # C112 (completion and failure of a destruction), C113: flushing a VRF -/
namespace Verif.Sad
open Verif.Ipsec (put walk Chain put_same put_other)

/-- `ofp_ipsec_sa_destroy`, not interrupted (src/ofp_ipsec.c:750-780); `ok1`, `ok2`: results of
`odp_ipsec_sa_disable` and `odp_ipsec_sa_destroy`. -/
def destroy (s : St) (a : Nat) (ok1 ok2 : Bool) : Option (St × Int) :=
  if (disable s a).2 ≠ 0 then some ((disable s a).1, -1)
  else
    let s1 := (disable s a).1
    if (odpOff s1 a ok1).2 ≠ 0 then some ((odpOff s1 a ok1).1, -1)
    else
      let s2 := (odpOff s1 a ok1).1
      if s2.sync (s2.par a).dir then finish s2 a ok2 else some (s2, 0)

/-- The loop of `ipsec_sa_flush` (src/ofp_ipsec.c:787-795); `good`: no call returned an error so far
(`ret |= ...`). -/
def flushLoop (odp : Nat → Bool × Bool) (vrf : Nat) : Nat → St → Option Nat → Bool → Option (St × Bool)
  | 0, _, _, _ => none
  | _ + 1, s, none, good => some (s, good)
  | f + 1, s, some a, good =>
    if (s.par a).vrf = vrf then
      match destroy s a (odp a).1 (odp a).2 with
      | none => none
      | some (s1, c) => flushLoop odp vrf f (saNext s1 a).1 (saNext s1 a).2 (good && c == 0)
    else flushLoop odp vrf f (saNext s a).1 (saNext s a).2 good

/-- `ofp_ipsec_sa_flush` (src/ofp_ipsec.c:782-801). -/
def flush (odp : Nat → Bool × Bool) (s : St) (vrf : Nat) : Option (St × Bool) :=
  flushLoop odp vrf (s.num + 1) (saFirst s).1 (saFirst s).2 true

theorem reach_step {n m : Nat} {s : St} {A : Abs} (h : Reach n m s A) {op : Op}
    (ha : Allowed m A op) : ∃ s' r, step s op = some (s', r) ∧ RetOk n m A op r ∧
      Reach n m s' (absStep s.sync A op r) ∧ s'.sync = s.sync := by
  obtain ⟨I, e1, e2⟩ := reach_inv h
  have ha' := ha
  rw [← e2] at ha'
  obtain ⟨s1, r1, h1, h2, h3, h4⟩ := good_step I ha'
  rw [e1, e2] at h2
  exact ⟨s1, r1, h1, h2, .call h ha h1, h4.2.2⟩

theorem change_split {f : Sa → Sa} {pre post : List Sa} {q : Sa} (hn : (hs (pre ++ q :: post)).Nodup) :
    change f q.h (pre ++ q :: post) = pre ++ f q :: post := by
  rw [hs, List.map_append, List.map_cons, List.nodup_append] at hn
  obtain ⟨n1, n2, n3⟩ := hn
  rw [List.nodup_cons] at n2
  have h1 : change f q.h pre = pre := by
    unfold change
    conv => rhs; rw [← List.map_id pre]
    apply List.map_congr_left
    intro r hr
    have := n3 r.h (List.mem_map_of_mem hr) q.h (by simp)
    rw [if_neg this]; rfl
  have h2 : change f q.h post = post := by
    unfold change
    conv => rhs; rw [← List.map_id post]
    apply List.map_congr_left
    intro r hr
    have : r.h ≠ q.h := fun e => n2.1 (e ▸ List.mem_map_of_mem hr)
    rw [if_neg this]; rfl
  have h3 : change f q.h (pre ++ q :: post) = change f q.h pre ++ f q :: change f q.h post := by
    simp [change]
  rw [h3, h1, h2]

/-- C112 (completion).  An uninterrupted destruction of an active SA, with ODP agreeing, reports
success; in synchronous mode the SA has left the database, otherwise it is disabled and waits for
ODP's completion event; no other SA, reference or binding changes. -/
theorem destroy_ok_partial {n m : Nat} {s : St} {A : Abs} (h : Reach n m s A) {pre post : List Sa} {q : Sa}
    (hdb : A.db = pre ++ q :: post) (hph : q.phase = .active) (hu : 0 < A.held q.h) :
    ∃ s', destroy s q.h true true = some (s', 0) ∧ s'.sync = s.sync ∧
      Reach n m s' (if s.sync q.p.dir then
          { A with db := pre ++ post, lastDel := some (q.h, post.head?.map Sa.h) }
        else { A with db := pre ++ { q with phase := .dying .evt } :: post }) := by
  have hq : q ∈ A.db := by rw [hdb]; simp
  obtain ⟨I, e1, e2⟩ := reach_inv h
  have hnd := I.core.nd
  rw [hdb] at hnd
  -- the critical section of `disable`
  obtain ⟨s1, r1, k1, k2, R1, y1⟩ := reach_step h (op := .destroy q.h) hu
  have hr1 : r1 = .code 0 := by
    rcases k2 with k2 | k2
    · exact k2.1
    · exact absurd ⟨q, hq, rfl, hph⟩ k2.2
  subst hr1
  simp only [step, Option.some.injEq, Prod.mk.injEq, Ret.code.injEq] at k1
  have hA1 : absStep s.sync A (.destroy q.h) (.code 0) =
      { A with db := pre ++ { q with phase := .dying .odp } :: post } := by
    simp only [absStep, if_true]
    rw [hdb, change_split hnd]
  rw [hA1] at R1
  -- ODP is told
  obtain ⟨s2, r2, k3, k4, R2, y2⟩ := reach_step R1 (op := .adv q.h true)
    ⟨{ q with phase := .dying .odp }, by simp, rfl, _, rfl⟩
  obtain ⟨I1, e11, e12⟩ := reach_inv R1
  have hsa1 := sa?_of_mem I1 (q := { q with phase := .dying .odp }) (by simp)
  have hj1 : s1.job q.h = some .odp :=
    (I1.core.cl { q with phase := .dying .odp } (by simp)).2.2.2.2.2.1
  have hr2 : r2 = .code 0 := by simpa [RetOk] using k4
  subst hr2
  simp only [step, adv, hj1, Option.map_some, Option.some.injEq, Prod.mk.injEq, Ret.code.injEq] at k3
  have hnd1 := I1.core.nd
  have hA2 : absStep s1.sync { A with db := pre ++ { q with phase := .dying .odp } :: post }
      (.adv q.h true) (.code 0) =
      { A with db := pre ++ { q with phase := .dying (after s.sync q.p.dir) } :: post } := by
    have hsa1' : Abs.sa? { A with db := pre ++ { q with phase := .dying .odp } :: post } q.h =
        some { q with phase := .dying .odp } := hsa1
    simp only [absStep, hsa1', y1]
    rw [change_split (q := { q with phase := .dying .odp }) hnd1]
  rw [hA2] at R2
  obtain ⟨I2, e21, e22⟩ := reach_inv R2
  have hc2 := I2.core.cl { q with phase := .dying (after s.sync q.p.dir) } (by simp)
  have hp2 : s2.par q.h = q.p := hc2.1
  unfold destroy
  rw [k1.2, k1.1]
  simp only [ne_eq, not_true, if_false]
  rw [k3.2, k3.1]
  simp only [not_true, if_false]
  rw [y2, y1, hp2]
  by_cases c : s.sync q.p.dir = true
  · rw [if_pos c, if_pos c]
    have haf : after s.sync q.p.dir = .fin := by unfold after; rw [if_pos c]
    rw [haf] at R2 hc2
    obtain ⟨s3, r3, k5, k6, R3, y3⟩ := reach_step R2 (op := .adv q.h true)
      ⟨{ q with phase := .dying .fin }, by simp, rfl, _, rfl⟩
    have hr3 : r3 = .code 0 := by simpa [RetOk] using k6
    subst hr3
    have hj2 : s2.job q.h = some .fin := hc2.2.2.2.2.2.1
    simp only [step, adv, hj2, Option.map_eq_some_iff] at k5
    obtain ⟨⟨s4, c4⟩, k7, k8⟩ := k5
    simp only [Prod.mk.injEq, Ret.code.injEq] at k8
    obtain ⟨rfl, rfl⟩ := k8
    refine ⟨s4, k7, by rw [y3, y2, y1], ?_⟩
    obtain ⟨I2', _⟩ := reach_inv R2
    have hsa2 : Abs.sa? { A with db := pre ++ { q with phase := .dying .fin } :: post } q.h =
        some { q with phase := .dying .fin } :=
      sa?_of_mem I2' (q := { q with phase := .dying .fin }) (by simp)
    have hA3 : absStep s2.sync { A with db := pre ++ { q with phase := .dying .fin } :: post }
        (.adv q.h true) (.code 0) =
        { A with db := pre ++ post, lastDel := some (q.h, post.head?.map Sa.h) } := by
      simp only [absStep, hsa2, if_true]
      have h1 := filter_split (q := { q with phase := .dying .fin }) rfl I2'.core.nd
      have h2 : follower q.h (Abs.hs { A with db := pre ++ { q with phase := .dying .fin } :: post }) =
          post.head?.map Sa.h := by
        unfold Abs.hs
        rw [List.map_append, List.map_cons, follower_split, List.head?_map]
        have hn := I2'.core.nd
        rw [hs, List.map_append, List.map_cons, List.nodup_append] at hn
        intro hc
        exact hn.2.2 _ hc _ (by simp) rfl
      rw [h1, h2]
    rw [hA3] at R3
    exact R3
  · rw [if_neg c, if_neg c]
    have haf : after s.sync q.p.dir = .evt := by unfold after; rw [if_neg c]
    rw [haf] at R2
    exact ⟨s2, rfl, by rw [y2, y1], R2⟩

/-- C112 (completion event).  When the completion event of an asynchronous destruction comes and
ODP agrees to destroy the SA, the SA leaves the database; its object is free unless a handle or a
policy still refers to it. -/
theorem completion_ok_partial {n m : Nat} {s : St} {A : Abs} (h : Reach n m s A) {q : Sa}
    (hq : q ∈ A.db) (hph : q.phase = .dying .evt) :
    ∃ s1 s2 A2, step s (.adv q.h true) = some (s1, .code 0) ∧
      step s1 (.adv q.h true) = some (s2, .code 0) ∧ Reach n m s2 A2 ∧
      A2.db = A.db.filter (fun r => r.h ≠ q.h) ∧ A2.held = A.held ∧ A2.bnd = A.bnd ∧
      A2.stuck = A.stuck := by
  obtain ⟨I, e1, e2⟩ := reach_inv h
  obtain ⟨s1, r1, k1, k2, R1, y1⟩ := reach_step h (op := .adv q.h true) ⟨q, hq, rfl, _, hph⟩
  have hr1 : r1 = .code 0 := by simpa [RetOk] using k2
  subst hr1
  have hA1 : absStep s.sync A (.adv q.h true) (.code 0) =
      { A with db := change (fun r => { r with phase := .dying .fin }) q.h A.db } := by
    simp only [absStep, sa?_of_mem I hq, hph]
  rw [hA1] at R1
  have hq1 : ({ q with phase := .dying .fin } : Sa) ∈
      change (fun r => { r with phase := .dying .fin }) q.h A.db :=
    mem_change.mpr ⟨q, hq, by simp⟩
  obtain ⟨s2, r2, k3, k4, R2, y2⟩ := reach_step R1 (op := .adv q.h true)
    ⟨{ q with phase := .dying .fin }, hq1, rfl, _, rfl⟩
  have hr2 : r2 = .code 0 := by simpa [RetOk] using k4
  subst hr2
  obtain ⟨I1, _⟩ := reach_inv R1
  have hsa1 := sa?_of_mem I1 (q := { q with phase := .dying .fin }) hq1
  refine ⟨s1, s2, _, k1, k3, R2, ?_⟩
  have hsa1' : Abs.sa? { A with db := change (fun r => { r with phase := .dying .fin }) q.h A.db } q.h =
      some { q with phase := .dying .fin } := hsa1
  simp only [absStep, hsa1', if_true, and_true]
  unfold change
  generalize A.db = l
  induction l with
  | nil => rfl
  | cons r l ih =>
    rw [List.map_cons, List.filter_cons, List.filter_cons, ih]
    by_cases e : r.h = q.h
    · simp [e]
    · simp [e]

/-! ### Failures -/

/-- Any later part of the history. -/
inductive After (m : Nat) : St → Abs → St → Abs → Prop
  | refl {s : St} {A : Abs} : After m s A s A
  | call {s0 s s' : St} {A0 A : Abs} {op : Op} {r : Ret} :
      After m s0 A0 s A → Allowed m A op → step s op = some (s', r) →
      After m s0 A0 s' (absStep s.sync A op r)

theorem after_reach {n m : Nat} {s0 s : St} {A0 A : Abs} (L : After m s0 A0 s A)
    (h : Reach n m s0 A0) : Reach n m s A := by
  induction L with
  | refl => exact h
  | call _ ha hs ih => exact .call (ih h) ha hs

/-- C112 (a failed destruction cannot be repeated).  If ODP fails to disable the SA (or reports so in
the completion event), the SA stays in the database for ever: no later history removes it, every
later destruction is refused, and its identifier can never be used again. -/
theorem failed_destroy_violated {n m : Nat} {s0 s : St} {A0 A : Abs} (h : Reach n m s0 A0) {q : Sa}
    (hq : q ∈ A0.db) (hph : q.phase = .broken) (L : After m s0 A0 s A) :
    (∃ r ∈ A.db, r.h = q.h ∧ r.p = q.p ∧ r.phase = .broken) ∧
      (∀ s' r, 0 < A.held q.h → step s (.destroy q.h) = some (s', r) → r = .code (-1)) ∧
      ∀ p o s' r, p.id = q.p.id → step s (.create p o) = some (s', r) → r = .handle none := by
  have key : ∃ r ∈ A.db, r.h = q.h ∧ r.p = q.p ∧ r.phase = .broken := by
    induction L with
    | refl => exact ⟨q, hq, rfl, rfl, hph⟩
    | @call s s' A1 A op r L ha hst ih =>
      obtain ⟨b, hb, b1, b2, b3⟩ := ih h hq
      have R := after_reach L h
      obtain ⟨I, _⟩ := reach_inv R
      have chg : ∀ (f : Sa → Sa) (a : Nat), (∀ q, (f q).h = q.h ∧ (f q).p = q.p) →
          (∀ r ∈ A.db, r.h = a → r.phase = .broken → (f r).phase = .broken) →
          ∃ r ∈ change f a A.db, r.h = q.h ∧ r.p = q.p ∧ r.phase = .broken := by
        intro f a h1 h2
        refine ⟨if b.h = a then f b else b, mem_change.mpr ⟨b, hb, rfl⟩, ?_⟩
        by_cases c : b.h = a
        · rw [if_pos c, (h1 b).1, (h1 b).2]; exact ⟨b1, b2, h2 b hb c b3⟩
        · rw [if_neg c]; exact ⟨b1, b2, b3⟩
      have same : ∀ B : Abs, B.db = A.db → ∃ r ∈ B.db, r.h = q.h ∧ r.p = q.p ∧ r.phase = .broken :=
        fun B e => ⟨b, by rw [e]; exact hb, b1, b2, b3⟩
      cases op with
      | create p o =>
        cases o with
        | none => cases r <;> exact same _ rfl
        | some o =>
          cases r with
          | code c => exact same _ rfl
          | handle x =>
            cases x with
            | none => exact same _ rfl
            | some x => exact ⟨b, List.mem_cons_of_mem _ hb, b1, b2, b3⟩
      | destroy a =>
        obtain ⟨s1, r1, k1, k2, _⟩ := sa_calls_exact_partial R ha
        rw [k1] at hst
        simp only [Option.some.injEq, Prod.mk.injEq] at hst
        obtain ⟨rfl, rfl⟩ := hst
        cases r1 with
        | handle x => exact same _ rfl
        | code c =>
          simp only [absStep]
          split
          · rename_i hc
            refine chg (fun q => { q with phase := .dying .odp }) a (fun _ => ⟨rfl, rfl⟩) ?_
            intro r hr hra hrb
            exfalso
            rcases k2 with k2 | k2
            · obtain ⟨x, hx, hxa, hxb⟩ := k2.2
              rw [uniq I.core hx hr (hxa.trans hra.symm), hrb] at hxb
              simp at hxb
            · simp [hc] at k2
          · exact same _ rfl
      | adv a ok =>
        obtain ⟨x, hx, rfl, stg, hxp⟩ := ha
        have hne : b.h ≠ x.h := fun e => by
          rw [uniq I.core hb hx e, hxp] at b3; simp at b3
        have chg' : ∀ f : Sa → Phase, ∃ r ∈ change (fun q => { q with phase := f q }) x.h A.db,
            r.h = q.h ∧ r.p = q.p ∧ r.phase = .broken := by
          intro f
          refine chg _ _ (fun _ => ⟨rfl, rfl⟩) ?_
          intro r hr hra hrb
          rw [uniq I.core hr hx hra, hxp] at hrb; simp at hrb
        have hsa := sa?_of_mem I hx
        cases stg with
        | odp =>
          cases ok with
          | true => simp only [absStep, hsa, hxp]; exact chg' (fun q => .dying (after s.sync q.p.dir))
          | false => simp only [absStep, hsa, hxp]; exact chg' (fun _ => .broken)
        | evt =>
          cases ok with
          | true => simp only [absStep, hsa, hxp]; exact chg' (fun _ => .dying .fin)
          | false => simp only [absStep, hsa, hxp]; exact chg' (fun _ => .broken)
        | fin =>
          simp only [absStep, hsa, hxp]
          exact ⟨b, List.mem_filter.mpr ⟨hb, by simpa using hne⟩, b1, b2, b3⟩
      | find id => cases r <;> exact same _ rfl
      | first => cases r <;> exact same _ rfl
      | next a => cases r <;> exact same _ rfl
      | ref a => cases r <;> exact same _ rfl
      | unref a => cases r <;> exact same _ rfl
      | select a x =>
        cases r with
        | handle x => exact same _ rfl
        | code c =>
          simp only [absStep]
          split
          · exact chg (fun q => { q with sel := some x }) a (fun _ => ⟨rfl, rfl⟩) (fun _ _ _ h => h)
          · exact same _ rfl
      | bind k a => cases r <;> exact same _ rfl
      | unbind k => cases r <;> exact same _ rfl
  refine ⟨key, ?_, ?_⟩
  · intro s' r hu hst
    obtain ⟨b, hb, b1, b2, b3⟩ := key
    have R := after_reach L h
    obtain ⟨I, _⟩ := reach_inv R
    obtain ⟨s1, r1, k1, k2, _⟩ := sa_calls_exact_partial R (op := .destroy q.h) hu
    rw [k1] at hst
    simp only [Option.some.injEq, Prod.mk.injEq] at hst
    obtain ⟨rfl, rfl⟩ := hst
    rcases k2 with k2 | k2
    · obtain ⟨x, hx, hxa, hxb⟩ := k2.2
      rw [uniq I.core hx hb (hxa.trans b1.symm), b3] at hxb
      simp at hxb
    · exact k2.1
  · intro p o s' r hid hst
    obtain ⟨b, hb, b1, b2, b3⟩ := key
    have R := after_reach L h
    obtain ⟨s1, r1, k1, k2, _⟩ := sa_calls_exact_partial R (op := .create p o) trivial
    rw [k1] at hst
    simp only [Option.some.injEq, Prod.mk.injEq] at hst
    obtain ⟨rfl, rfl⟩ := hst
    cases r1 with
    | code c => exact k2.elim
    | handle x =>
      cases x with
      | none => rfl
      | some x => exact absurd ⟨b, hb, Or.inl (by rw [b2, hid])⟩ k2.2.1

/-- C112 (a refused destruction leaks).  If ODP fails to destroy a disabled SA, the SA leaves the
database but its object is never returned to the pool, whatever happens later. -/
theorem leak_violated {n m : Nat} {s0 s : St} {A0 A : Abs} (h : Reach n m s0 A0) {a : Nat}
    (ha : a ∈ A0.stuck) (L : After m s0 A0 s A) : ¬ InPool s a := by
  have key : a ∈ A.stuck := by
    induction L with
    | refl => exact ha
    | @call s s' A1 A op r L hal hst ih =>
      have ih := ih h ha
      cases op with
      | create p o => cases o <;> cases r <;> try exact ih
                      rename_i x; cases x <;> exact ih
      | destroy b => cases r with
        | handle x => exact ih
        | code c => simp only [absStep]; split <;> exact ih
      | adv b ok =>
        obtain ⟨I, _⟩ := reach_inv (after_reach L h)
        obtain ⟨x, hx, rfl, stg, hxp⟩ := hal
        have hsa := sa?_of_mem I hx
        cases stg <;> cases ok <;> simp only [absStep, hsa, hxp] <;> try exact ih
        exact List.mem_cons_of_mem _ ih
      | find id => cases r <;> exact ih
      | first => cases r <;> exact ih
      | next b => cases r <;> exact ih
      | ref b => cases r <;> exact ih
      | unref b => cases r <;> exact ih
      | select b x => cases r with
        | handle x => exact ih
        | code c => simp only [absStep]; split <;> exact ih
      | bind k b => cases r <;> exact ih
      | unbind k => cases r <;> exact ih
  rw [sa_lifetime_partial (after_reach L h)]
  exact fun hc => hc.2.2.1 key

/-! ## C113 -/

theorem drop_bump (H : Nat → Nat) (a : Nat) : drop1 (bump H a) a = H := by
  funext x; simp only [drop1, bump]; split <;> omega

theorem drop_gain_bump (H : Nat → Nat) (a : Nat) (r : Option Nat) :
    drop1 (gain (bump H a) r) a = gain H r := by
  cases r with
  | none => exact drop_bump H a
  | some k =>
    funext x
    simp only [gain, drop1, bump]
    by_cases h1 : x = a
    · subst h1
      simp only [if_true]
      by_cases h2 : x = k
      · simp only [h2, if_true]; omega
      · simp only [h2, if_false]; omega
    · simp only [h1, if_false]

/-- What a flush makes of an SA: those of other VRFs stay; in synchronous mode the SA is removed,
otherwise it waits for ODP. -/
def flushed (sync : Dir → Bool) (vrf : Nat) (q : Sa) : Option Sa :=
  if q.p.vrf = vrf then (if sync q.p.dir then none else some { q with phase := .dying .evt }) else some q

theorem gain_le (H : Nat → Nat) (r : Option Nat) (h : Nat) : gain H r h ≤ H h + 1 := by
  cases r with
  | none => simp [gain]
  | some k => simp only [gain, bump]; split <;> omega

theorem flush_loop {n m vrf : Nat} {H : Nat → Nat} {B : Nat → Option Nat}
    {sy : Dir → Bool} (hb : ∀ h, H h + (List.range m).countP (fun k => B k == some h) + 4 < 2 ^ 32) :
    ∀ (post pre : List Sa) (s : St) (A : Abs) (fuel : Nat), Reach n m s A → A.db = pre ++ post →
    s.sync = sy → A.bnd = B →
    (∀ q ∈ post, q.p.vrf = vrf → q.phase = .active) → A.held = gain H (post.head?.map Sa.h) →
    post.length < fuel →
    ∃ s' A', flushLoop (fun _ => (true, true)) vrf fuel s (post.head?.map Sa.h) true =
        some (s', true) ∧ Reach n m s' A' ∧
      A'.db = pre ++ post.filterMap (flushed sy vrf) ∧ A'.held = H ∧ A'.bnd = B
  | [], pre, s, A, fuel, R, e, hsy, hB, _, hh, hf => by
    cases fuel with
    | zero => simp at hf
    | succ f => exact ⟨s, A, rfl, R, by simpa using e, hh, hB⟩
  | q :: post, pre, s, A, fuel, R, e, hsy, hB, hph, hh, hf => by
    cases fuel with
    | zero => simp at hf
    | succ f =>
      have hq : q ∈ A.db := by rw [e]; simp
      obtain ⟨I, hn, hm⟩ := reach_inv R
      have hp : s.par q.h = q.p := (I.core.cl q hq).1
      have hheld : A.held = bump H q.h := hh
      have hpos : 0 < A.held q.h := by rw [hheld]; simp [bump]
      have room : ∀ A2 : Abs, A2.held = bump H q.h → A2.bnd = B → Room A2 m := by
        intro A2 h1 h2 h
        have := hb h
        have h3 := gain_le H (some q.h) h
        unfold Abs.users Abs.bound
        rw [h1, h2]
        simp only [gain] at h3
        generalize (2 : Nat) ^ 32 = M at *
        omega
      have hnd := I.core.nd
      rw [e, hs, List.map_append, List.map_cons] at hnd
      have hnp : q.h ∉ pre.map Sa.h := fun h =>
        (List.nodup_append.mp hnd).2.2 _ h _ (by simp) rfl
      have hnpost : q.h ∉ post.map Sa.h := (List.nodup_cons.mp (List.nodup_append.mp hnd).2.1).1
      have hfl : ∀ q' : Sa, q'.h = q.h →
          follower q.h ((pre ++ q' :: post).map Sa.h) = post.head?.map Sa.h := by
        intro q' hq'
        rw [List.map_append, List.map_cons, hq', follower_split hnp, List.head?_map]
      -- the step to the next SA
      have nextStep : ∀ (s1 : St) (A1 : Abs), Reach n m s1 A1 → A1.held = bump H q.h → A1.bnd = B →
          s1.sync = sy →
          ((∃ pre' q', q'.h = q.h ∧ pre'.map Sa.h = pre.map Sa.h ∧ A1.db = pre' ++ q' :: post) ∨
            (A1.db = pre ++ post ∧ A1.lastDel = some (q.h, post.head?.map Sa.h))) →
          (saNext s1 q.h).2 = post.head?.map Sa.h ∧ ∃ A2, Reach n m (saNext s1 q.h).1 A2 ∧
            A2.db = A1.db ∧ A2.held = gain H (post.head?.map Sa.h) ∧ A2.bnd = B ∧
            (saNext s1 q.h).1.sync = sy := by
        intro s1 A1 R1 h1 h2 h3 h4
        have hmem : (q.h ∈ A1.hs ∨ ∃ y, A1.lastDel = some (q.h, y)) := by
          rcases h4 with ⟨pre', q', a1, a2, a3⟩ | ⟨a1, a2⟩
          · left; unfold Abs.hs; rw [a3]; simp [a1]
          · exact Or.inr ⟨_, a2⟩
        obtain ⟨s2, r2, k1, k2, R2, y2⟩ := reach_step R1 (op := .next q.h)
          ⟨room A1 h1 h2, by rw [h1]; simp [bump], hmem⟩
        have k1' : step s1 (.next q.h) = some ((saNext s1 q.h).1, .handle (saNext s1 q.h).2) := by
          simp only [step]
        rw [k1'] at k1
        simp only [Option.some.injEq, Prod.mk.injEq] at k1
        rw [← k1.2] at k2 R2
        rw [← k1.1] at R2 y2
        have hval : (saNext s1 q.h).2 = post.head?.map Sa.h := by
          simp only [RetOk] at k2
          rcases h4 with ⟨pre', q', a1, a2, a3⟩ | ⟨a1, a2⟩
          · rw [if_pos (by unfold Abs.hs; rw [a3]; simp [a1])] at k2
            rw [k2]
            unfold Abs.hs
            rw [a3, List.map_append, a2, ← List.map_append]
            exact hfl q' a1
          · have hnot : q.h ∉ A1.hs := by
              unfold Abs.hs
              rw [a1, List.map_append, List.mem_append]
              rintro (h | h)
              · exact hnp h
              · exact hnpost h
            rw [if_neg hnot, a2] at k2
            simp only [Option.some.injEq, Prod.mk.injEq, true_and] at k2
            exact k2.symm
        refine ⟨hval, _, R2, rfl, ?_, h2, by rw [y2, h3]⟩
        show drop1 (gain A1.held _) q.h = _
        rw [h1, drop_gain_bump, hval]
      simp only [List.head?_cons, Option.map_some, flushLoop, hp]
      by_cases hv : q.p.vrf = vrf
      · rw [if_pos hv]
        obtain ⟨s1, d1, d2, R1⟩ := destroy_ok_partial R e (hph q (by simp) hv) hpos
        simp only [d1, beq_self_eq_true, Bool.and_self]
        rw [hsy] at R1 d2
        by_cases c : sy q.p.dir = true
        · rw [if_pos c] at R1
          obtain ⟨k1, A2, R2, g1, g2, g3, g4⟩ := nextStep s1 _ R1 hheld hB d2 (Or.inr ⟨rfl, rfl⟩)
          rw [k1]
          obtain ⟨s', A', f1, f2, f3, f4, f5⟩ := flush_loop (vrf := vrf) hb post pre _ _ f R2 g1 g4 g3
            (fun r hr => hph r (by simp [hr])) g2 (by simp at hf; omega)
          refine ⟨s', A', f1, f2, ?_, f4, f5⟩
          rw [f3, List.filterMap_cons]; simp [flushed, hv, c]
        · rw [if_neg c] at R1
          obtain ⟨k1, A2, R2, g1, g2, g3, g4⟩ := nextStep s1 _ R1 hheld hB d2
            (Or.inl ⟨pre, { q with phase := .dying .evt }, rfl, rfl, rfl⟩)
          rw [k1]
          obtain ⟨s', A', f1, f2, f3, f4, f5⟩ := flush_loop (vrf := vrf) hb post
            (pre ++ [{ q with phase := .dying .evt }]) _ _ f R2 (by rw [g1]; simp) g4 g3
            (fun r hr => hph r (by simp [hr])) g2 (by simp at hf; omega)
          refine ⟨s', A', f1, f2, ?_, f4, f5⟩
          rw [f3, List.filterMap_cons]; simp [flushed, hv, c]
      · rw [if_neg hv]
        obtain ⟨k1, A2, R2, g1, g2, g3, g4⟩ := nextStep s A R hheld hB hsy
          (Or.inl ⟨pre, q, rfl, rfl, e⟩)
        rw [k1]
        obtain ⟨s', A', f1, f2, f3, f4, f5⟩ := flush_loop (vrf := vrf) hb post
          (pre ++ [q]) _ _ f R2 (by rw [g1, e]; simp) g4 g3
          (fun r hr => hph r (by simp [hr])) g2 (by simp at hf; omega)
        refine ⟨s', A', f1, f2, ?_, f4, f5⟩
        rw [f3, List.filterMap_cons]; simp [flushed, hv]

/-- C113.  Flushing a VRF whose SAs are all active, when ODP agrees and nobody interferes, succeeds:
exactly the SAs of that VRF are removed (synchronous mode) or disabled and waiting for ODP's
completion (otherwise), the others stay as they are and in order, and every reference taken is
released. -/
theorem flush_exact_partial {n m : Nat} {s : St} {A : Abs} (R : Reach n m s A) (vrf : Nat)
    (hph : ∀ q ∈ A.db, q.p.vrf = vrf → q.phase = .active) (hb : ∀ h, A.users m h + 4 < 2 ^ 32) :
    ∃ s' A', flush (fun _ => (true, true)) s vrf = some (s', true) ∧ Reach n m s' A' ∧
      A'.db = A.db.filterMap (flushed s.sync vrf) ∧ A'.held = A.held ∧ A'.bnd = A.bnd := by
  obtain ⟨s1, r1, e1, k1, R1, y1⟩ := reach_step R (op := .first) (fun h => by
    have := hb h
    generalize (2 : Nat) ^ 32 = M at *
    omega)
  have k1' : r1 = .handle (A.db.head?.map Sa.h) := k1
  subst k1'
  simp only [step, Option.some.injEq, Prod.mk.injEq, Ret.handle.injEq] at e1
  unfold flush
  rw [e1.1, e1.2]
  obtain ⟨I, hn, hm⟩ := reach_inv R
  have hl := db_len I.core
  unfold St.fuel at hl
  rw [List.length_map] at hl
  obtain ⟨s', A', f1, f2, f3, f4, f5⟩ := flush_loop (vrf := vrf) (H := A.held) (B := A.bnd) hb A.db [] s1 _
    (s.num + 1) R1 rfl y1 rfl hph rfl hl
  exact ⟨s', A', f1, f2, by simpa using f3, f4, f5⟩

end Verif.Sad

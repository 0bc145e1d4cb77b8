import Verif.Uma.Model
/-!
# Memory zones: specification and theorems (C40)
-/
namespace Verif.Uma

/-! ## Specification -/

/-- An object the application holds. -/
structure Obj where
  ptr : Nat
  zone : Nat
  size : Nat
deriving DecidableEq, Repr

/-- A zone as created. -/
structure Zone where
  nitems : Nat
  size : Nat
  alive : Bool
deriving DecidableEq, Repr

/-- What the application knows: the zones it created (zone id = position) and the objects it holds. -/
structure Abs where
  zones : List Zone
  live : List Obj

/-- Effect of a call, given its result. -/
def absStep (A : Abs) : Op → Res → Abs
  | .create n sz _, .zone z => if 0 ≤ z then { A with zones := A.zones ++ [⟨n, sz, true⟩] } else A
  | .destroy z ok, .code _ =>
      if ok then { A with zones := A.zones.modify z.toNat (fun q => { q with alive := false }) }
      else A
  | .alloc z _ _, .ptr p =>
      { A with live := ⟨p, z.toNat, (A.zones.getD z.toNat ⟨0, 0, false⟩).size⟩ :: A.live }
  | .free p, _ => { A with live := A.live.filter fun o => o.ptr ≠ p }
  | _, _ => A

/-- Two byte ranges have no byte in common. -/
def Apart (a n b m : Nat) : Prop := a + n ≤ b ∨ b + m ≤ a

/-- What callers and ODP may do.  ODP: a new pool has `nitems` buffers of sufficient size in memory
of their own, above address 8; an allocation yields a free buffer of the pool.  Application: free
and write only objects it holds, destroy only zones that exist, once, and none of whose objects it
still holds (and ODP then destroys them). -/
def Allowed (s : St) (A : Abs) : Op → Prop
  | .create n sz (some (bs, len)) =>
      bs.length = n ∧ sz + 8 ≤ len ∧ bs.Nodup ∧
      (∀ a ∈ bs, ∀ b ∈ bs, a ≠ b → Apart a len b len) ∧
      ∀ pid P, s.pools pid = some P → ∀ a ∈ P.all, ∀ b ∈ bs, Apart a P.len b len
  | .create _ _ none => True
  | .destroy z ok => ok = true ∧ 0 ≤ z ∧ (∃ q, A.zones[z.toNat]? = some q ∧ q.alive = true) ∧
      ∀ o ∈ A.live, o.zone ≠ z.toNat
  | .alloc z _ c => (0 ≤ z → ∀ q, A.zones[z.toNat]? = some q → q.alive = true) ∧
      ∀ a, c = some a → ∃ pid P, s.tab z.toNat = some pid ∧ s.pools pid = some P ∧ a ∈ P.free
  | .free p => ∃ o ∈ A.live, o.ptr = p
  | .write p off _ => ∃ o ∈ A.live, o.ptr = p ∧ off < o.size

/-- Every history. -/
inductive Reach : St → Abs → Prop
  | start : Reach init ⟨[], []⟩
  | call {s : St} {A : Abs} {op : Op} : Reach s A → Allowed s A op →
      Reach (step s op).1 (absStep A op (step s op).2)

/-! ## Invariant -/

structure Inv (s : St) (A : Abs) : Prop where
  num : s.num = A.zones.length
  le : s.num ≤ 32
  tabOut : ∀ z, s.num ≤ z → s.tab z = none
  tabDead : ∀ (z : Nat) q, A.zones[z]? = some q → q.alive = false → s.tab z = none
  tab : ∀ (z : Nat) q, A.zones[z]? = some q → q.alive = true → ∃ pid P, s.tab z = some pid ∧
    s.pools pid = some P ∧ q.size + 8 ≤ P.len ∧ P.all.length = q.nitems ∧ P.all.Nodup ∧
    List.Perm P.all (P.free ++ (A.live.filter fun o => o.zone = z).map fun o => o.ptr - 8)
  inj : ∀ z z' pid, s.tab z = some pid → s.tab z' = some pid → z = z'
  fresh : ∀ pid, s.fresh ≤ pid → s.pools pid = none
  tabFresh : ∀ z pid, s.tab z = some pid → pid < s.fresh
  owned : ∀ pid P, s.pools pid = some P → ∃ z, s.tab z = some pid
  apart : ∀ pid P pid' P', s.pools pid = some P → s.pools pid' = some P' →
    ∀ a ∈ P.all, ∀ b ∈ P'.all, (pid, a) ≠ (pid', b) → Apart a P.len b P'.len
  obj : ∀ o ∈ A.live, 8 ≤ o.ptr ∧ ∃ q pid, A.zones[o.zone]? = some q ∧ q.alive = true ∧
    o.size = q.size ∧ s.tab o.zone = some pid ∧ s.hdr (o.ptr - 8) = some (pid, o.ptr - 8)
  nd : (A.live.map Obj.ptr).Nodup

theorem inv_start : Inv init ⟨[], []⟩ := by
  constructor <;> intros <;> simp_all [init]

/-- The pool and place of a held object. -/
theorem obj_place {s : St} {A : Abs} (I : Inv s A) {o : Obj} (ho : o ∈ A.live) :
    ∃ pid P, s.tab o.zone = some pid ∧ s.pools pid = some P ∧ o.ptr - 8 ∈ P.all ∧
      o.ptr - 8 ∉ P.free ∧ o.size + 8 ≤ P.len ∧ s.hdr (o.ptr - 8) = some (pid, o.ptr - 8) ∧
      8 ≤ o.ptr := by
  obtain ⟨h8, q, pid, h1, h2, h3, h4, h5⟩ := I.obj o ho
  obtain ⟨pid', P, t1, t2, t3, t4, t5, t6⟩ := I.tab _ q h1 h2
  rw [h4] at t1
  simp only [Option.some.injEq] at t1
  subst t1
  have hmem : o.ptr - 8 ∈ (A.live.filter fun o' => o'.zone = o.zone).map fun o => o.ptr - 8 :=
    List.mem_map.mpr ⟨o, List.mem_filter.mpr ⟨ho, by simp⟩, rfl⟩
  refine ⟨pid, P, h4, t2, t6.symm.subset (List.mem_append_right _ hmem), ?_, by omega, h5, h8⟩
  intro hf
  have hn := t6.nodup_iff.mp t5
  exact (List.nodup_append.mp hn).2.2 _ hf _ hmem rfl

/-- Two held objects lie in different buffers. -/
theorem obj_apart {s : St} {A : Abs} (I : Inv s A) {o o' : Obj} (ho : o ∈ A.live)
    (ho' : o' ∈ A.live) (hne : o ≠ o') : Apart (o.ptr - 8) (o.size + 8) (o'.ptr - 8) (o'.size + 8) := by
  obtain ⟨pid, P, a1, a2, a3, a4, a5, a6, a7⟩ := obj_place I ho
  obtain ⟨pid', P', b1, b2, b3, b4, b5, b6, b7⟩ := obj_place I ho'
  have hp : o.ptr ≠ o'.ptr := fun h => hne (List.inj_on_of_nodup_map I.nd ho ho' h)
  have := I.apart pid P pid' P' a2 b2 _ a3 _ b3 (by
    intro h
    simp only [Prod.mk.injEq] at h
    omega)
  unfold Apart at *
  omega

theorem put_same {α : Type} (f : Nat → α) (i : Nat) (v : α) : put f i v i = v := by simp [put]

theorem put_other {α : Type} (f : Nat → α) {i x : Nat} (v : α) (h : x ≠ i) : put f i v x = f x := by
  simp [put, h]

theorem inv_create {s : St} {A : Abs} (I : Inv s A) {n sz : Nat} {ans : Option (List Nat × Nat)}
    (ha : Allowed s A (.create n sz ans)) :
    Inv (create s ans).1 (absStep A (.create n sz ans) (create s ans).2) := by
  unfold create
  by_cases hn : s.num ≥ maxPools
  · rw [if_pos hn]; exact I
  · rw [if_neg hn]
    unfold maxPools at hn
    cases ans with
    | none => exact I
    | some b =>
      obtain ⟨bs, len⟩ := b
      obtain ⟨c1, c2, c3, c4, c5⟩ := ha
      have hpos : (0 : Int) ≤ (s.num : Int) := by omega
      simp only [absStep, hpos, if_true]
      have hne : ∀ z pid, s.tab z = some pid → pid ≠ s.fresh := fun z pid h => by
        have := I.tabFresh z pid h; omega
      have hzone : ∀ z q, A.zones[z]? = some q → z < s.num := by
        intro z q h; rw [I.num]; exact (List.getElem?_eq_some_iff.mp h).1
      have hz' : ∀ z q, (A.zones ++ [⟨n, sz, true⟩])[z]? = some q →
          (z < s.num ∧ A.zones[z]? = some q) ∨ (z = s.num ∧ q = ⟨n, sz, true⟩) := by
        intro z q h
        by_cases hz : z < s.num
        · rw [List.getElem?_append_left (by rw [← I.num]; exact hz)] at h
          exact Or.inl ⟨hz, h⟩
        · rw [List.getElem?_append_right (by rw [← I.num]; omega), ← I.num] at h
          cases hd : z - s.num with
          | zero => rw [hd] at h; simp at h; exact Or.inr ⟨by omega, h.symm⟩
          | succ k => rw [hd] at h; simp at h
      constructor
      · simp [I.num]
      · show s.num + 1 ≤ 32; omega
      · intro z hz
        have hz2 : s.num + 1 ≤ z := hz
        show put s.tab s.num (some s.fresh) z = none
        rw [put_other _ _ (by omega)]
        exact I.tabOut z (by omega)
      · intro z q h hd
        rcases hz' z q h with ⟨h1, h2⟩ | ⟨h1, h2⟩
        · show put s.tab s.num (some s.fresh) z = none
          rw [put_other _ _ (by omega)]
          exact I.tabDead z q h2 hd
        · rw [h2] at hd; exact absurd hd (by simp)
      · intro z q h hal
        rcases hz' z q h with ⟨h1, h2⟩ | ⟨h1, h2⟩
        · obtain ⟨pid, P, t1, t2, t3⟩ := I.tab z q h2 hal
          refine ⟨pid, P, ?_, ?_, t3⟩
          · show put s.tab s.num (some s.fresh) z = _
            rw [put_other _ _ (by omega)]; exact t1
          · show put s.pools s.fresh _ pid = _
            rw [put_other _ _ (hne z pid t1)]; exact t2
        · subst h1; subst h2
          refine ⟨s.fresh, ⟨len, bs, bs⟩, put_same _ _ _, put_same _ _ _, c2, c1, c3, ?_⟩
          have : (A.live.filter fun o => decide (o.zone = s.num)) = [] := by
            rw [List.filter_eq_nil_iff]
            intro o ho
            obtain ⟨_, q, pid, h1, _⟩ := I.obj o ho
            have := hzone _ _ h1
            simp; omega
          rw [this]
          simp
      · intro z z' pid h h'
        simp only [put] at h h'
        by_cases e : z = s.num <;> by_cases e' : z' = s.num <;> simp only [e, e', if_true, if_false] at h h'
        · omega
        · simp only [Option.some.injEq] at h
          exact absurd h.symm (hne _ _ h')
        · simp only [Option.some.injEq] at h'
          exact absurd h'.symm (hne _ _ h)
        · exact I.inj z z' pid h h'
      · intro pid h
        have h2 : s.fresh + 1 ≤ pid := h
        show put s.pools s.fresh _ pid = none
        rw [put_other _ _ (by omega)]
        exact I.fresh pid (by omega)
      · intro z pid h
        show pid < s.fresh + 1
        simp only [put] at h
        by_cases e : z = s.num
        · simp only [e, if_true, Option.some.injEq] at h; omega
        · simp only [e, if_false] at h
          have := I.tabFresh z pid h; omega
      · intro pid P h
        simp only [put] at h
        by_cases e : pid = s.fresh
        · exact ⟨s.num, by rw [e]; exact put_same _ _ _⟩
        · simp only [e, if_false] at h
          obtain ⟨z, hz⟩ := I.owned pid P h
          refine ⟨z, ?_⟩
          have hzn : z ≠ s.num := fun hc => by
            rw [hc, I.tabOut s.num (Nat.le_refl _)] at hz; exact absurd hz (by simp)
          show put s.tab s.num (some s.fresh) z = _
          rw [put_other _ _ hzn]; exact hz
      · intro pid P pid' P' h h' a ha b hb hab
        simp only [put] at h h'
        by_cases e : pid = s.fresh <;> by_cases e' : pid' = s.fresh <;>
          simp only [e, e', if_true, if_false] at h h'
        · simp only [Option.some.injEq] at h h'
          subst h; subst h'
          exact c4 a ha b hb (fun hc => hab (by rw [e, e', hc]))
        · simp only [Option.some.injEq] at h
          subst h
          have := c5 pid' P' h' b hb a ha
          unfold Apart at *
          dsimp only
          omega
        · simp only [Option.some.injEq] at h'
          subst h'
          exact c5 pid P h a ha b hb
        · exact I.apart pid P pid' P' h h' a ha b hb hab
      · intro o ho
        obtain ⟨h8, q, pid, h1, h2, h3, h4, h5⟩ := I.obj o ho
        have := hzone _ _ h1
        refine ⟨h8, q, pid, ?_, h2, h3, ?_, h5⟩
        · rw [List.getElem?_append_left (by rw [← I.num]; exact this)]; exact h1
        · show put s.tab s.num (some s.fresh) _ = _
          rw [put_other _ _ (by omega)]; exact h4
      · exact I.nd

theorem inv_destroy {s : St} {A : Abs} (I : Inv s A) {z : Int} {ok : Bool}
    (ha : Allowed s A (.destroy z ok)) :
    Inv (destroy s z ok).1 (absStep A (.destroy z ok) (destroy s z ok).2) ∧
      (destroy s z ok).2 = .code 0 := by
  obtain ⟨rfl, h0, ⟨q, hq, hal⟩, hlive⟩ := ha
  have hlt : z.toNat < A.zones.length := (List.getElem?_eq_some_iff.mp hq).1
  have hle := I.le
  have hnum := I.num
  obtain ⟨pid, P, t1, t2, t3, t4, t5, t6⟩ := I.tab _ q hq hal
  unfold destroy maxPools
  have e1 : ¬ (z > (32 : Nat) ∨ z < 0) := by omega
  have e2 : ¬ z = (32 : Nat) := by omega
  rw [if_neg e1, if_neg e2, t1]
  simp only [if_true, absStep, and_true]
  have hgz : ∀ (k : Nat), (A.zones.modify z.toNat fun q => { q with alive := false })[k]? =
      if k = z.toNat then some { q with alive := false } else A.zones[k]? := by
    intro k
    rw [List.getElem?_modify]
    by_cases e : k = z.toNat
    · subst e; simp [hq]
    · have e' : ¬ z.toNat = k := fun h => e h.symm
      simp [e, e']
  constructor
  · simp [hnum]
  · exact hle
  · intro k hk
    show put s.tab z.toNat none k = none
    by_cases e : k = z.toNat
    · rw [e]; exact put_same _ _ _
    · rw [put_other _ _ e]; exact I.tabOut k hk
  · intro k q' hk hd
    show put s.tab z.toNat none k = none
    rw [hgz] at hk
    by_cases e : k = z.toNat
    · rw [e]; exact put_same _ _ _
    · rw [put_other _ _ e]; rw [if_neg e] at hk; exact I.tabDead k q' hk hd
  · intro k q' hk hal'
    rw [hgz] at hk
    by_cases e : k = z.toNat
    · rw [if_pos e] at hk
      simp only [Option.some.injEq] at hk
      rw [← hk] at hal'
      exact absurd hal' (by simp)
    · rw [if_neg e] at hk
      obtain ⟨pid', P', u1, u2, u3⟩ := I.tab k q' hk hal'
      refine ⟨pid', P', ?_, ?_, u3⟩
      · show put s.tab z.toNat none k = _
        rw [put_other _ _ e]; exact u1
      · show put s.pools pid none pid' = _
        rw [put_other _ _ (fun hc => e (I.inj _ _ pid (by rw [← hc]; exact u1) t1))]; exact u2
  · intro k k' pid' h h'
    simp only [put] at h h'
    by_cases e : k = z.toNat
    · simp [e] at h
    · by_cases e' : k' = z.toNat
      · simp [e'] at h'
      · simp only [e, e', if_false] at h h'; exact I.inj k k' pid' h h'
  · intro pid' h
    show put s.pools pid none pid' = none
    by_cases e : pid' = pid
    · rw [e]; exact put_same _ _ _
    · rw [put_other _ _ e]; exact I.fresh pid' h
  · intro k pid' h
    simp only [put] at h
    by_cases e : k = z.toNat
    · simp [e] at h
    · simp only [e, if_false] at h; exact I.tabFresh k pid' h
  · intro pid' P' h
    simp only [put] at h
    by_cases e : pid' = pid
    · simp [e] at h
    · simp only [e, if_false] at h
      obtain ⟨k, hk⟩ := I.owned pid' P' h
      refine ⟨k, ?_⟩
      have : k ≠ z.toNat := fun hc => e (by rw [hc, t1] at hk; simpa using hk.symm)
      show put s.tab z.toNat none k = _
      rw [put_other _ _ this]; exact hk
  · intro p1 P1 p2 P2 h1 h2
    simp only [put] at h1 h2
    by_cases e1 : p1 = pid
    · simp [e1] at h1
    · by_cases e2 : p2 = pid
      · simp [e2] at h2
      · simp only [e1, e2, if_false] at h1 h2
        exact I.apart p1 P1 p2 P2 h1 h2
  · intro o ho
    obtain ⟨h8, q', pid', h1, h2, h3, h4, h5⟩ := I.obj o ho
    have hne := hlive o ho
    refine ⟨h8, q', pid', ?_, h2, h3, ?_, h5⟩
    · rw [hgz, if_neg hne]; exact h1
    · show put s.tab z.toNat none o.zone = _
      rw [put_other _ _ hne]; exact h4
  · exact I.nd

theorem clobber_keep {h : Nat → Option (Nat × Nat)} {lo hi x : Nat} (hx : Apart x 8 lo (hi - lo))
    (hl : lo < hi) : clobber h lo hi x = h x := by
  unfold clobber
  rw [if_neg]
  unfold Apart at hx
  omega

theorem inv_write {s : St} {A : Abs} (I : Inv s A) {p off v : Nat}
    (ha : Allowed s A (.write p off v)) : Inv (write s p off v).1 A := by
  obtain ⟨o, ho, rfl, hoff⟩ := ha
  have hh : ∀ o' ∈ A.live, (write s o.ptr off v).1.hdr (o'.ptr - 8) = s.hdr (o'.ptr - 8) := by
    intro o' ho'
    show clobber s.hdr _ _ _ = _
    refine clobber_keep ?_ (by omega)
    by_cases e : o = o'
    · subst e
      have := (obj_place I ho).choose_spec.choose_spec.2.2.2.2.2.2
      unfold Apart; omega
    · have := obj_apart I ho ho' e
      have h1 := (obj_place I ho).choose_spec.choose_spec.2.2.2.2.2.2
      have h2 := (obj_place I ho').choose_spec.choose_spec.2.2.2.2.2.2
      unfold Apart at *
      omega
  exact ⟨I.num, I.le, I.tabOut, I.tabDead, I.tab, I.inj, I.fresh, I.tabFresh, I.owned, I.apart,
    fun o' ho' => by
      obtain ⟨h8, q, pid, h1, h2, h3, h4, h5⟩ := I.obj o' ho'
      exact ⟨h8, q, pid, h1, h2, h3, h4, by rw [hh o' ho']; exact h5⟩, I.nd⟩

theorem inv_free {s : St} {A : Abs} (I : Inv s A) {p : Nat} (ha : Allowed s A (.free p)) :
    Inv (free s p).1 (absStep A (.free p) (free s p).2) ∧ (free s p).2 = .done := by
  obtain ⟨o, ho, rfl⟩ := ha
  obtain ⟨pid, P, a1, a2, a3, a4, a5, a6, a7⟩ := obj_place I ho
  have hfilt : ∀ o' ∈ A.live.filter (fun o' => o'.ptr ≠ o.ptr), o' ∈ A.live ∧ o'.ptr ≠ o.ptr := by
    intro o' h
    have := List.mem_filter.mp h
    exact ⟨this.1, by simpa using this.2⟩
  unfold free
  rw [a6]
  simp only
  rw [a2]
  simp only [freeTo, absStep, and_true]
  constructor
  · exact I.num
  · exact I.le
  · exact I.tabOut
  · exact I.tabDead
  · intro z q hz hal
    obtain ⟨pid', P', t1, t2, t3, t4, t5, t6⟩ := I.tab z q hz hal
    by_cases e : z = o.zone
    · subst e
      rw [a1] at t1
      simp only [Option.some.injEq] at t1
      subst t1
      rw [a2] at t2
      simp only [Option.some.injEq] at t2
      subst t2
      refine ⟨pid, _, a1, put_same _ _ _, t3, t4, t5, ?_⟩
      show List.Perm P.all ((o.ptr - 8) :: P.free ++ _)
      refine t6.trans ?_
      rw [List.cons_append]
      refine List.Perm.trans ?_ List.perm_middle
      refine List.Perm.append_left _ ?_
      -- take `o` out of the objects of the zone
      have hnd := I.nd
      clear t6 t3 t4 t5
      have key : ∀ l : List Obj, (l.map Obj.ptr).Nodup → o ∈ l →
          List.Perm ((l.filter fun o' => decide (o'.zone = o.zone)).map fun o => o.ptr - 8)
            ((o.ptr - 8) :: ((l.filter fun o' => decide (o'.ptr ≠ o.ptr)).filter fun o' =>
              decide (o'.zone = o.zone)).map fun o => o.ptr - 8) := by
        intro l
        induction l with
        | nil => intro _ h; simp at h
        | cons c l ih =>
          intro hn hm
          rw [List.map_cons, List.nodup_cons] at hn
          by_cases ec : c = o
          · subst ec
            have hl : l.filter (fun o' => decide (o'.ptr ≠ c.ptr)) = l := by
              rw [List.filter_eq_self]
              intro x hx
              have : x.ptr ≠ c.ptr := fun h => hn.1 (h ▸ List.mem_map_of_mem hx)
              simpa using this
            rw [List.filter_cons, List.filter_cons]
            simp only [ne_eq, not_true, decide_false, decide_true, if_true, Bool.false_eq_true,
              if_false, List.map_cons]
            rw [show (l.filter fun o' => decide (¬ o'.ptr = c.ptr)) = l from hl]
          · have hm' : o ∈ l := by
              rcases List.mem_cons.mp hm with h | h
              · exact absurd h.symm ec
              · exact h
            have hcp : c.ptr ≠ o.ptr := fun h => hn.1 (h ▸ List.mem_map_of_mem hm')
            have := ih hn.2 hm'
            rw [List.filter_cons, List.filter_cons (xs := l)]
            simp only [ne_eq, hcp, not_false_iff, decide_true, if_true]
            rw [List.filter_cons]
            by_cases ez : c.zone = o.zone
            · simp only [ez, decide_true, if_true, List.map_cons]
              exact (this.cons _).trans (List.Perm.swap _ _ _)
            · simp only [ez, decide_false, Bool.false_eq_true, if_false]
              exact this
      exact key A.live hnd ho
    · have hpp : pid' ≠ pid := fun hc => e (I.inj _ _ pid (hc ▸ t1) a1)
      refine ⟨pid', P', t1, ?_, t3, t4, t5, ?_⟩
      · show put s.pools pid _ pid' = _
        rw [put_other _ _ hpp]; exact t2
      · have : (A.live.filter fun o' => decide (o'.ptr ≠ o.ptr)).filter (fun o' => decide (o'.zone = z)) =
            A.live.filter (fun o' => decide (o'.zone = z)) := by
          rw [List.filter_filter]
          apply List.filter_congr
          intro x hx
          by_cases hz : x.zone = z
          · have : x.ptr ≠ o.ptr := fun h => by
              have := List.inj_on_of_nodup_map I.nd hx ho h
              rw [this] at hz; exact e hz.symm
            simp [hz, this]
          · simp [hz]
        rw [this]; exact t6
  · exact I.inj
  · intro k hk
    show put s.pools pid _ k = none
    rw [put_other _ _ (fun hc => by rw [hc, ] at hk; rw [I.fresh pid hk] at a2; exact absurd a2 (by simp))]
    exact I.fresh k hk
  · exact I.tabFresh
  · intro k Q hk
    simp only [put] at hk
    by_cases e : k = pid
    · exact ⟨o.zone, e ▸ a1⟩
    · simp only [e, if_false] at hk; exact I.owned k Q hk
  · intro p1 P1 p2 P2 h1 h2
    have fix : ∀ k Q, put s.pools pid (some { P with free := (o.ptr - 8) :: P.free }) k = some Q →
        ∃ Q', s.pools k = some Q' ∧ Q'.all = Q.all ∧ Q'.len = Q.len := by
      intro k Q h
      simp only [put] at h
      by_cases e : k = pid
      · simp only [e, if_true, Option.some.injEq] at h
        exact ⟨P, by rw [e]; exact a2, by rw [← h], by rw [← h]⟩
      · simp only [e, if_false] at h; exact ⟨Q, h, rfl, rfl⟩
    obtain ⟨Q1, x1, x2, x3⟩ := fix p1 P1 h1
    obtain ⟨Q2, y1, y2, y3⟩ := fix p2 P2 h2
    rw [← x2, ← x3, ← y2, ← y3]
    exact I.apart p1 Q1 p2 Q2 x1 y1
  · intro o' ho'
    exact I.obj o' (hfilt o' ho').1
  · exact List.Nodup.sublist (List.Sublist.map _ List.filter_sublist) I.nd

theorem perm_erase_cons {F : List Nat} {a : Nat} (h : a ∈ F) (L : List Nat) :
    List.Perm (F ++ L) (F.erase a ++ a :: L) :=
  ((List.perm_cons_erase h).append_right L).trans (by
    rw [List.cons_append]; exact List.perm_middle.symm)

theorem inv_alloc {s : St} {A : Abs} (I : Inv s A) {z : Int} {zero : Bool} {c : Option Nat}
    (ha : Allowed s A (.alloc z zero c)) :
    Inv (alloc s z zero c).1 (absStep A (.alloc z zero c) (alloc s z zero c).2) ∧
      ((alloc s z zero c).2 = .null ∨ ∃ a pid P, c = some a ∧ 0 ≤ z ∧ s.tab z.toNat = some pid ∧
        s.pools pid = some P ∧ a ∈ P.free ∧ alloc s z zero c = allocAt s pid P zero a) := by
  unfold alloc
  by_cases hz : z < 0 ∨ z ≥ s.num
  · rw [if_pos hz]; exact ⟨I, Or.inl rfl⟩
  · rw [if_neg hz]
    have hlt : z.toNat < A.zones.length := by rw [← I.num]; omega
    obtain ⟨hal, hc⟩ := ha
    obtain ⟨pid, P, t1, t2, t3, t4, t5, t6⟩ := I.tab z.toNat _ (List.getElem?_eq_getElem hlt)
      (hal (by omega) _ (List.getElem?_eq_getElem hlt))
    rw [t1]
    simp only
    rw [t2]
    cases c with
    | none => exact ⟨I, Or.inl rfl⟩
    | some a =>
      obtain ⟨pid', P', u1, u2, u3⟩ := hc a rfl
      rw [t1] at u1
      simp only [Option.some.injEq] at u1
      subst u1
      rw [t2] at u2
      simp only [Option.some.injEq] at u2
      subst u2
      refine ⟨?_, Or.inr ⟨a, pid, P, rfl, by omega, by first | exact t1 | rfl, by first | exact t2 | rfl, u3, rfl⟩⟩
      simp only [allocFrom]
      have haall : a ∈ P.all := t6.symm.subset (List.mem_append_left _ u3)
      have hsz : (A.zones.getD z.toNat ⟨0, 0, false⟩) = A.zones[z.toNat] := by
        rw [List.getD_eq_getElem?_getD, List.getElem?_eq_getElem hlt]; rfl
      -- the buffer is apart from all held objects
      have hap : ∀ o ∈ A.live, Apart (o.ptr - 8) (o.size + 8) a P.len ∧ o.ptr - 8 ≠ a ∧ 8 ≤ o.ptr := by
        intro o ho
        obtain ⟨pid', P', a1, a2, a3, a4, a5, a6, a7⟩ := obj_place I ho
        have hne : (pid', o.ptr - 8) ≠ (pid, a) := by
          intro h
          simp only [Prod.mk.injEq] at h
          obtain ⟨h1, h2⟩ := h
          subst h1
          rw [t2] at a2
          simp only [Option.some.injEq] at a2
          subst a2
          rw [h2] at a4
          exact a4 u3
        have := I.apart pid' P' pid P a2 t2 _ a3 _ haall hne
        refine ⟨?_, ?_, a7⟩
        · unfold Apart at *; omega
        · intro h
          unfold Apart at this
          omega
      have hhdr : ∀ o ∈ A.live, (allocAt s pid P zero a).1.hdr (o.ptr - 8) = s.hdr (o.ptr - 8) := by
        intro o ho
        obtain ⟨h1, h2, h3⟩ := hap o ho
        have hb : put (clobber s.hdr a (a + 8)) a (some (pid, a)) (o.ptr - 8) = s.hdr (o.ptr - 8) := by
          rw [put_other _ _ h2]
          refine clobber_keep ?_ (by omega)
          unfold Apart at *; omega
        show (if zero then clobber _ _ _ else _) (o.ptr - 8) = _
        cases zero with
        | false => exact hb
        | true =>
          simp only [if_true]
          unfold clobber at hb ⊢
          rw [if_neg]
          · exact hb
          · unfold Apart at h1; omega
      have hown : (allocAt s pid P zero a).1.hdr a = some (pid, a) := by
        show (if zero then clobber _ _ _ else _) a = _
        cases zero with
        | false => exact put_same _ _ _
        | true =>
          simp only [if_true]
          unfold clobber
          rw [if_neg (by omega)]
          exact put_same _ _ _
      have hres : (allocAt s pid P zero a).2 = .ptr (a + 8) := rfl
      rw [hres]
      simp only [absStep, hsz]
      have fix : ∀ k Q, (allocAt s pid P zero a).1.pools k = some Q →
          ∃ Q', s.pools k = some Q' ∧ Q'.all = Q.all ∧ Q'.len = Q.len := by
        intro k Q h
        have h' : put s.pools pid (some { P with free := P.free.erase a }) k = some Q := h
        simp only [put] at h'
        by_cases e : k = pid
        · simp only [e, if_true, Option.some.injEq] at h'
          exact ⟨P, by rw [e]; exact t2, by rw [← h'], by rw [← h']⟩
        · simp only [e, if_false] at h'; exact ⟨Q, h', rfl, rfl⟩
      constructor
      · exact I.num
      · exact I.le
      · exact I.tabOut
      · exact I.tabDead
      · intro k q hk hal'
        obtain ⟨pid', P', v1, v2, v3, v4, v5, v6⟩ := I.tab k q hk hal'
        by_cases e : k = z.toNat
        · subst e
          rw [t1] at v1
          simp only [Option.some.injEq] at v1
          subst v1
          rw [t2] at v2
          simp only [Option.some.injEq] at v2
          subst v2
          refine ⟨pid, _, t1, put_same _ _ _, v3, v4, v5, ?_⟩
          show List.Perm P.all (P.free.erase a ++ _)
          rw [List.filter_cons]
          simp only [decide_true, if_true, List.map_cons, Nat.add_sub_cancel]
          exact v6.trans (perm_erase_cons u3 _)
        · refine ⟨pid', P', v1, ?_, v3, v4, v5, ?_⟩
          · show put s.pools pid _ pid' = _
            rw [put_other _ _ (fun hc => e (I.inj _ _ pid (by rw [← hc]; exact v1) t1))]; exact v2
          · rw [List.filter_cons]
            have : ¬ z.toNat = k := fun h => e h.symm
            simp only [this, decide_false, Bool.false_eq_true, if_false]
            exact v6
      · exact I.inj
      · intro k hk
        show put s.pools pid _ k = none
        rw [put_other _ _ (fun hc => by
          rw [hc] at hk; rw [I.fresh pid hk] at t2; exact absurd t2 (by simp))]
        exact I.fresh k hk
      · exact I.tabFresh
      · intro k Q hk
        obtain ⟨Q', h1, _⟩ := fix k Q hk
        exact I.owned k Q' h1
      · intro p1 P1 p2 P2 h1 h2
        obtain ⟨Q1, x1, x2, x3⟩ := fix p1 P1 h1
        obtain ⟨Q2, y1, y2, y3⟩ := fix p2 P2 h2
        rw [← x2, ← x3, ← y2, ← y3]
        exact I.apart p1 Q1 p2 Q2 x1 y1
      · intro o ho
        rcases List.mem_cons.mp ho with rfl | ho
        · refine ⟨by simp, A.zones[z.toNat], pid, List.getElem?_eq_getElem hlt,
            hal (by omega) _ (List.getElem?_eq_getElem hlt), rfl, t1, ?_⟩
          simp only [Nat.add_sub_cancel]
          exact hown
        · obtain ⟨h8, q, pid', h1, h2, h3, h4, h5⟩ := I.obj o ho
          exact ⟨h8, q, pid', h1, h2, h3, h4, by rw [hhdr o ho]; exact h5⟩
      · rw [List.map_cons, List.nodup_cons]
        refine ⟨?_, I.nd⟩
        intro h
        obtain ⟨o, ho, e⟩ := List.mem_map.mp h
        obtain ⟨h1, h2, h3⟩ := hap o ho
        have e' : o.ptr = a + 8 := e
        omega

theorem inv_step {s : St} {A : Abs} (I : Inv s A) {op : Op} (ha : Allowed s A op) :
    Inv (step s op).1 (absStep A op (step s op).2) := by
  cases op with
  | create n sz ans => exact inv_create I ha
  | destroy z ok => exact (inv_destroy I ha).1
  | alloc z zero c => exact (inv_alloc I ha).1
  | free p => exact (inv_free I ha).1
  | write p off v => exact inv_write I ha

theorem reach_inv {s : St} {A : Abs} (h : Reach s A) : Inv s A := by
  induction h with
  | start => exact inv_start
  | call _ ha ih => exact inv_step ih ha

/-! ## C40 -/

/-- C40 (separation).  At any time any two objects the application holds are apart. -/
theorem objects_apart {s : St} {A : Abs} (h : Reach s A) {o o' : Obj} (ho : o ∈ A.live)
    (ho' : o' ∈ A.live) (hne : o ≠ o') : Apart o.ptr o.size o'.ptr o'.size := by
  have I := reach_inv h
  have := obj_apart I ho ho' hne
  have h1 := (I.obj o ho).1
  have h2 := (I.obj o' ho').1
  unfold Apart at *
  omega

/-- C40 (no undefined behaviour).  No allowed call leaves defined behaviour; freeing always reaches
ODP with the right buffer, destroying an existing zone succeeds, allocating from a zone id that was
never created is refused. -/
theorem calls_defined {s : St} {A : Abs} (h : Reach s A) {op : Op} (ha : Allowed s A op) :
    (step s op).2 ≠ .undef ∧
    (∀ z ok, op = .destroy z ok → (step s op).2 = .code 0) ∧
    (∀ z zero c, op = .alloc z zero c → z < 0 ∨ (A.zones.length : Int) ≤ z →
      (step s op).2 = .null ∧ (step s op).1 = s) := by
  have I := reach_inv h
  refine ⟨?_, ?_, ?_⟩
  · cases op with
    | create n sz ans =>
      show (create s ans).2 ≠ _
      unfold create
      by_cases hn : s.num ≥ maxPools
      · rw [if_pos hn]; simp
      · rw [if_neg hn]; cases ans <;> simp
    | destroy z ok => show (destroy s z ok).2 ≠ _; rw [(inv_destroy I ha).2]; simp
    | alloc z zero c =>
      show (alloc s z zero c).2 ≠ _
      rcases (inv_alloc I ha).2 with h | ⟨a, pid, P, _, _, _, _, _, h⟩
      · rw [h]; simp
      · rw [h]; simp [allocAt]
    | free p => show (free s p).2 ≠ _; rw [(inv_free I ha).2]; simp
    | write p off v => simp [step, write]
  · rintro z ok rfl
    exact (inv_destroy I ha).2
  · rintro z zero c rfl hz
    have : z < 0 ∨ z ≥ s.num := by rw [I.num]; omega
    simp only [step, alloc, if_pos this]
    exact ⟨trivial, trivial⟩

/-- Number of free objects of a zone. -/
def freeCount (s : St) (z : Nat) : Option Nat :=
  (s.tab z).bind fun pid => (s.pools pid).map fun P => P.free.length

/-- C40 (home).  Every object returns to the zone it came from: at any time, for every existing
zone, free objects plus held objects of that zone make up exactly the objects it was created
with. -/
theorem zone_conserved {s : St} {A : Abs} (h : Reach s A) {z : Nat} {q : Zone}
    (hz : A.zones[z]? = some q) (hal : q.alive = true) :
    ∃ f, freeCount s z = some f ∧ f + (A.live.filter fun o => o.zone = z).length = q.nitems := by
  obtain ⟨pid, P, t1, t2, t3, t4, t5, t6⟩ := (reach_inv h).tab z q hz hal
  refine ⟨P.free.length, by simp [freeCount, t1, t2], ?_⟩
  rw [← t4, t6.length_eq]
  simp

/-- C40 (contents).  No call changes the bytes of an object that is held before and after it, except
writes of the application to that very object. -/
theorem contents_kept {s : St} {A : Abs} (h : Reach s A) {op : Op} (ha : Allowed s A op) {o : Obj}
    (ho : o ∈ A.live) (hw : ∀ off v, op ≠ .write o.ptr off v) {i : Nat} (hi : i < o.size) :
    (step s op).1.mem (o.ptr + i) = s.mem (o.ptr + i) := by
  have I := reach_inv h
  have h8 := (I.obj o ho).1
  cases op with
  | create n sz ans =>
    show (create s ans).1.mem _ = _
    unfold create
    by_cases hn : s.num ≥ maxPools
    · rw [if_pos hn]
    · rw [if_neg hn]; cases ans <;> rfl
  | destroy z ok =>
    show (destroy s z ok).1.mem _ = _
    unfold destroy
    split
    · rfl
    · split
      · rfl
      · split <;> rfl
  | alloc z zero c =>
    show (alloc s z zero c).1.mem _ = _
    rcases (inv_alloc I ha).2 with h | ⟨a, pid, P, _, _, t1, t2, t3, h⟩
    · have : (alloc s z zero c).1 = s := by
        unfold alloc at h ⊢
        split
        · rfl
        · rename_i hz
          rw [if_neg hz] at h
          split
          · rfl
          · rename_i pid hp
            rw [hp] at h
            simp only at h
            cases hP : s.pools pid with
            | none => rfl
            | some P =>
              rw [hP] at h
              cases c with
              | none => rfl
              | some a => simp [allocFrom, allocAt] at h
      rw [this]
    · rw [h]
      obtain ⟨pid', P', a1, a2, a3, a4, a5, a6, a7⟩ := obj_place I ho
      have haall : a ∈ P.all := by
        obtain ⟨z', hz'⟩ := I.owned pid P t2
        by_cases hd : ∃ q, A.zones[z']? = some q ∧ q.alive = true
        · obtain ⟨q, hq, hal⟩ := hd
          obtain ⟨pid2, P2, v1, v2, v3, v4, v5, v6⟩ := I.tab z' q hq hal
          rw [hz'] at v1
          simp only [Option.some.injEq] at v1
          subst v1
          rw [t2] at v2
          simp only [Option.some.injEq] at v2
          subst v2
          exact v6.symm.subset (List.mem_append_left _ t3)
        · exfalso
          have hlt : z' < A.zones.length := by
            by_contra hc
            rw [I.tabOut z' (by rw [I.num]; omega)] at hz'
            exact absurd hz' (by simp)
          cases hal : (A.zones[z']).alive with
          | true => exact hd ⟨_, List.getElem?_eq_getElem hlt, hal⟩
          | false =>
            rw [I.tabDead z' _ (List.getElem?_eq_getElem hlt) hal] at hz'
            exact absurd hz' (by simp)
      have hne : (pid', o.ptr - 8) ≠ (pid, a) := by
        intro h
        simp only [Prod.mk.injEq] at h
        obtain ⟨h1, h2⟩ := h
        subst h1
        rw [t2] at a2
        simp only [Option.some.injEq] at a2
        subst a2
        rw [h2] at a4
        exact a4 t3
      have hap := I.apart pid' P' pid P a2 t2 _ a3 _ haall hne
      have hlen : 8 ≤ P.len ∨ P.len < 8 := by omega
      show (if zero then fill _ _ _ _ else _) _ = _
      unfold Apart at hap
      obtain ⟨z', hz'⟩ := I.owned pid P t2
      have hP8 : 8 ≤ P.len := by
        by_cases hd : ∃ q, A.zones[z']? = some q ∧ q.alive = true
        · obtain ⟨q, hq, hal⟩ := hd
          obtain ⟨pid2, P2, v1, v2, v3, _⟩ := I.tab z' q hq hal
          rw [hz'] at v1
          simp only [Option.some.injEq] at v1
          subst v1
          rw [t2] at v2
          simp only [Option.some.injEq] at v2
          subst v2
          omega
        · exfalso
          have hlt : z' < A.zones.length := by
            by_contra hc
            rw [I.tabOut z' (by rw [I.num]; omega)] at hz'
            exact absurd hz' (by simp)
          cases hal : (A.zones[z']).alive with
          | true => exact hd ⟨_, List.getElem?_eq_getElem hlt, hal⟩
          | false =>
            rw [I.tabDead z' _ (List.getElem?_eq_getElem hlt) hal] at hz'
            exact absurd hz' (by simp)
      have f1 : fill s.mem a (a + 8) 255 (o.ptr + i) = s.mem (o.ptr + i) := by
        unfold fill; rw [if_neg (by omega)]
      cases zero with
      | false => exact f1
      | true =>
        simp only [if_true]
        rw [fill, if_neg (by omega)]
        exact f1
  | free p =>
    show (free s p).1.mem _ = _
    unfold free
    split
    · rfl
    · rename_i hh hx
      cases s.pools hh.1 <;> rfl
  | write p off v =>
    obtain ⟨o', ho', rfl, hoff⟩ := ha
    have hne : o' ≠ o := fun hc => hw off v (by rw [hc])
    have hap := obj_apart I ho' ho hne
    have h8' := (I.obj o' ho').1
    show put s.mem (o'.ptr + off) v (o.ptr + i) = _
    unfold Apart at hap
    rw [put_other _ _ (by omega)]

/-- C40 (fresh object).  A successful allocation yields an object apart from everything held; with
the zero flag all its bytes are zero. -/
theorem alloc_fresh {s : St} {A : Abs} (h : Reach s A) {z : Int} {zero : Bool} {c : Option Nat}
    (ha : Allowed s A (.alloc z zero c)) {p : Nat} (hp : (step s (.alloc z zero c)).2 = .ptr p) :
    ∃ q, A.zones[z.toNat]? = some q ∧ q.alive = true ∧ (∀ o ∈ A.live, Apart o.ptr o.size p q.size) ∧
      (zero = true → ∀ i < q.size, (step s (.alloc z zero c)).1.mem (p + i) = 0) := by
  have I := reach_inv h
  have hz : ¬ (z < 0 ∨ z ≥ s.num) := by
    intro hc
    simp only [step, alloc, if_pos hc] at hp
    exact absurd hp (by simp)
  have hlt : z.toNat < A.zones.length := by rw [← I.num]; omega
  have hal := ha.1 (by omega) _ (List.getElem?_eq_getElem hlt)
  have R' := Reach.call h ha
  refine ⟨A.zones[z.toNat], List.getElem?_eq_getElem hlt, hal, ?_, ?_⟩
  · intro o ho
    have hsz : (A.zones.getD z.toNat ⟨0, 0, false⟩) = A.zones[z.toNat] := by
      rw [List.getD_eq_getElem?_getD, List.getElem?_eq_getElem hlt]; rfl
    rw [hp] at R'
    simp only [absStep, hsz] at R'
    have hnd := (reach_inv R').nd
    simp only [List.map_cons, List.nodup_cons] at hnd
    refine objects_apart R' (o := o) (o' := ⟨p, z.toNat, _⟩) (by simp [ho]) (by simp) ?_
    intro hc
    apply hnd.1
    rw [hc] at ho
    exact List.mem_map.mpr ⟨_, ho, rfl⟩
  · intro hzero i hi
    subst hzero
    rcases (inv_alloc I ha).2 with hn | ⟨a, pid, P, _, _, t1, t2, t3, e⟩
    · have hp' : (alloc s z true c).2 = .ptr p := hp
      rw [hn] at hp'; exact absurd hp' (by simp)
    · have hp' : (alloc s z true c).2 = .ptr p := hp
      rw [e] at hp'
      simp only [allocAt, Res.ptr.injEq] at hp'
      show (alloc s z true c).1.mem (p + i) = 0
      rw [e, ← hp']
      obtain ⟨pid2, P2, v1, v2, v3, _⟩ := I.tab z.toNat _ (List.getElem?_eq_getElem hlt) hal
      rw [t1] at v1
      simp only [Option.some.injEq] at v1
      subst v1
      rw [t2] at v2
      simp only [Option.some.injEq] at v2
      subst v2
      show fill _ _ _ _ _ = 0
      unfold fill
      rw [if_pos (by omega)]

/-- C40 is violated for zone ids: destroying zone 32, which can never exist, is not refused but
accesses memory behind the table, from every state. -/
theorem zone_range_violated (s : St) (ok : Bool) : (destroy s 32 ok).2 = .undef := rfl

/-- C40, restricted: every other zone id out of range is refused. -/
theorem zone_range_partial {s : St} {A : Abs} (h : Reach s A) (z : Int) (ok : Bool)
    (hz : z < 0 ∨ (A.zones.length : Int) ≤ z) (h32 : z ≠ 32) :
    destroy s z ok = (s, .code (-1)) := by
  have I := reach_inv h
  unfold destroy maxPools
  by_cases h1 : z > (32 : Nat) ∨ z < 0
  · rw [if_pos h1]
  · rw [if_neg h1, if_neg (by simpa using h32)]
    rw [I.tabOut z.toNat (by rw [I.num]; omega)]

/-- C40 is violated for destroyed zones: allocating from one is not refused; ODP is called with an
invalid pool. -/
theorem zone_destroyed_violated : ∃ s A, Reach s A ∧ A.zones = [⟨1, 16, false⟩] ∧
    ∀ zero c, (step s (.alloc 0 zero c)).2 = .undef := by
  have R1 := Reach.call (op := .create 1 16 (some ([1000], 24))) .start
    ⟨rfl, by decide, by simp, by simp, by intro pid P h; simp [init] at h⟩
  have R2 := Reach.call (op := .destroy 0 true) R1
    ⟨rfl, by decide, ⟨⟨1, 16, true⟩, rfl, rfl⟩, by intro o ho; simp [step, create, init, absStep, maxPools] at ho⟩
  exact ⟨_, _, R2, rfl, fun zero c => rfl⟩

/-- Two zones, two objects, one returned: the theorems' hypotheses are met. -/
example : ∃ s A, Reach s A ∧ A.live = [⟨2008, 1, 32⟩] ∧ A.zones.length = 2 ∧ freeCount s 0 = some 2 ∧
    freeCount s 1 = some 0 := by
  have R1 := Reach.call (op := .create 2 16 (some ([1000, 1024], 24))) .start
    ⟨rfl, by decide, by decide, by unfold Apart; decide, by intro pid P h; simp [init] at h⟩
  have R2 := Reach.call (op := .create 1 32 (some ([2000], 64))) R1
    ⟨rfl, by decide, by decide, by unfold Apart; decide, by
      intro pid P h a ha b hb
      by_cases e : pid = 0
      · subst e
        have : P = ⟨24, [1000, 1024], [1000, 1024]⟩ := by
          have h' : (some ⟨24, [1000, 1024], [1000, 1024]⟩ : Option Pool) = some P := h
          simpa using h'.symm
        subst this
        simp at ha hb
        unfold Apart
        dsimp only
        omega
      · simp [step, create, init, maxPools, put, e] at h⟩
  have R3 := Reach.call (op := .alloc 0 true (some 1024)) R2
    ⟨fun _ q hq => by
      have h' : (some ⟨2, 16, true⟩ : Option Zone) = some q := hq
      simp at h'; rw [← h'], fun a ha => ⟨0, ⟨24, [1000, 1024], [1000, 1024]⟩, rfl, rfl, by
        simp at ha; rw [← ha]; simp⟩⟩
  have R4 := Reach.call (op := .alloc 1 false (some 2000)) R3
    ⟨fun _ q hq => by
      have h' : (some ⟨1, 32, true⟩ : Option Zone) = some q := hq
      simp at h'; rw [← h'], fun a ha => ⟨1, ⟨64, [2000], [2000]⟩, rfl, rfl, by
        simp at ha; rw [← ha]; simp⟩⟩
  have R5 := Reach.call (op := .write 1032 3 77) R4 ⟨⟨1032, 0, 16⟩, by
    show _ ∈ [(⟨2008, 1, 32⟩ : Obj), ⟨1032, 0, 16⟩]; simp, rfl, by decide⟩
  have R6 := Reach.call (op := .free 1032) R5 ⟨⟨1032, 0, 16⟩, by
    show _ ∈ [(⟨2008, 1, 32⟩ : Obj), ⟨1032, 0, 16⟩]; simp, rfl⟩
  exact ⟨_, _, R6, rfl, rfl, rfl, rfl⟩

end Verif.Uma

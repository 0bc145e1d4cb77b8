import Verif.Ipsec.Steps
/-! Second half of the step lemmas: unpublish, del, add; and all calls together. -/
namespace Verif.Ipsec

theorem pairwise_remove {L1 L2 : List Pol} {a : Pol} (h : (L1 ++ a :: L2).Pairwise before) :
    (L1 ++ L2).Pairwise before := by
  refine List.Pairwise.sublist ?_ h
  exact List.Sublist.append (List.Sublist.refl _) (List.sublist_cons_self _ _)

/-- Removing the element a walk stopped at. -/
theorem chain_remove {nxt nxt' : Nat → Option Nat} {l1 l2 : List Nat} {a : Nat} {h : Option Nat}
    (hc : Chain nxt h (l1 ++ a :: l2)) (hn : (l1 ++ a :: l2).Nodup)
    (h1 : ∀ x, l1.getLast? = some x → nxt' x = nxt a)
    (h2 : ∀ x ∈ l1 ++ l2, l1.getLast? ≠ some x → nxt' x = nxt x) :
    Chain nxt' (if l1 = [] then nxt a else h) (l1 ++ l2) := by
  have hd := chain_drop hc
  have hdisj := List.nodup_append.mp hn
  refine chain_splice (l2 := a :: l2) ?_ hc ?_ h1 hdisj.1
  · refine chain_congr ?_ hd.2
    intro x hx
    refine h2 x (by simp [hx]) ?_
    intro he
    exact hdisj.2.2 x (List.mem_of_getLast? he) x (by simp [hx]) rfl
  · intro x hx hl
    exact h2 x (by simp [hx]) hl

theorem split_at {p : Nat → Bool} {a : Nat} {l l1 l2 : List Nat} (e : l = l1 ++ l2) (ha : a ∈ l)
    (hp : ∀ x, p x = true ↔ x = a) (p1 : ∀ x ∈ l1, p x = false)
    (p2 : ∀ x, l2.head? = some x → p x = true) : ∃ l3, l2 = a :: l3 := by
  cases l2 with
  | nil =>
    exfalso
    rw [e, List.append_nil] at ha
    have := p1 a ha
    rw [(hp a).mpr rfl] at this
    exact absurd this (by simp)
  | cons b l3 =>
    have := (hp b).mp (p2 b rfl)
    exact ⟨l3, by rw [this]⟩

theorem inv_unpublish {s : St} {A : Abs} (I : Inv s A) {a : Nat}
    (ha : ∃ q ∈ A.db, q.h = a ∧ q.phase = .pub) :
    ∃ s', unpublish s a = some s' ∧ Inv s' (absStep A (.unpublish a) (.code 0)) ∧
      s'.num = s.num := by
  obtain ⟨q0, hq0, rfl, hph⟩ := ha
  obtain ⟨k1, k2, k3, k4, k5⟩ := I.cl q0 hq0
  obtain ⟨L, c1, c2, c3⟩ := I.lk q0.p.dir
  have hq0L : q0 ∈ L := (c3 q0).mpr ⟨hq0, hph, rfl⟩
  have hlen := lk_len I c2 c3
  have hnd := lk_nodup I c2 c3
  obtain ⟨l1, l2, e, p1, p2, p3⟩ := walk_split (prev := none)
    (p := fun x => x == q0.h) c1 hlen
  obtain ⟨l3, rfl⟩ := split_at e (List.mem_map_of_mem hq0L) (by simp) p1 p2
  obtain ⟨L1, L2', eL, e1, e2⟩ := List.map_eq_append_iff.mp e
  obtain ⟨q1, L2, rfl, e3, e4⟩ := List.map_eq_cons_iff.mp e2
  have hq1 : q1 = q0 := uniq I ((c3 q1).mp (by rw [eL]; simp)).1 hq0 e3
  subst hq1
  unfold unpublish lookupDel
  generalize hs0 : ({ s with cell := put s.cell q1.h { s.cell q1.h with sa := none } } : St) = s0
  have hs0c : ∀ x, s0.cell x = { s.cell x with
      sa := if x = q1.h then none else (s.cell x).sa } := by
    intro x
    rw [← hs0]
    by_cases e : x = q1.h
    · subst e; simp
    · simp [put_other _ _ e, e]
  have hs0lk : s0.lk = s.lk := by funext x; show (s0.cell x).nextLk = _; rw [hs0c]; rfl
  have hs0h : ∀ d, s0.head d = s.head d := by intro d; rw [← hs0]; cases d <;> rfl
  have hs0p : (s0.cell q1.h).param = q1.p := by rw [hs0c]; exact k2
  have hs0n : (s0.cell q1.h).nextLk = s.lk q1.h := by rw [hs0c]; rfl
  have hs0f : s0.fuel = s.fuel := by rw [← hs0]; rfl
  rw [hs0p, hs0lk, hs0h, hs0n, hs0f, p3]
  refine ⟨_, rfl, ?_, ?_⟩
  swap
  · show (setLk s0 _ _ _).num = _
    rw [(setLk_frame _ _ _ _).1, ← hs0]
  rw [Option.or_none]
  have hcell := setLk_cell s0 q1.p.dir l1.getLast? (s.lk q1.h)
  have hhd : ∀ d', _ := fun d' => setLk_head s0 q1.p.dir d' l1.getLast? (s.lk q1.h)
  have hfr := setLk_frame s0 q1.p.dir l1.getLast? (s.lk q1.h)
  generalize setLk s0 q1.p.dir l1.getLast? (s.lk q1.h) = s2 at hcell hhd hfr ⊢
  simp only [hs0h] at hhd
  rw [← hs0] at hfr
  have hlk : ∀ x, s2.lk x = if l1.getLast? = some x then s.lk q1.h else s.lk x := by
    intro x; show (s2.cell x).nextLk = _; rw [hcell, hs0c]; rfl
  have hlast : ∀ x, l1.getLast? = some x → x ∈ l1 := fun x hx => List.mem_of_getLast? hx
  have hfull : ∀ x, x ∈ L1 ∨ x ∈ L2 → x ∈ L := by
    intro x hx; rw [eL]; rcases hx with hx | hx <;> simp [hx]
  have hndm : ∀ x, x ∈ L1 ∨ x ∈ L2 → x.h ≠ q1.h := by
    intro x hx h
    rw [e] at hnd
    have hh := List.nodup_append.mp hnd
    rcases hx with hx | hx
    · exact hh.2.2 x.h (by rw [← e1]; exact List.mem_map_of_mem hx) q1.h (by simp) h
    · have := (List.nodup_cons.mp hh.2.1).1
      apply this
      rw [← h, ← e4]; exact List.mem_map_of_mem hx
  refine inv_change (s' := { s2 with
      active := if s2.inL.isNone && s2.outL.isNone then false else s2.active }) I
    (fun q => { q with phase := .unpub, sa := none }) q1.h A.clock
    (fun q => ⟨rfl, rfl⟩) hfr.1 hfr.2.1 hfr.2.2.1 ?_ ?_ ?_ ?_ ?_
  · intro x
    show (s2.cell x).param = _ ∧ (s2.cell x).ref = _ ∧ (s2.cell x).destroyed = _ ∧
      (s2.cell x).next = _
    rw [hcell, hs0c]; exact ⟨rfl, rfl, rfl, rfl⟩
  · intro q hq
    show (s2.cell q.h).sa = q.sa
    rw [hcell, hs0c]
    obtain ⟨r, hr, e⟩ := mem_change.mp hq
    by_cases hh : r.h = q1.h
    · rw [if_pos hh] at e; rw [← e]; simp [hh]
    · rw [if_neg hh] at e; rw [← e]; simp only [hh, if_false]; exact (I.cl r hr).2.2.1
  · intro d'
    have e9 : St.head { s2 with
      active := if s2.inL.isNone && s2.outL.isNone then false else s2.active } d' = s2.head d' := by
      cases d' <;> rfl
    by_cases hd : d' = q1.p.dir
    · subst hd
      refine ⟨L1 ++ L2, ?_, ?_, ?_⟩
      · rw [List.map_append, e1, e4]
        rw [e9, hhd]
        have := chain_remove (nxt := s.lk) (nxt' := s2.lk) (e ▸ c1) (e ▸ hnd)
          (fun x hx => by rw [hlk]; simp [hx]) (fun x hx hxl => by rw [hlk]; simp [hxl])
        have e5 : l1.getLast? = none ↔ l1 = [] := by simp
        simp only [true_and, e5]
        exact this
      · exact pairwise_remove (eL ▸ c2)
      · intro q
        rw [mem_change]
        constructor
        · intro hq
          have hq' := List.mem_append.mp hq
          have h3 := (c3 q).mp (hfull q hq')
          exact ⟨⟨q, h3.1, by simp [hndm q hq']⟩, h3.2.1, h3.2.2⟩
        · rintro ⟨⟨r, hr, er⟩, m2, m3⟩
          by_cases hh : r.h = q1.h
          · rw [if_pos hh] at er
            rw [← er] at m2
            exact absurd m2 (by simp)
          · rw [if_neg hh] at er
            subst er
            have := (c3 r).mpr ⟨hr, m2, m3⟩
            rw [eL] at this
            rcases List.mem_append.mp this with h | h
            · simp [h]
            · rcases List.mem_cons.mp h with h | h
              · exact absurd (by rw [h]) hh
              · simp [h]
    · obtain ⟨L', d1, d2, d3⟩ := I.lk d'
      refine ⟨L', ?_, d2, ?_⟩
      · rw [e9, hhd]
        simp only [hd, false_and, if_false]
        refine chain_congr ?_ d1
        intro x hx
        obtain ⟨r, hr, rfl⟩ := List.mem_map.mp hx
        obtain ⟨r1, r2, r3⟩ := (d3 r).mp hr
        show s2.lk r.h = s.lk r.h
        rw [hlk]
        have h1 : l1.getLast? ≠ some r.h := by
          intro h
          have : r.h ∈ L.map Pol.h := by rw [e]; simp [hlast _ h]
          obtain ⟨t, ht, et⟩ := List.mem_map.mp this
          have h3 := (c3 t).mp ht
          have := uniq I h3.1 r1 et
          rw [this, r3] at h3
          exact hd h3.2.2
        simp [h1]
      · intro q
        rw [d3, mem_change]
        constructor
        · rintro ⟨m1, m2, m3⟩
          have : q.h ≠ q1.h := by
            intro h
            have := uniq I m1 hq0 h
            rw [this] at m3
            exact hd m3.symm
          exact ⟨⟨q, m1, by simp [this]⟩, m2, m3⟩
        · rintro ⟨⟨r, hr, er⟩, m2, m3⟩
          by_cases hh : r.h = q1.h
          · rw [if_pos hh] at er
            rw [← er] at m2
            exact absurd m2 (by simp)
          · rw [if_neg hh] at er
            subst er
            exact ⟨hr, m2, m3⟩
  · intro q hq hp
    obtain ⟨r, hr, er⟩ := mem_change.mp hq
    by_cases hh : r.h = q1.h
    · rw [if_pos hh] at er; rw [← er] at hp; exact absurd hp (by simp)
    · rw [if_neg hh] at er; rw [← er] at hp ⊢
      exact I.sq r hr hp
  · have hact : s2.active = true := by
      rw [hfr.2.2.2]
      show s.active = true
      rw [I.ac, head_cases]
      refine ⟨q1.p.dir, ?_⟩
      rw [chain_head c1, e]
      cases l1 <;> rfl
    show (if _ then false else s2.active) = (s2.inL.isSome || s2.outL.isSome)
    rw [hact]
    cases s2.inL <;> cases s2.outL <;> rfl

/-! ### del -/

theorem follower_split {l1 l2 : List Nat} {a : Nat} (h : a ∉ l1) :
    follower a (l1 ++ a :: l2) = l2.head? := by
  induction l1 with
  | nil => simp [follower]
  | cons b l ih =>
    simp only [List.mem_cons, not_or] at h
    have hb : ¬ b = a := fun hh => h.1 hh.symm
    simp only [List.cons_append, follower, hb, if_false]
    exact ih h.2

theorem follower_next {nxt : Nat → Option Nat} {a : Nat} : ∀ {l : List Nat} {h : Option Nat},
    Chain nxt h l → a ∈ l → nxt a = follower a l
  | [], _, _, ha => by simp at ha
  | b :: l, h, hc, ha => by
    by_cases hb : b = a
    · subst hb
      simp only [follower, if_true]
      exact chain_head hc.2
    · simp only [follower, hb, if_false]
      refine follower_next hc.2 ?_
      rcases List.mem_cons.mp ha with h | h
      · exact absurd h.symm hb
      · exact h

theorem follower_mem {a k : Nat} : ∀ {l : List Nat}, follower a l = some k → k ∈ l
  | [], h => by simp [follower] at h
  | b :: l, h => by
    by_cases hb : b = a
    · simp only [follower, hb, if_true] at h
      exact List.mem_cons_of_mem _ (List.mem_of_mem_head? h)
    · simp only [follower, hb, if_false] at h
      exact List.mem_cons_of_mem _ (follower_mem h)

theorem setNx_cell (s : St) (prev v : Option Nat) (x : Nat) :
    (setNx s prev v).cell x =
      { s.cell x with next := if prev = some x then v else (s.cell x).next } := by
  cases prev with
  | none => simp [setNx]
  | some a =>
    by_cases e : x = a
    · subst e; simp [setNx]
    · have : ¬ a = x := fun h => e h.symm
      simp [setNx, put_other _ _ e, this]

theorem setNx_frame (s : St) (prev v : Option Nat) :
    (setNx s prev v).num = s.num ∧ (setNx s prev v).spList = (if prev = none then v else s.spList) ∧
      (setNx s prev v).free = s.free ∧ (setNx s prev v).active = s.active ∧
      (setNx s prev v).inL = s.inL ∧ (setNx s prev v).outL = s.outL := by
  cases prev <;> simp [setNx]

theorem drop_bump (f : Nat → Nat) (a : Nat) : drop1 (bump f a) a = f := by
  funext x; unfold drop1 bump; split <;> simp

theorem unref_num (s : St) (a : Nat) : (spUnref s a).num = s.num := by
  rw [unref_cell rfl]

theorem filter_split {l L1 L2 : List Pol} {a : Pol} (e : l = L1 ++ a :: L2)
    (hn : (l.map Pol.h).Nodup) : l.filter (fun q => q.h ≠ a.h) = L1 ++ L2 := by
  subst e
  rw [List.map_append, List.map_cons] at hn
  have hh := List.nodup_append.mp hn
  have h2 := List.nodup_cons.mp hh.2.1
  rw [List.filter_append, List.filter_cons]
  have f1 : L1.filter (fun q => q.h ≠ a.h) = L1 := by
    rw [List.filter_eq_self]
    intro q hq
    simpa using hh.2.2 q.h (List.mem_map_of_mem hq) a.h (by simp)
  have f2 : L2.filter (fun q => q.h ≠ a.h) = L2 := by
    rw [List.filter_eq_self]
    intro q hq
    have : q.h ≠ a.h := fun h => h2.1 (h ▸ List.mem_map_of_mem hq)
    simpa using this
  rw [f1, f2]; simp

theorem inv_del {s : St} {A : Abs} (I : Inv s A) {a : Nat}
    (ha : ∃ q ∈ A.db, q.h = a ∧ q.phase = .unpub) :
    ∃ s', spDel s a = some (s', 0) ∧ Inv s' (absStep A (.del a) (.code 0)) ∧ s'.num = s.num := by
  obtain ⟨q0, hq0, rfl, hph⟩ := ha
  obtain ⟨k1, k2, k3, k4, k5⟩ := I.cl q0 hq0
  have hmem : q0.h ∈ dbh A := mem_dbh.mpr ⟨q0, hq0, rfl⟩
  obtain ⟨l1, l2, e, p1, p2, p3⟩ := walk_split (prev := none)
    (p := fun x => x == q0.h) I.db (db_len I)
  obtain ⟨l3, rfl⟩ := split_at e hmem (by simp) p1 p2
  obtain ⟨L1, L2', eL, e1, e2⟩ := List.map_eq_append_iff.mp e
  obtain ⟨q1, L2, rfl, e3, e4⟩ := List.map_eq_cons_iff.mp e2
  have hq1 : q1 = q0 := uniq I (by rw [eL]; simp) hq0 e3
  subst hq1
  have hdb' : A.db.filter (fun q => q.h ≠ q1.h) = L1 ++ L2 := filter_split eL I.nd
  unfold spDel
  rw [p3]
  simp only [Option.map_some, delAt, List.head?_cons]
  refine ⟨_, rfl, ?_, ?_⟩
  swap
  · rw [unref_num]; exact (setNx_frame _ _ _).1
  rw [Option.or_none]
  have hcell := setNx_cell s l1.getLast? (s.cell q1.h).next
  have hfr := setNx_frame s l1.getLast? (s.cell q1.h).next
  generalize setNx s l1.getLast? (s.cell q1.h).next = s1 at hcell hfr ⊢
  obtain ⟨f1, f2, f3, f4, f5, f6⟩ := hfr
  have hc2 : ∀ x, (put s1.cell q1.h { s1.cell q1.h with destroyed := true } x) =
      { s.cell x with
        next := if l1.getLast? = some x then (s.cell q1.h).next else (s.cell x).next
        destroyed := if x = q1.h then true else (s.cell x).destroyed } := by
    intro x
    by_cases e : x = q1.h
    · subst e; simp [hcell]
    · simp [put_other _ _ e, e, hcell]
  -- the database's reference becomes a handle, which is then released
  have key : Inv { s1 with
        cell := put s1.cell q1.h { s1.cell q1.h with destroyed := true } }
      { A with
        db := A.db.filter (fun q => q.h ≠ q1.h)
        held := bump A.held q1.h
        lastDel := some (q1.h, follower q1.h (A.db.map Pol.h)) } := by
    rw [hdb']
    have hnd := I.nd
    rw [e] at hnd
    have hnd' := List.nodup_append.mp hnd
    have hq1l1 : q1.h ∉ l1 := fun h => hnd'.2.2 _ h _ (by simp) rfl
    have hq1l3 : q1.h ∉ l3 := (List.nodup_cons.mp hnd'.2.1).1
    have hdbh : ∀ A' : Abs, A'.db = L1 ++ L2 → dbh A' = l1 ++ l3 := by
      intro A' h; unfold dbh; rw [h, List.map_append, e1, e4]
    have hdbh0 : dbh A = l1 ++ q1.h :: l3 := e
    have hmem' : ∀ x, x ∈ l1 ++ l3 ↔ x ∈ dbh A ∧ x ≠ q1.h := by
      intro x
      rw [hdbh0]
      simp only [List.mem_append, List.mem_cons]
      constructor
      · rintro (h | h)
        · exact ⟨Or.inl h, fun hh => hq1l1 (hh ▸ h)⟩
        · exact ⟨Or.inr (Or.inr h), fun hh => hq1l3 (hh ▸ h)⟩
      · rintro ⟨h | h | h, hn⟩
        · exact Or.inl h
        · exact absurd h hn
        · exact Or.inr h
    have hsub : ∀ q ∈ L1 ++ L2, q ∈ A.db ∧ q.h ≠ q1.h := by
      intro q hq
      have := hdb' ▸ hq
      rw [List.mem_filter] at this
      exact ⟨this.1, by simpa using this.2⟩
    have hsub' : ∀ q ∈ A.db, q.h ≠ q1.h → q ∈ L1 ++ L2 := by
      intro q h1 h2
      rw [← hdb', List.mem_filter]
      exact ⟨h1, by simpa using h2⟩
    have hlast : ∀ x, l1.getLast? = some x → x ∈ l1 := fun x hx => List.mem_of_getLast? hx
    have hpos : ∀ h, 0 < bump A.held q1.h h → h = q1.h ∨ 0 < A.held h := by
      intro h; unfold bump; by_cases e : h = q1.h
      · intro _; exact Or.inl e
      · simp only [e, if_false]; exact Or.inr
    constructor
    · rw [hdbh _ rfl]
      show Chain _ s1.spList _
      rw [f2]
      have hN : l1.getLast? = none ↔ l1 = [] := by simp
      simp only [hN]
      refine chain_remove (nxt := s.nx) (hdbh0 ▸ I.db) hnd ?_ ?_
      · intro x hx
        show Cell.next (put _ _ _ x) = _
        rw [hc2]; simp [hx, St.nx]
      · intro x hx hxl
        show Cell.next (put _ _ _ x) = _
        rw [hc2]; simp [hxl, St.nx]
    · rw [hdbh _ rfl]
      rw [List.nodup_append]
      exact ⟨hnd'.1, (List.nodup_cons.mp hnd'.2.1).2, fun x hx y hy => hnd'.2.2 x hx y (by simp [hy])⟩
    · have := I.ids
      rw [eL] at this
      refine List.Nodup.sublist ?_ this
      refine List.Sublist.map _ ?_
      exact List.Sublist.append (List.Sublist.refl _) (List.sublist_cons_self _ _)
    · obtain ⟨fl, h1, h2, h3⟩ := I.fr
      refine ⟨fl, ?_, h2, ?_⟩
      · show Chain _ s1.free _
        rw [f3]
        refine chain_congr ?_ h1
        intro x hx
        have hx' := (h3 x).mp hx
        show Cell.next (put _ _ _ x) = _
        rw [hc2]
        have : l1.getLast? ≠ some x := fun h => hx'.2.1 (by rw [hdbh0]; simp [hlast _ h])
        simp [this, St.nx]
      · intro x
        rw [hdbh _ rfl, hmem', h3]
        show _ ↔ x < s1.num ∧ _ ∧ bump A.held q1.h x = 0
        rw [f1]
        by_cases ex : x = q1.h
        · subst ex; simp [hmem, bump]
        · simp [ex, bump]
    · intro q hq
      obtain ⟨m1, m2⟩ := hsub q hq
      obtain ⟨j1, j2, j3, j4, j5⟩ := I.cl q m1
      refine ⟨?_, ?_, ?_, ?_, j5⟩
      · show q.h < s1.num; rw [f1]; exact j1
      · show Cell.param (put _ _ _ q.h) = _; rw [hc2]; exact j2
      · show Cell.sa (put _ _ _ q.h) = _; rw [hc2]; exact j3
      · show Cell.destroyed (put _ _ _ q.h) = _; rw [hc2]; simp [m2, j4]
    · intro x hx
      show x < s1.num ∧ Cell.ref (put _ _ _ x) = bump A.held q1.h x + own _ x ∧
        bump A.held q1.h x + own _ x < 2 ^ 32
      rw [f1, hc2]
      unfold own
      rw [hdbh _ rfl] at hx ⊢
      rw [hmem'] at hx
      simp only [hmem']
      by_cases ex : x = q1.h
      · subst ex
        obtain ⟨r1, r2, r3⟩ := I.rf q1.h (Or.inl hmem)
        unfold own at r2 r3
        simp only [hmem, if_true] at r2 r3
        simp [bump]
        exact ⟨r1, r2, r3⟩
      · obtain ⟨r1, r2, r3⟩ := I.rf x (by
          rcases hx with hx | hx
          · exact Or.inl hx.1
          · rcases hpos x hx with h | h
            · exact absurd h ex
            · exact Or.inr h)
        unfold own at r2 r3
        simp only [ex, ne_eq, not_false_iff, and_true, bump, if_false]
        exact ⟨r1, r2, r3⟩
    · intro x hx
      show Cell.param (put _ _ _ x) = A.par x ∧ (Cell.destroyed (put _ _ _ x) = true ↔ _)
      rw [hc2, hdbh _ rfl, hmem']
      by_cases ex : x = q1.h
      · subst ex
        simp [k2, k5]
      · rcases hpos x hx with h | h
        · exact absurd h ex
        · have := I.inf x h
          simp only [ex, if_false, ne_eq, not_false_iff, and_true]
          exact this
    · intro d
      obtain ⟨L, c1, c2, c3⟩ := I.lk d
      refine ⟨L, ?_, c2, ?_⟩
      · have t1 : St.lk { s1 with
            cell := put s1.cell q1.h { s1.cell q1.h with destroyed := true } } = s.lk := by
          funext x; show Cell.nextLk (put _ _ _ x) = _; rw [hc2]; rfl
        have t2 : St.head { s1 with
            cell := put s1.cell q1.h { s1.cell q1.h with destroyed := true } } d = s.head d := by
          cases d
          · exact f5
          · exact f6
        rw [t1, t2]; exact c1
      · intro q
        rw [c3]
        constructor
        · rintro ⟨m1, m2, m3⟩
          refine ⟨hsub' q m1 ?_, m2, m3⟩
          intro h
          have := uniq I m1 hq0 h
          rw [this, hph] at m2
          exact absurd m2 (by simp)
        · rintro ⟨m1, m2, m3⟩
          exact ⟨(hsub q m1).1, m2, m3⟩
    · intro q hq hp
      exact I.sq q (hsub q hq).1 hp
    · intro x y ex hn hh
      simp only [Option.some.injEq, Prod.mk.injEq] at ex
      obtain ⟨rfl, rfl⟩ := ex
      constructor
      · show Cell.next (put _ _ _ q1.h) = _
        rw [hc2]
        have : l1.getLast? ≠ some q1.h := fun h => hq1l1 (hlast _ h)
        simp only [this, if_false]
        exact follower_next I.db hmem
      · intro k hk
        rw [hdbh _ rfl]
        have : follower q1.h (dbh A) = some k := hk
        rw [hdbh0, follower_split hq1l1] at this
        rw [List.mem_append]
        exact Or.inr (List.mem_of_mem_head? this)
    · show s1.active = (s1.inL.isSome || s1.outL.isSome)
      rw [f4, f5, f6]; exact I.ac
  have := inv_unref key (a := q1.h) (by simp [bump])
  simp only [drop_bump] at this
  exact this

/-! ### add -/

theorem find_map (A : Abs) (s : St) (I : Inv s A) (id : Nat) :
    findById s id = some ((A.db.find? fun q => q.p.id = id).map Pol.h) := by
  unfold findById
  rw [walk_find I.db (db_len I)]
  unfold dbh
  rw [List.find?_map]
  congr 2
  have hcongr : ∀ l : List Pol, (∀ q ∈ l, (s.cell q.h).param = q.p) →
      l.find? ((fun a => (s.cell a).param.id == id) ∘ Pol.h) = l.find? fun q => decide (q.p.id = id) := by
    intro l
    induction l with
    | nil => intro _; rfl
    | cons q l ih =>
      intro h
      rw [List.find?_cons, List.find?_cons, ih (fun r hr => h r (by simp [hr]))]
      have : ((fun a => (s.cell a).param.id == id) ∘ Pol.h) q = decide (q.p.id = id) := by
        simp only [Function.comp, h q (by simp)]
        exact beq_eq_decide _ _
      rw [this]
  exact hcongr _ (fun q hq => (I.cl q hq).2.1)

theorem addOk_iff (p : Param) : addOk p = true ↔ Acceptable p := by
  unfold addOk Acceptable
  simp [and_assoc]

theorem inv_add {s : St} {A : Abs} (I : Inv s A) (p : Param) :
    ∃ s' r, spAdd s p = some (s', r) ∧ RetOk s.num A (.add p) (.handle r) ∧
      Inv s' (absStep A (.add p) (.handle r)) ∧ s'.num = s.num := by
  unfold spAdd
  rw [find_map A s I]
  dsimp only
  by_cases hok : (addOk p && ((A.db.find? fun q => q.p.id = p.id).map Pol.h).isNone) = true
  · rw [if_pos hok]
    rw [Bool.and_eq_true] at hok
    obtain ⟨hok1, hok2⟩ := hok
    have hacc := (addOk_iff p).mp hok1
    have hid : ∀ q ∈ A.db, q.p.id ≠ p.id := by
      intro q hq h
      simp at hok2
      exact hok2 q hq h
    obtain ⟨fl, h1, h2, h3⟩ := I.fr
    cases fl with
    | nil =>
      have hf : s.free = none := h1
      have e1 : spAlloc s = (s, none) := by unfold spAlloc; rw [hf]
      rw [e1]
      refine ⟨s, none, rfl, ?_, I, rfl⟩
      refine Or.inr (Or.inr ?_)
      intro h hh
      by_cases hm : h ∈ dbh A
      · exact Or.inl (mem_dbh.mp hm)
      · refine Or.inr ?_
        by_contra h0
        have : h ∈ ([] : List Nat) := (h3 h).mpr ⟨hh, hm, by omega⟩
        simp at this
    | cons a fl =>
      have hf : s.free = some a := h1.1
      obtain ⟨ha1, ha2, ha3⟩ := (h3 a).mp (by simp)
      have e1 : spAlloc s = ({ s with
          cell := put s.cell a { s.cell a with ref := 1 }
          free := s.nx a }, some a) := by unfold spAlloc; rw [hf]; rfl
      rw [e1]
      simp only [addNew, put_same, put_put, spRef]
      refine ⟨_, some a, rfl, ?_, ?_, rfl⟩
      · refine ⟨hacc, hid, ha1, ?_, ha3⟩
        intro q hq h
        exact ha2 (mem_dbh.mpr ⟨q, hq, h⟩)
      · have hr : (1 + 1) % 2 ^ 32 = 2 := by decide
        rw [hr]
        clear hr
        simp only [absStep]
        have hcell : ∀ x, x ≠ a → ∀ c, put s.cell a c x = s.cell x := fun x hx c => put_other _ _ hx
        generalize hA' : ({ A with
            db := ⟨a, p, none, .fresh, 0⟩ :: A.db
            held := bump A.held a
            par := fun x => if x = a then p else A.par x } : Abs) = A'
        have d1 : A'.db = ⟨a, p, none, .fresh, 0⟩ :: A.db := by rw [← hA']
        have d2 : ∀ x, A'.held x = if x = a then 1 else A.held x := by
          intro x; rw [← hA']; simp only [bump]
          by_cases ex : x = a
          · subst ex; simp [ha3]
          · simp [ex]
        have d3 : ∀ x, A'.par x = if x = a then p else A.par x := by intro x; rw [← hA']
        have d4 : A'.clock = A.clock := by rw [← hA']
        have d5 : A'.lastDel = A.lastDel := by rw [← hA']
        have d6 : dbh A' = a :: dbh A := by unfold dbh; rw [d1]; rfl
        have hne : ∀ x ∈ dbh A, x ≠ a := fun x hx h => ha2 (h ▸ hx)
        have hnep : ∀ q ∈ A.db, q.h ≠ a := fun q hq => hne _ (mem_dbh.mpr ⟨q, hq, rfl⟩)
        constructor
        · rw [d6]
          refine ⟨rfl, ?_⟩
          simp only [St.nx, put_same]
          refine chain_congr ?_ I.db
          intro x hx
          show Cell.next (put _ _ _ x) = _
          rw [hcell x (hne x hx)]; rfl
        · rw [d6, List.nodup_cons]; exact ⟨ha2, I.nd⟩
        · rw [d1, List.map_cons, List.nodup_cons]
          refine ⟨?_, I.ids⟩
          intro h
          obtain ⟨q, hq, e⟩ := List.mem_map.mp h
          exact hid q hq e
        · refine ⟨fl, ?_, (List.nodup_cons.mp h2).2, ?_⟩
          · refine chain_congr ?_ h1.2
            intro x hx
            have : x ≠ a := fun h => (List.nodup_cons.mp h2).1 (h ▸ hx)
            show Cell.next (put _ _ _ x) = _
            rw [hcell x this]; rfl
          · intro x
            rw [d6, d2]
            by_cases ex : x = a
            · subst ex
              simp [(List.nodup_cons.mp h2).1]
            · have := h3 x
              simp only [List.mem_cons, ex, false_or] at this ⊢
              rw [this]; simp
        · intro q hq
          rw [d1] at hq
          rcases List.mem_cons.mp hq with rfl | hq
          · simp [ha1, d3]
          · have hn := hnep q hq
            obtain ⟨j1, j2, j3, j4, j5⟩ := I.cl q hq
            refine ⟨j1, ?_, ?_, ?_, ?_⟩
            · show Cell.param (put _ _ _ q.h) = _; rw [hcell _ hn]; exact j2
            · show Cell.sa (put _ _ _ q.h) = _; rw [hcell _ hn]; exact j3
            · show Cell.destroyed (put _ _ _ q.h) = _; rw [hcell _ hn]; exact j4
            · rw [d3, if_neg hn]; exact j5
        · intro x hx
          unfold own
          rw [d6, d2] at *
          by_cases ex : x = a
          · subst ex
            simp [ha1]
          · rw [if_neg ex] at hx ⊢
            have hx' : x ∈ dbh A ∨ 0 < A.held x := by
              rcases hx with hx | hx
              · rcases List.mem_cons.mp hx with h | h
                · exact absurd h ex
                · exact Or.inl h
              · exact Or.inr hx
            obtain ⟨r1, r2, r3⟩ := I.rf x hx'
            unfold own at r2 r3
            have hm : x ∈ a :: dbh A ↔ x ∈ dbh A := by simp [ex]
            simp only [hm]
            refine ⟨r1, ?_, r3⟩
            show Cell.ref (put _ _ _ x) = _
            rw [hcell x ex]; exact r2
        · intro x hx
          rw [d6, d3]
          rw [d2] at hx
          by_cases ex : x = a
          · subst ex; simp
          · rw [if_neg ex] at hx ⊢
            show Cell.param (put _ _ _ x) = _ ∧ (Cell.destroyed (put _ _ _ x) = true ↔ _)
            rw [hcell x ex]
            have := I.inf x hx
            simp only [List.mem_cons, ex, false_or]
            exact this
        · intro d
          obtain ⟨L, c1, c2, c3⟩ := I.lk d
          refine ⟨L, ?_, c2, ?_⟩
          · have t2 : ∀ c : Nat → Cell, St.head ⟨c, s.num, some a, s.outL, s.inL, s.nx a, s.active⟩ d =
                s.head d := by
              intro c; cases d <;> rfl
            rw [t2]
            refine chain_congr ?_ c1
            intro x hx
            obtain ⟨r, hr, rfl⟩ := List.mem_map.mp hx
            show Cell.nextLk (put _ _ _ r.h) = _
            rw [hcell _ (hnep r ((c3 r).mp hr).1)]; rfl
          · intro q
            rw [c3, d1]
            constructor
            · rintro ⟨m1, m2, m3⟩; exact ⟨by simp [m1], m2, m3⟩
            · rintro ⟨m1, m2, m3⟩
              rcases List.mem_cons.mp m1 with h | h
              · rw [h] at m2; exact absurd m2 (by simp)
              · exact ⟨h, m2, m3⟩
        · intro q hq hp
          rw [d4]
          rw [d1] at hq
          rcases List.mem_cons.mp hq with h | h
          · rw [h] at hp; exact absurd hp (by simp)
          · exact I.sq q h hp
        · intro x y ex hn hh
          rw [d6] at hn ⊢
          rw [d5] at ex
          rw [d2] at hh
          have hxa : x ≠ a := fun h => hn (by simp [h])
          rw [if_neg hxa] at hh
          obtain ⟨l1, l2⟩ := I.ld x y ex (fun h => hn (by simp [h])) hh
          refine ⟨?_, fun k hk => List.mem_cons_of_mem _ (l2 k hk)⟩
          show Cell.next (put _ _ _ x) = _
          rw [hcell x hxa]; exact l1
        · exact I.ac
  · rw [if_neg hok]
    refine ⟨s, none, rfl, ?_, I, rfl⟩
    rw [Bool.and_eq_true, not_and_or] at hok
    rcases hok with h | h
    · exact Or.inl (fun hc => h ((addOk_iff p).mpr hc))
    · refine Or.inr (Or.inl ?_)
      simp at h
      exact h

/-! ### All calls -/

theorem spRef_num (s : St) (r : Option Nat) : (spRef s r).num = s.num := by
  cases r <;> rfl

theorem inv_step {s : St} {A : Abs} (I : Inv s A) {op : Op} (h : Allowed A op) :
    ∃ s' r, step s op = some (s', r) ∧ RetOk s.num A op r ∧ Inv s' (absStep A op r) ∧
      s'.num = s.num := by
  cases op with
  | add p =>
    obtain ⟨s', r, h1, h2, h3, h4⟩ := inv_add I p
    exact ⟨s', .handle r, by simp only [step, h1, Option.map_some], h2, h3, h4⟩
  | publish a =>
    obtain ⟨s', h1, h2, h3⟩ := inv_publish I h
    exact ⟨s', .code 0, by simp only [step, h1, Option.map_some], trivial, h2, h3⟩
  | unpublish a =>
    obtain ⟨s', h1, h2, h3⟩ := inv_unpublish I h
    exact ⟨s', .code 0, by simp only [step, h1, Option.map_some], rfl, h2, h3⟩
  | del a =>
    obtain ⟨s', h1, h2, h3⟩ := inv_del I h
    exact ⟨s', .code 0, by simp only [step, h1, Option.map_some, destroyRet, if_true], rfl, h2, h3⟩
  | find id =>
    refine ⟨spRef s ((A.db.find? fun q : Pol => decide (q.p.id = id)).map Pol.h),
      .handle ((A.db.find? fun q : Pol => decide (q.p.id = id)).map Pol.h),
      by simp only [step, spFind, find_map A s I, Option.map_some], rfl, ?_, spRef_num _ _⟩
    refine inv_ref_opt I ?_ h
    intro a ha
    cases hf : A.db.find? (fun q => decide (q.p.id = id)) with
    | none => rw [hf] at ha; simp at ha
    | some q =>
      rw [hf] at ha
      simp at ha
      exact mem_dbh.mpr ⟨q, List.mem_of_find?_eq_some hf, ha⟩
  | first =>
    have hh : s.spList = A.db.head?.map Pol.h := by
      rw [chain_head I.db]; unfold dbh; rw [List.head?_map]
    refine ⟨_, _, rfl, ?_, ?_, spRef_num _ _⟩
    · show Ret.handle s.spList = _
      rw [hh]
    · refine inv_ref_opt I ?_ h
      intro a ha
      have : (dbh A).head? = some a := by rw [← chain_head I.db]; exact ha
      exact List.mem_of_mem_head? this
  | next a =>
    obtain ⟨hb, hpos, hin⟩ := h
    have hnext : (∀ k, (s.cell a).next = some k → k ∈ dbh A) ∧
        RetOk s.num A (.next a) (.handle (s.cell a).next) := by
      by_cases hm : a ∈ dbh A
      · have e : (s.cell a).next = follower a (dbh A) := follower_next I.db hm
        refine ⟨fun k hk => follower_mem (e ▸ hk), ?_⟩
        simp only [RetOk]
        rw [if_pos (mem_dbh.mp hm)]
        exact e
      · rcases hin with hin | ⟨y, hy⟩
        · exact absurd (mem_dbh.mpr hin) hm
        · obtain ⟨t1, t2⟩ := I.ld a y hy hm hpos
          have t1' : (s.cell a).next = y := t1
          refine ⟨fun k hk => t2 k (t1' ▸ hk), ?_⟩
          simp only [RetOk]
          rw [if_neg (fun hc => hm (mem_dbh.mpr hc)), t1']
          exact hy
    refine ⟨spUnref (spRef s (s.cell a).next) a, .handle (s.cell a).next,
      by simp only [step, spNext], hnext.2, ?_, ?_⟩
    · have I1 := inv_ref_opt I hnext.1 hb
      have hA : absStep A (.next a) (.handle (s.cell a).next) =
          { A with held := drop1 (gain A.held (s.cell a).next) a } := rfl
      rw [hA]
      refine inv_unref (a := a) I1 ?_
      show 0 < gain A.held (s.cell a).next a
      cases (s.cell a).next with
      | none => exact hpos
      | some k => simp only [gain, bump]; split <;> omega
    · rw [unref_num, spRef_num]
  | ref a =>
    have hA : absStep A (.ref a) (.code 0) = { A with held := bump A.held a } := rfl
    refine ⟨spRef s (some a), .code 0, rfl, trivial, ?_, spRef_num _ _⟩
    rw [hA]
    exact inv_ref I (Or.inr h.1) h.2
  | unref a =>
    have hA : absStep A (.unref a) (.code 0) = { A with held := drop1 A.held a } := rfl
    refine ⟨spUnref s a, .code 0, rfl, trivial, ?_, unref_num _ _⟩
    rw [hA]
    exact inv_unref I h
  | bind a sa d v =>
    exact ⟨_, _, rfl, trivial, (inv_bind I h.2).1, (inv_bind I h.2).2⟩

end Verif.Ipsec

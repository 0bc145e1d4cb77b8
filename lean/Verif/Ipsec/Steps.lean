import Verif.Ipsec.Inv
/-! Every call preserves the invariant and returns what the specification says. -/
namespace Verif.Ipsec

theorem mem_change {f : Pol → Pol} {h : Nat} {l : List Pol} {q : Pol} :
    q ∈ change f h l ↔ ∃ r ∈ l, (if r.h = h then f r else r) = q := by
  simp [change]

theorem change_map {β : Type} {f : Pol → Pol} {h : Nat} {l : List Pol} {g : Pol → β}
    (hg : ∀ q, g (f q) = g q) : (change f h l).map g = l.map g := by
  unfold change
  rw [List.map_map]
  apply List.map_congr_left
  intro q _
  simp only [Function.comp]
  split
  · exact hg q
  · rfl

theorem inv_change {s s' : St} {A : Abs} (I : Inv s A) (f : Pol → Pol) (h clock' : Nat)
    (hf : ∀ q, (f q).h = q.h ∧ (f q).p = q.p)
    (e1 : s'.num = s.num) (e2 : s'.spList = s.spList) (e3 : s'.free = s.free)
    (hc : ∀ x, (s'.cell x).param = (s.cell x).param ∧ (s'.cell x).ref = (s.cell x).ref ∧
      (s'.cell x).destroyed = (s.cell x).destroyed ∧ (s'.cell x).next = (s.cell x).next)
    (hsa : ∀ q ∈ change f h A.db, (s'.cell q.h).sa = q.sa)
    (hlk : ∀ d, ∃ L : List Pol, Chain s'.lk (s'.head d) (L.map Pol.h) ∧ L.Pairwise before ∧
      ∀ q, q ∈ L ↔ q ∈ change f h A.db ∧ q.phase = .pub ∧ q.p.dir = d)
    (hsq : ∀ q ∈ change f h A.db, q.phase = .pub → q.seq < clock')
    (hac : s'.active = (s'.inL.isSome || s'.outL.isSome)) :
    Inv s' { A with db := change f h A.db, clock := clock' } := by
  have hdb : dbh { A with db := change f h A.db, clock := clock' } = dbh A := by
    unfold dbh; exact change_map (fun q => (hf q).1)
  have hown : ∀ x, own { A with db := change f h A.db, clock := clock' } x = own A x := by
    intro x; unfold own; rw [hdb]
  have hnx : s'.nx = s.nx := by funext x; exact (hc x).2.2.2
  constructor
  · rw [hdb, hnx, e2]; exact I.db
  · rw [hdb]; exact I.nd
  · show ((change f h A.db).map _).Nodup
    rw [change_map (fun q => by rw [(hf q).2])]; exact I.ids
  · obtain ⟨fl, h1, h2, h3⟩ := I.fr
    refine ⟨fl, by rw [hnx, e3]; exact h1, h2, ?_⟩
    intro x; rw [h3, hdb, e1]
  · intro q hq
    have hsaq := hsa q hq
    obtain ⟨r, hr, e⟩ := mem_change.mp hq
    obtain ⟨k1, k2, k3, k4, k5⟩ := I.cl r hr
    have hqh : q.h = r.h ∧ q.p = r.p := by
      rw [← e]; split
      · exact hf r
      · exact ⟨rfl, rfl⟩
    rw [hqh.1] at hsaq ⊢
    rw [hqh.2]
    exact ⟨by rw [e1]; exact k1, by rw [(hc _).1]; exact k2, hsaq, by rw [(hc _).2.2.1]; exact k4, k5⟩
  · intro x hx
    rw [hdb] at hx
    rw [hown, e1, (hc x).2.1]
    exact I.rf x hx
  · intro x hx
    rw [hdb, (hc x).1, (hc x).2.2.1]
    exact I.inf x hx
  · exact hlk
  · exact hsq
  · intro x y e hn hh
    rw [hdb] at hn
    rw [hnx, hdb]
    exact I.ld x y e hn hh
  · exact hac

/-! ### bind -/

theorem inv_bind {s : St} {A : Abs} (I : Inv s A) {a sa v : Nat} {d : Dir}
    (ha : ∃ q ∈ A.db, q.h = a) :
    Inv (spBind s a sa d v).1 (absStep A (.bind a sa d v) (.code (spBind s a sa d v).2)) ∧
      (spBind s a sa d v).1.num = s.num := by
  obtain ⟨q0, hq0, rfl⟩ := ha
  obtain ⟨k1, k2, k3, k4, k5⟩ := I.cl q0 hq0
  have hA : ∀ r, absStep A (.bind q0.h sa d v) r = if bindable (A.par q0.h) d v then
      { A with db := change (fun q => { q with sa := some sa }) q0.h A.db } else A := fun r => by
    cases r <;> rfl
  rw [hA, k5]
  unfold spBind bindable
  rw [k2]
  by_cases h1 : q0.p.dir = d
  · by_cases h2 : q0.p.vrf = v
    · by_cases h3 : q0.p.dir = .inb
      · simp only [h1, h2, ne_eq, not_true, if_false]
        have : d = .inb := by rw [← h1]; exact h3
        subst this
        simp only [if_true, reduceCtorEq, false_and, if_false]
        exact ⟨I, trivial⟩
      · have h4 : q0.p.dir = .outb := by
          cases hh : q0.p.dir
          · exact absurd hh h3
          · rfl
        have h5 : d = .outb := by rw [← h1]; exact h4
        simp only [h1, h2, ne_eq, not_true, if_false, h5, reduceCtorEq, true_and, if_true]
        have hcell : ∀ x, (put s.cell q0.h { s.cell q0.h with sa := some sa } x) =
            { s.cell x with sa := if x = q0.h then some sa else (s.cell x).sa } := by
          intro x
          by_cases e : x = q0.h
          · subst e; simp
          · simp [put_other _ _ e, e]
        refine ⟨inv_change I (fun q => { q with sa := some sa }) q0.h A.clock
          (fun q => ⟨rfl, rfl⟩) rfl rfl rfl ?_ ?_ ?_ ?_ I.ac, trivial⟩
        · intro x
          show Cell.param (put _ _ _ x) = _ ∧ Cell.ref (put _ _ _ x) = _ ∧
            Cell.destroyed (put _ _ _ x) = _ ∧ Cell.next (put _ _ _ x) = _
          rw [hcell]; exact ⟨rfl, rfl, rfl, rfl⟩
        · intro q hq
          show Cell.sa (put _ _ _ q.h) = _
          rw [hcell]
          obtain ⟨r, hr, e⟩ := mem_change.mp hq
          by_cases hh : r.h = q0.h
          · rw [if_pos hh] at e; rw [← e]; simp [hh]
          · rw [if_neg hh] at e; rw [← e]; simp only [hh, if_false]; exact (I.cl r hr).2.2.1
        · intro d'
          obtain ⟨L, l1, l2, l3⟩ := I.lk d'
          refine ⟨change (fun q => { q with sa := some sa }) q0.h L, ?_, ?_, ?_⟩
          · have e1 : (change (fun q => { q with sa := some sa }) q0.h L).map Pol.h = L.map Pol.h :=
              change_map (fun _ => rfl)
            rw [e1]
            have e2 : St.lk { s with cell := put s.cell q0.h { s.cell q0.h with sa := some sa } } =
                s.lk := by
              funext x; show Cell.nextLk (put _ _ _ x) = _; rw [hcell]; rfl
            rw [e2]
            cases d' <;> exact l1
          · unfold change
            rw [List.pairwise_map]
            refine l2.imp ?_
            intro x y hxy
            unfold before at hxy ⊢
            by_cases hx : x.h = q0.h <;> by_cases hy : y.h = q0.h <;> simpa [hx, hy] using hxy
          · intro q
            rw [mem_change, mem_change]
            constructor
            · rintro ⟨r, hr, e⟩
              obtain ⟨m1, m2, m3⟩ := (l3 r).mp hr
              refine ⟨⟨r, m1, e⟩, ?_, ?_⟩
              · rw [← e]; split <;> exact m2
              · rw [← e]; split <;> exact m3
            · rintro ⟨⟨r, hr, e⟩, m2, m3⟩
              refine ⟨r, (l3 r).mpr ⟨hr, ?_, ?_⟩, e⟩
              · rw [← e] at m2; split at m2 <;> exact m2
              · rw [← e] at m3; split at m3 <;> exact m3
        · intro q hq hph
          obtain ⟨r, hr, e⟩ := mem_change.mp hq
          rw [← e] at hph ⊢
          by_cases hh : r.h = q0.h
          · simp only [hh, if_true] at hph ⊢; exact I.sq r hr hph
          · simp only [hh, if_false] at hph ⊢; exact I.sq r hr hph
    · simp only [h1, ne_eq, not_true, if_false, h2, not_false_iff, if_true, and_false]
      exact ⟨I, trivial⟩
  · simp only [ne_eq, h1, not_false_iff, if_true]
    have : ¬ (q0.p.dir = .outb ∧ d = .outb ∧ q0.p.vrf = v) := by
      rintro ⟨x, y, _⟩; exact h1 (x.trans y.symm)
    simp only [this, if_false]
    exact ⟨I, trivial⟩

/-! ### publish -/

theorem setLk_cell (s : St) (d : Dir) (prev v : Option Nat) (x : Nat) :
    (setLk s d prev v).cell x =
      { s.cell x with nextLk := if prev = some x then v else (s.cell x).nextLk } := by
  cases prev with
  | none => cases d <;> simp [setLk]
  | some a =>
    by_cases e : x = a
    · subst e; simp [setLk]
    · have : ¬ a = x := fun h => e h.symm
      simp [setLk, put_other _ _ e, this]

theorem setLk_frame (s : St) (d : Dir) (prev v : Option Nat) :
    (setLk s d prev v).num = s.num ∧ (setLk s d prev v).spList = s.spList ∧
      (setLk s d prev v).free = s.free ∧ (setLk s d prev v).active = s.active := by
  cases prev <;> cases d <;> simp [setLk]

theorem setLk_head (s : St) (d d' : Dir) (prev v : Option Nat) :
    (setLk s d prev v).head d' = if d' = d ∧ prev = none then v else s.head d' := by
  cases prev <;> cases d <;> cases d' <;> simp [setLk, St.head]

theorem head_cases (s : St) : (s.inL.isSome || s.outL.isSome) = true ↔
    ∃ d, (s.head d).isSome = true := by
  constructor
  · intro h
    rcases Bool.or_eq_true_iff.mp h with h | h
    · exact ⟨.inb, h⟩
    · exact ⟨.outb, h⟩
  · rintro ⟨d, h⟩
    cases d
    · simp [St.head] at h; simp [h]
    · simp [St.head] at h; simp [h]

theorem inv_publish {s : St} {A : Abs} (I : Inv s A) {a : Nat}
    (ha : ∃ q ∈ A.db, q.h = a ∧ q.phase = .fresh) :
    ∃ s', publish s a = some s' ∧ Inv s' (absStep A (.publish a) (.code 0)) ∧ s'.num = s.num := by
  obtain ⟨q0, hq0, rfl, hph⟩ := ha
  obtain ⟨k1, k2, k3, k4, k5⟩ := I.cl q0 hq0
  obtain ⟨L, c1, c2, c3⟩ := I.lk q0.p.dir
  have hq0L : q0.h ∉ L.map Pol.h := by
    intro h
    obtain ⟨r, hr, e⟩ := List.mem_map.mp h
    have := (c3 r).mp hr
    have h2 := uniq I this.1 hq0 e
    rw [h2, hph] at this
    exact absurd this.2.1 (by simp)
  have hlen := lk_len I c2 c3
  have hnd := lk_nodup I c2 c3
  obtain ⟨l1, l2, e, p1, p2, p3⟩ := walk_split (prev := none)
    (p := fun x => decide ((s.cell x).param.prio ≥ (s.cell q0.h).param.prio)) c1 hlen
  obtain ⟨L1, L2, eL, e1, e2⟩ := List.map_eq_append_iff.mp e
  unfold publish spInsert
  rw [k2] at p1 p2 p3 ⊢
  rw [p3]
  refine ⟨_, rfl, ?_, ?_⟩
  swap
  · exact (setLk_frame _ _ _ _).1
  generalize hs1 : ({ s with cell := put s.cell q0.h { s.cell q0.h with nextLk := l2.head? } } : St) = s1
  have hs1c : ∀ x, s1.cell x = { s.cell x with
      nextLk := if x = q0.h then l2.head? else (s.cell x).nextLk } := by
    intro x
    rw [← hs1]
    by_cases e : x = q0.h
    · subst e; simp
    · simp [put_other _ _ e, e]
  have hs1h : ∀ d, s1.head d = s.head d := by intro d; rw [← hs1]; cases d <;> rfl
  have hcell := setLk_cell s1 q0.p.dir (l1.getLast?.or none) (some q0.h)
  rw [Option.or_none] at hcell
  dsimp only
  rw [Option.or_none]
  generalize hs2 : setLk s1 q0.p.dir l1.getLast? (some q0.h) = s2
  have hfr := setLk_frame s1 q0.p.dir l1.getLast? (some q0.h)
  have hhd := setLk_head s1 q0.p.dir
  have hhd : ∀ d', s2.head d' = if d' = q0.p.dir ∧ l1.getLast? = none then some q0.h else s.head d' := by
    intro d'; rw [← hs2, hhd, hs1h]
  rw [hs2] at hcell hfr
  have hl1mem : ∀ x ∈ l1, x ≠ q0.h := by
    intro x hx h; apply hq0L; rw [e, ← h]; simp [hx]
  have hl2mem : ∀ x ∈ l2, x ≠ q0.h := by
    intro x hx h; apply hq0L; rw [e, ← h]; simp [hx]
  have hndl1 : l1.Nodup := (List.nodup_append.mp (e ▸ hnd)).1
  have hdisj : ∀ x ∈ l1, ∀ y ∈ l2, x ≠ y := (List.nodup_append.mp (e ▸ hnd)).2.2
  have hlast : ∀ x, l1.getLast? = some x → x ∈ l1 := fun x hx => List.mem_of_getLast? hx
  have hlk : ∀ x, s2.lk x = if l1.getLast? = some x then some q0.h else
      if x = q0.h then l2.head? else s.lk x := by
    intro x; show (s2.cell x).nextLk = _; rw [hcell, hs1c]; rfl
  refine inv_change (s' := { s2 with active := true }) I
    (fun q => { q with phase := .pub, seq := A.clock }) q0.h (A.clock + 1)
    (fun q => ⟨rfl, rfl⟩) (by rw [← hs1] at hfr; exact hfr.1) (by rw [← hs1] at hfr; exact hfr.2.1)
    (by rw [← hs1] at hfr; exact hfr.2.2.1) ?_ ?_ ?_ ?_ ?_
  · intro x
    show (s2.cell x).param = _ ∧ (s2.cell x).ref = _ ∧ (s2.cell x).destroyed = _ ∧
      (s2.cell x).next = _
    rw [hcell, hs1c]; exact ⟨rfl, rfl, rfl, rfl⟩
  · intro q hq
    show (s2.cell q.h).sa = q.sa
    rw [hcell, hs1c]
    obtain ⟨r, hr, e⟩ := mem_change.mp hq
    by_cases hh : r.h = q0.h
    · rw [if_pos hh] at e; rw [← e]; exact (I.cl r hr).2.2.1
    · rw [if_neg hh] at e; rw [← e]; exact (I.cl r hr).2.2.1
  · intro d'
    by_cases hd : d' = q0.p.dir
    · subst hd
      refine ⟨L1 ++ { q0 with phase := .pub, seq := A.clock } :: L2, ?_, ?_, ?_⟩
      · rw [List.map_append, List.map_cons, e1, e2]
        have hm : Chain s2.lk (some q0.h) (q0.h :: l2) := by
          refine ⟨rfl, ?_⟩
          have e3 : s2.lk q0.h = l2.head? := by
            rw [hlk]
            have : l1.getLast? ≠ some q0.h := fun h => hl1mem _ (hlast _ h) rfl
            simp [this]
          rw [e3]
          refine chain_congr ?_ (chain_drop (l1 := l1) (e ▸ c1))
          intro x hx
          rw [hlk]
          have h1 : l1.getLast? ≠ some x := fun h => hdisj _ (hlast _ h) _ hx rfl
          simp [h1, hl2mem x hx]
        have := chain_splice (nxt := s.lk) (nxt' := s2.lk) hm (l1 := l1) (l2 := l2) (e ▸ c1)
          (fun x hx hxl => by rw [hlk]; simp [hxl, hl1mem x hx])
          (fun x hx => by rw [hlk]; simp [hx]) hndl1
        have e4 : St.head { s2 with active := true } q0.p.dir = s2.head q0.p.dir := by
          cases q0.p.dir <;> rfl
        rw [e4, hhd]
        have e5 : l1.getLast? = none ↔ l1 = [] := by simp
        simp only [true_and, e5]
        exact this
      · rw [eL] at c2
        have hpw := List.pairwise_append.mp c2
        rw [List.pairwise_append]
        refine ⟨hpw.1, ?_, ?_⟩
        · rw [List.pairwise_cons]
          refine ⟨?_, hpw.2.1⟩
          intro b hb
          have hbL : b ∈ L := by rw [eL]; simp [hb]
          have hb3 := (c3 b).mp hbL
          have hbseq := I.sq b hb3.1 hb3.2.1
          have hge : q0.p.prio ≤ b.p.prio := by
            cases L2 with
            | nil => simp at hb
            | cons c L2 =>
              have hc := p2 c.h (by rw [← e2]; rfl)
              have hcL : c ∈ L := by rw [eL]; simp
              have hcp := (I.cl c ((c3 c).mp hcL).1).2.1
              rw [hcp] at hc
              have hc' : q0.p.prio ≤ c.p.prio := by simpa using hc
              rcases List.mem_cons.mp hb with rfl | hb'
              · exact hc'
              · have := (List.pairwise_cons.mp hpw.2.1).1 b hb'
                unfold before at this; omega
          unfold before
          simp only
          omega
        · intro x hx y hy
          rcases List.mem_cons.mp hy with rfl | hy
          · have hxL : x ∈ L := by rw [eL]; simp [hx]
            have hxp := (I.cl x ((c3 x).mp hxL).1).2.1
            have := p1 x.h (by rw [← e1]; exact List.mem_map_of_mem hx)
            rw [hxp] at this
            unfold before; simp only
            have : ¬ q0.p.prio ≤ x.p.prio := by simpa using this
            omega
          · exact hpw.2.2 x hx y hy
      · intro q
        rw [mem_change]
        constructor
        · intro hq
          rcases List.mem_append.mp hq with hq | hq
          · have h3 := (c3 q).mp (by rw [eL]; simp [hq])
            have : q.h ≠ q0.h := hl1mem _ (by rw [← e1]; exact List.mem_map_of_mem hq)
            exact ⟨⟨q, h3.1, by simp [this]⟩, h3.2.1, h3.2.2⟩
          · rcases List.mem_cons.mp hq with rfl | hq
            · exact ⟨⟨q0, hq0, by simp⟩, rfl, rfl⟩
            · have h3 := (c3 q).mp (by rw [eL]; simp [hq])
              have : q.h ≠ q0.h := hl2mem _ (by rw [← e2]; exact List.mem_map_of_mem hq)
              exact ⟨⟨q, h3.1, by simp [this]⟩, h3.2.1, h3.2.2⟩
        · rintro ⟨⟨r, hr, er⟩, m2, m3⟩
          by_cases hh : r.h = q0.h
          · rw [if_pos hh] at er
            have := uniq I hr hq0 hh
            subst this
            rw [← er]; simp
          · rw [if_neg hh] at er
            subst er
            have := (c3 r).mpr ⟨hr, m2, m3⟩
            rw [eL] at this
            rcases List.mem_append.mp this with h | h
            · simp [h]
            · simp [h]
    · obtain ⟨L', d1, d2, d3⟩ := I.lk d'
      refine ⟨L', ?_, d2, ?_⟩
      · have e4 : St.head { s2 with active := true } d' = s2.head d' := by
          cases d' <;> rfl
        rw [e4, hhd]
        simp only [hd, false_and, if_false]
        refine chain_congr ?_ d1
        intro x hx
        obtain ⟨r, hr, rfl⟩ := List.mem_map.mp hx
        obtain ⟨r1, r2, r3⟩ := (d3 r).mp hr
        show s2.lk r.h = s.lk r.h
        rw [hlk]
        have h1 : l1.getLast? ≠ some r.h := by
          intro h
          have : r.h ∈ L.map Pol.h := by rw [e]; simp [hlast _ h]
          obtain ⟨t, ht, et⟩ := List.mem_map.mp this
          have h3 := (c3 t).mp ht
          have := uniq I h3.1 r1 et
          rw [this, r3] at h3
          exact hd h3.2.2
        have h2 : r.h ≠ q0.h := by
          intro h
          have := uniq I r1 hq0 h
          rw [this] at r3
          exact hd r3.symm
        simp [h1, h2]
      · intro q
        rw [d3, mem_change]
        constructor
        · rintro ⟨m1, m2, m3⟩
          have : q.h ≠ q0.h := by
            intro h
            have := uniq I m1 hq0 h
            rw [this] at m3
            exact hd m3.symm
          exact ⟨⟨q, m1, by simp [this]⟩, m2, m3⟩
        · rintro ⟨⟨r, hr, er⟩, m2, m3⟩
          by_cases hh : r.h = q0.h
          · rw [if_pos hh] at er
            have := uniq I hr hq0 hh
            subst this
            rw [← er] at m3
            exact absurd m3.symm hd
          · rw [if_neg hh] at er
            subst er
            exact ⟨hr, m2, m3⟩
  · intro q hq hp
    obtain ⟨r, hr, er⟩ := mem_change.mp hq
    by_cases hh : r.h = q0.h
    · rw [if_pos hh] at er; rw [← er]; simp
    · rw [if_neg hh] at er; rw [← er] at hp ⊢
      have := I.sq r hr hp; omega
  · show true = (s2.inL.isSome || s2.outL.isSome)
    symm
    rw [head_cases]
    refine ⟨q0.p.dir, ?_⟩
    rw [hhd]
    by_cases h : l1 = []
    · simp [h]
    · have h1 : s.head q0.p.dir = l1.head? := by
        rw [chain_head c1, e]
        cases l1 with
        | nil => exact absurd rfl h
        | cons _ _ => rfl
      have h2 : ¬ (l1.getLast? = none) := by simpa using h
      simp only [h2, and_false, if_false, h1]
      cases l1 with
      | nil => exact absurd rfl h
      | cons _ _ => rfl

end Verif.Ipsec

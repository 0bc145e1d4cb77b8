import Verif.Sock.Step
/-! # Every event keeps the invariant (2) -/
namespace Verif.Sock

section
variable {n : Nat} {s : S} {op : List Nat} {own : Nat → Own}

/-- Shorthand. -/
def Keeps (n : Nat) (s : S) (op : List Nat) (own : Nat → Own) : Prop := ∃ own', Inv n s op own' ∧ Tight s own' none ∧ Next own own'

theorem Inv.keeps (h : Inv n s op own) (ht : Tight s own none) : Keeps n s op own := ⟨own, h, ht, Next.refl _⟩

theorem Inv.closeDeq (h : Inv n s op own) (ht : Tight s own none) (k : Nat) : Keeps n (step s (.closeDeq k)).2 op own := by
  unfold step
  dsimp only
  split
  · split
    · rename_i sp r hq
      have hi : own sp = .incomp k := (h.mem (.incomp k) rfl sp).1 (by show sp ∈ (s.so k).incomp; rw [hq]; exact List.mem_cons_self)
      obtain ⟨_, u1, u2, u3, u4, u5⟩ := h.used (i := sp) (by rw [hi]; exact (fun c => by cases c)) (by rw [hi]; exact (fun c => by cases c))
      have e : (s.upd k fun o => { o with incomp := r, incqlen := o.incqlen - 1 }) = s.upd k fun o => { o with incomp := o.incomp.erase sp, incqlen := o.incqlen - 1 } := by
        apply upd_congr
        rw [hq]; simp
      rw [e]
      refine ⟨setOwn own sp .aborting, ?_, ?_, Next.set (notlost hi) (fun c => by cases c) (fun j c => by cases c)⟩
      · refine h.leave (f := fun o => { o with incomp := o.incomp.erase sp, incqlen := o.incqlen - 1 })
          (g := fun o => { o with sqInc := false, head := none }) (tk := s.taken) (ab := sp :: s.aborting)
          (.inr ⟨hi, fun _ => ⟨rfl, rfl, rfl, rfl⟩⟩)
          (fun _ => ⟨rfl, rfl, rfl, rfl, rfl, rfl, rfl, rfl, rfl⟩) (.inr (.inr ⟨rfl, rfl, rfl⟩)) (fun _ => ⟨rfl, rfl, rfl, rfl, rfl, rfl, rfl, rfl, rfl⟩) ?_
        refine ⟨?_, rfl, ?_, rfl⟩
        · show (s.so sp).count = 0; rw [u1, hi]; rfl
        · show (s.so sp).sqComp = false; rw [u4, hi]; rfl
      · intro j hj hx
        have e : j ≠ sp := fun c => by rw [c, setOwn_same] at hj; cases hj
        rw [setOwn_ne _ e] at hj
        have := ht j hj hx
        dsimp only
        rw [upd_ne _ _ e, upd_so]
        split
        · rename_i q; rw [q] at this; exact this
        · exact this
    · split
      · rename_i sp r hq
        have hi : own sp = .comp k := (h.mem (.comp k) rfl sp).1 (by show sp ∈ (s.so k).comp; rw [hq]; exact List.mem_cons_self)
        obtain ⟨_, u1, u2, u3, u4, u5⟩ := h.used (i := sp) (by rw [hi]; exact (fun c => by cases c)) (by rw [hi]; exact (fun c => by cases c))
        have e : (s.upd k fun o => { o with comp := r, qlen := o.qlen - 1 }) = s.upd k fun o => { o with comp := o.comp.erase sp, qlen := o.qlen - 1 } := by
          apply upd_congr
          rw [hq]; simp
        rw [e]
        refine ⟨setOwn own sp .aborting, ?_, ?_, Next.set (notlost hi) (fun c => by cases c) (fun j c => by cases c)⟩
        · refine h.leave (f := fun o => { o with comp := o.comp.erase sp, qlen := o.qlen - 1 })
            (g := fun o => { o with sqComp := false, head := none }) (tk := s.taken) (ab := sp :: s.aborting)
            (.inl ⟨hi, fun _ => ⟨rfl, rfl, rfl, rfl⟩⟩)
            (fun _ => ⟨rfl, rfl, rfl, rfl, rfl, rfl, rfl, rfl, rfl⟩) (.inr (.inr ⟨rfl, rfl, rfl⟩)) (fun _ => ⟨rfl, rfl, rfl, rfl, rfl, rfl, rfl, rfl, rfl⟩) ?_
          refine ⟨?_, rfl, rfl, ?_⟩
          · show (s.so sp).count = 0; rw [u1, hi]; rfl
          · show (s.so sp).sqInc = false; rw [u5, hi]; rfl
        · intro j hj hx
          have e : j ≠ sp := fun c => by rw [c, setOwn_same] at hj; cases hj
          rw [setOwn_ne _ e] at hj
          have := ht j hj hx
          dsimp only
          rw [upd_ne _ _ e, upd_so]
          split
          · rename_i q; rw [q] at this; exact this
          · exact this
      · exact h.keeps ht
  · exact h.keeps ht

theorem Inv.abort (h : Inv n s op own) (ht : Tight s own none) (i : Nat) (hm : i ∈ s.aborting) :
    Keeps n (Verif.Sock.soabort { s with aborting := s.aborting.erase i } i) op own := by
  have hi : own i = .aborting := (h.mem .aborting rfl i).1 hm
  obtain ⟨⟨p, hp, r, hx⟩, u1, u2, u3, u4, u5⟩ := h.used (i := i) (by rw [hi]; exact (fun c => by cases c)) (by rw [hi]; exact (fun c => by cases c))
  rw [hi] at hx u1 u2 u3 u4 u5
  rw [if_neg (fun c => by cases c)] at hx
  have h1 : Inv n { s with aborting := s.aborting.erase i } op (setOwn own i .loose) := by
    apply h.move hi (fun c => by cases c) (fun c => by cases c) (fun c => by cases c)
    · intro j
      by_cases e : j = i
      · rw [e, setOwn_same]
        refine good_of (fun c => by cases c) (fun c => by cases c) ⟨⟨p, hp, r, ?_⟩, u1, u2, u3, u4, u5⟩
        rw [if_neg (fun c => by cases c)]
        exact ⟨hx.1, hx.2.1, hx.2.2.1, fun c => absurd rfl c⟩
      · rw [setOwn_ne _ e]; exact h.good j
    · intro _; rfl
    · intro c; cases c
    · intro v va vb
      cases v <;> first | exact absurd rfl va | rfl
    · intro j; exact ⟨h.ql j, h.il j⟩
    · exact h.ok
  have h2 : Tight { s with aborting := s.aborting.erase i } (setOwn own i .loose) (some i) := by
    intro j hj hx
    have e : j ≠ i := fun c => hx (by rw [c])
    rw [setOwn_ne _ e] at hj
    exact ht j hj (fun c => by cases c)
  obtain ⟨own', a1, a2, a3, a4, a5⟩ := h1.soabort (setOwn_same _ _) (hx.2.2.2 (fun c => by cases c)).1 h2
  refine ⟨own', a1, a2, Next.trans (Next.set (i := i) (w := .loose) (notlost hi) (fun c => by cases c) (fun j c => by cases c)) (Next.of a3 (.inr ⟨notlost (setOwn_same _ _), a5⟩))⟩

theorem Inv.closeEnd (h : Inv n s op own) (ht : Tight s own none) {i : Nat} (hi : i ∈ op) (hc : (s.so i).pc = 2)
    (hq : (s.so i).accepting = false ∨ (s.so i).incomp = [] ∧ (s.so i).comp = []) :
    Keeps n (Verif.Sock.closeEnd s i) (op.erase i) own := by
  obtain ⟨hu, p, hp, r, g⟩ := h.user hi
  obtain ⟨_, u1, u2, u3, u4, u5⟩ := h.used (i := i) (by rw [hu]; exact (fun c => by cases c)) (by rw [hu]; exact (fun c => by cases c))
  rw [hu] at u1 u2 u3 u4 u5
  simp only [cnt] at u1
  have hq' : (s.so i).comp = [] ∧ (s.so i).incomp = [] := by
    rcases hq with q | q
    · exact g.2.2.2 q
    · exact ⟨q.2, q.1⟩
  have hdead : p.tcp = true → p.dropped = true ∨ p.tw = true ∨ (s.so i).proto = true := g.2.2.1 hc
  have e : Verif.Sock.closeEnd s i = sofree (s.upd i fun o => { o with count := o.count - 1, nofd := true }) i := by
    unfold Verif.Sock.closeEnd
    dsimp only
    rw [upd_same, if_neg (by rw [u1]; exact Nat.one_ne_zero), upd_upd, upd_same, if_pos (by simp [u1])]
  rw [e]
  have hso : ∀ j, (s.upd i fun o => { o with count := o.count - 1, nofd := true }).so j =
      if j = i then { s.so i with count := (s.so i).count - 1, nofd := true } else s.so j := fun j => rfl
  generalize (s.upd i fun o => { o with count := o.count - 1, nofd := true }).so = so' at hso
  have e2 : (s.upd i fun o => { o with count := o.count - 1, nofd := true }) = { s with so := so' } := by
    unfold S.upd; congr 1; funext j; rw [hso]
  rw [e2]
  have hcc : ∀ j, (so' j).comp = (s.so j).comp := by
    intro j; rw [hso]; split
    · rename_i q; rw [q]
    · rfl
  have hnn : ∀ j, (so' j).incomp = (s.so j).incomp := by
    intro j; rw [hso]; split
    · rename_i q; rw [q]
    · rfl
  have h1 : Inv n { s with so := so' } (op.erase i) (setOwn own i .loose) := by
    apply h.move hu (fun c => by cases c) (fun c => by cases c) (fun c => by cases c)
    · intro j
      show Good (so' j) _
      rw [hso]
      by_cases e : j = i
      · rw [if_pos e, e, setOwn_same]
        refine good_of (fun c => by cases c) (fun c => by cases c) ⟨⟨p, hp, r, ?_⟩, by simp [u1, cnt], rfl, u3, u4, u5⟩
        rw [if_neg (fun c => by cases c)]
        refine ⟨fun c t => ?_, hq'.1, hq'.2, fun c => absurd rfl c⟩
        rcases hdead t with q | q | q
        · exact q
        · rw [r.2.2 q] at c; cases c
        · obtain ⟨_, _, q⟩ := r.2.1 q
          rcases q with q | q
          · rw [q] at c; cases c
          · rw [r.2.2 q] at c; cases c
      · rw [if_neg e, setOwn_ne _ e]; exact h.good j
    · intro _; rfl
    · intro c; cases c
    · intro v va vb
      cases v with
      | comp j => exact hcc j
      | incomp j => exact hnn j
      | user => exact absurd rfl va
      | _ => rfl
    · intro j
      show (so' j).qlen = (so' j).comp.length ∧ (so' j).incqlen = (so' j).incomp.length
      rw [hcc, hnn, hso]
      split
      · rename_i q; rw [q]; exact ⟨h.ql i, h.il i⟩
      · exact ⟨h.ql j, h.il j⟩
    · exact h.ok
  have h2 : Tight { s with so := so' } (setOwn own i .loose) (some i) := by
    intro j hj hx
    have e : j ≠ i := fun c => hx (by rw [c])
    rw [setOwn_ne _ e] at hj
    show (so' j).proto = true
    rw [hso, if_neg e]
    exact ht j hj (fun c => by cases c)
  obtain ⟨own', a1, a2, a3, a4, a5⟩ := h1.free_loose (setOwn_same _ _) h2 (by
    intro q hq hpr ht
    change (so' i).pcb = some q at hq
    change (so' i).proto = false at hpr
    rw [hso, if_pos rfl] at hq hpr
    change (s.so i).pcb = some q at hq
    change (s.so i).proto = false at hpr
    rw [hp] at hq; cases hq
    rcases hdead ht with q | q | q
    · exact .inl q
    · exact .inr q
    · rw [hpr] at q; cases q)
  exact ⟨own', a1, a2, Next.trans (Next.set (i := i) (w := .loose) (notlost hu) (fun c => by cases c) (fun j c => by cases c)) (Next.of a3 (.inr ⟨notlost (setOwn_same _ _), a5⟩))⟩

/-- `ofp_sofree` of a connection still in the incomplete queue. -/
theorem sofree_inc {i k : Nat} (h : Inv n s op own) (hi : own i = .incomp k) :
    sofree s i = sofree ((s.upd k fun o => { o with incomp := o.incomp.erase i, incqlen := o.incqlen - 1 }).upd i
      fun o => { o with sqInc := false, head := none }) i := by
  obtain ⟨⟨p, hp, r, hx⟩, u1, u2, u3, u4, u5⟩ := h.used (i := i) (by rw [hi]; exact (fun c => by cases c)) (by rw [hi]; exact (fun c => by cases c))
  rw [hi] at hx u1 u2 u3 u4 u5
  rw [if_neg (fun c => by cases c)] at hx
  have hki := (h.head_user (.inr hi)).2.2
  have hpr := (hx.2.2.2 (fun c => by cases c)).1
  have e1 : hasRefs (s.so i) = false := by simp [hasRefs, u1, u2, u4, hpr, cnt, nf, isComp]
  generalize hs : ((s.upd k fun o => { o with incomp := o.incomp.erase i, incqlen := o.incqlen - 1 }).upd i
      fun o => { o with sqInc := false, head := none }) = s'
  have es : s'.so i = { s.so i with sqInc := false, head := none } := by
    rw [← hs, upd_same, upd_ne _ _ (Ne.symm hki)]
  have e2 : hasRefs (s'.so i) = false := by rw [es]; exact e1
  unfold sofree
  rw [e1, e2]
  simp only [if_neg Bool.false_ne_true]
  have e3 : dequeue s i = s' := by unfold dequeue; rw [u3]; exact hs
  have e4 : dequeue s' i = s' := by
    unfold dequeue
    have : (s'.so i).head = none := by rw [es]
    rw [this]
  rw [e3, e4]

theorem Inv.newconn (h : Inv n s op own) (ht : Tight s own none) (k : Nat) (attach bound : Bool)
    (hp : pcbIs s k (fun p => p.alive && p.phase = .listen) = true) (hnf : ∀ j i, own j ≠ .fresh i) :
    Keeps n (Verif.Sock.newconn s k attach bound).2 op own := by
  obtain ⟨p, hp, hl⟩ := pcbIs_some hp
  simp only [Pcb.alive, Bool.and_eq_true, Bool.not_eq_true', decide_eq_true_eq] at hl
  obtain ⟨o1, o2⟩ := h.of_pcb (i := k) (by rw [hp]; exact (fun c => by cases c))
  obtain ⟨⟨q, hq, r, hx⟩, u1, u2, u3, u4, u5⟩ := h.used o1 o2
  rw [hp] at hq; cases hq
  have hu : own k = .user := by
    by_cases c : own k = .user
    · exact c
    · rw [if_neg c] at hx
      have := hx.1 hl.2 hl.1.1.1
      rw [hl.1.2] at this; cases this
  rw [if_pos hu] at hx
  have ha : (s.so k).accepting = true := hx.1.2 hl.2
  unfold Verif.Sock.newconn
  split
  · exact h.keeps ht
  · unfold soalloc
    cases hf : s.free with
    | nil => exact h.keeps ht
    | cons i r =>
      have hi : own i = .free := (h.mem .free rfl i).1 (by show i ∈ s.free; rw [hf]; exact List.mem_cons_self)
      have hki : k ≠ i := fun c => by rw [c, hi] at hu; cases hu
      dsimp only
      cases attach with
      | false =>
        rw [if_pos (by rfl)]
        refine ⟨own, ?_, ?_, Next.refl _⟩
        · rw [upd_upd]
          have e : sodealloc ({ s with free := r }.upd i fun _ => { blank with head := some k, nofd := true }) i = s.upd i fun _ => { blank with head := some k, nofd := true } := by
            unfold sodealloc S.upd; dsimp only; rw [← hf]
          show Inv n (sodealloc ({ s with free := r }.upd i fun _ => { blank with head := some k, nofd := true }) i) op own
          rw [e]
          exact h.reinit hi _ ⟨rfl, rfl, rfl, rfl, rfl⟩
        · intro j hj hx
          have e : j ≠ i := fun c => by rw [c, hi] at hj; cases hj
          unfold sodealloc
          dsimp only
          rw [upd_ne _ _ e, upd_ne _ _ e]; exact ht j hj hx
      | true =>
        rw [if_neg (by simp), upd_upd]
        have h2 : Inv n ({ s with free := r }.upd i fun _ => { blank with head := some k, nofd := true, pcb := some ⟨true, .closed, false, false, false⟩ }) op (setOwn own i (.fresh k)) := by
          refine h.alloc hf (.inl ⟨⟨k, rfl⟩, rfl⟩) (o := { blank with head := some k, nofd := true, pcb := some ⟨true, .closed, false, false, false⟩ }) ?_ ⟨rfl, rfl, rfl, rfl⟩
            (fun _ => { blank with head := some k, nofd := true, pcb := some ⟨true, .closed, false, false, false⟩ }) rfl
          refine good_of (fun c => by cases c) (fun c => by cases c) ⟨⟨_, rfl, ⟨rfl, (fun c => by cases c), (fun c => by cases c)⟩, ?_⟩, rfl, rfl, rfl, rfl, rfl⟩
          rw [if_neg (fun c => by cases c)]
          exact ⟨(fun c => by cases c), rfl, rfl, fun _ => ⟨rfl, rfl, rfl, rfl, (fun c => by cases c)⟩⟩
        have t2 : Tight ({ s with free := r }.upd i fun _ => { blank with head := some k, nofd := true, pcb := some ⟨true, .closed, false, false, false⟩ }) (setOwn own i (.fresh k)) none := by
          intro j hj hx
          have e : j ≠ i := fun c => by rw [c, setOwn_same] at hj; cases hj
          rw [setOwn_ne _ e] at hj
          rw [upd_ne _ _ e]; exact ht j hj hx
        have hsi : ({ s with free := r }.upd i fun _ => { blank with head := some k, nofd := true, pcb := some ⟨true, .closed, false, false, false⟩ }).so i =
          { blank with head := some k, nofd := true, pcb := some ⟨true, .closed, false, false, false⟩ } := upd_same _ _ _
        have hsk : ({ s with free := r }.upd i fun _ => { blank with head := some k, nofd := true, pcb := some ⟨true, .closed, false, false, false⟩ }).so k =
          s.so k := upd_ne _ _ hki
        generalize ({ s with free := r }.upd i fun _ => { blank with head := some k, nofd := true, pcb := some ⟨true, .closed, false, false, false⟩ }) = s2 at *
        obtain ⟨own3, c1, c2, c3, c4, c5, a, c6, c7, c8⟩ := h2.evict (s2.so k).incomp.length t2 k
        generalize Verif.Sock.evict (s2.so k).incomp.length s2 k = s3 at *
        have d1 : own3 i = .fresh k := by
          rw [c3 i (by rw [setOwn_same]; exact (fun c => by cases c)), setOwn_same]
        have d2 : own3 k = .user := by
          rw [c3 k (by rw [setOwn_ne _ hki, hu]; exact (fun c => by cases c)), setOwn_ne _ hki, hu]
        have d3 : (s3.so k).accepting = true := by rw [c6, hsk]; exact ha
        have d4 : s3.so i = _ := c5 i (by rw [setOwn_same]; exact (fun c => by cases c)) (Ne.symm hki)
        rw [hsi] at d4
        have h4 := c1.enqueue d1 d2 d3
        have hn4 : Next own (setOwn own3 i (.incomp k)) := by
          intro j
          by_cases e : j = i
          · rw [e, setOwn_same]; exact ⟨⟨(fun c => by cases c), fun c => by rw [hi] at c; cases c⟩, (fun j c => by cases c)⟩
          · rw [setOwn_ne _ e]
            by_cases el : own j = .lost
            · rw [c3 j (by rw [setOwn_ne _ e, el]; exact (fun c => by cases c)), setOwn_ne _ e]; exact ⟨Iff.rfl, fun _ => id⟩
            · have := c4 j
              rw [setOwn_ne _ e] at this
              rcases this with q | q | q <;> rw [q]
              · exact ⟨Iff.rfl, fun _ => id⟩
              · exact ⟨⟨(fun c => by cases c), fun c => absurd c el⟩, (fun j c => by cases c)⟩
              · exact ⟨⟨(fun c => by cases c), fun c => absurd c el⟩, (fun j c => by cases c)⟩
        have t4 : Tight ((s3.upd k fun o => { o with incomp := o.incomp ++ [i], incqlen := o.incqlen + 1 }).upd i fun o => { o with sqInc := true })
            (setOwn own3 i (.incomp k)) none := by
          intro j hj hx
          have e : j ≠ i := fun c => by rw [c, setOwn_same] at hj; cases hj
          rw [setOwn_ne _ e] at hj
          have e2 : j ≠ k := fun c => by rw [c, d2] at hj; cases hj
          rw [upd_ne _ _ e, upd_ne _ _ e2]; exact c2 j hj hx
        have i4 : ((s3.upd k fun o => { o with incomp := o.incomp ++ [i], incqlen := o.incqlen + 1 }).upd i fun o => { o with sqInc := true }).so i =
            { blank with head := some k, nofd := true, pcb := some ⟨true, .closed, false, false, false⟩, sqInc := true } := by
          rw [upd_same, upd_ne _ _ (Ne.symm hki), d4]
        generalize ((s3.upd k fun o => { o with incomp := o.incomp ++ [i], incqlen := o.incqlen + 1 }).upd i fun o => { o with sqInc := true }) = s4 at *
        have hp4 : (s4.so i).pcb = some ⟨true, .closed, false, false, false⟩ := by rw [i4]
        cases bound with
        | true =>
          rw [if_pos rfl]
          refine ⟨setOwn own3 i (.incomp k), ?_, ?_, hn4⟩
          · refine h4.touch (f := fun o => { o with pcb := o.pcb.map fun p => { p with phase := .syn } }) (p' := ⟨true, .syn, false, false, false⟩) hp4 ⟨rfl, rfl, rfl, rfl, rfl, rfl, rfl, rfl, rfl⟩ (by rw [hp4]; rfl) ?_ ?_ ?_
            · rw [i4]; exact ⟨rfl, (fun c => by cases c), (fun c => by cases c)⟩
            · intro c; rw [setOwn_same] at c; cases c
            · intro _ g
              refine ⟨(fun c => by cases c), g.2.1, g.2.2.1, fun c => ?_⟩
              obtain ⟨g1, g2, g3, g4, g5⟩ := g.2.2.2 c
              exact ⟨g1, g2, g3, g4, (fun c => by cases c)⟩
          · intro j hj hx
            have e : j ≠ i := fun c => by rw [c, setOwn_same] at hj; cases hj
            unfold onPcb
            dsimp only
            rw [upd_ne _ _ e]; exact t4 j hj hx
        | false =>
          rw [if_neg (by simp)]
          show Keeps n (Verif.Sock.soabort s4 i) op own
          unfold Verif.Sock.soabort usrAbort
          rw [hp4]
          simp only [Bool.not_false, Bool.and_true, if_true]
          rw [tcpClose_noref hp4 rfl]
          have e5 : protoRef (s4.upd i fun o => { o with busy := false, disc := true, pcb := o.pcb.map fun p => { p with dropped := true } }) i =
              (s4.upd i fun o => { o with busy := false, disc := true, pcb := o.pcb.map fun p => { p with dropped := true } }) := by
            unfold protoRef; rw [upd_same, hp4]; simp
          rw [e5]
          have h5 : Inv n (s4.upd i fun o => { o with busy := false, disc := true, pcb := o.pcb.map fun p => { p with dropped := true } }) op (setOwn own3 i (.incomp k)) := by
            refine h4.touch (p' := ⟨true, .closed, false, true, false⟩) hp4 ⟨rfl, rfl, rfl, rfl, rfl, rfl, rfl, rfl, rfl⟩ (by rw [hp4]; rfl) ?_ ?_ ?_
            · rw [i4]; exact ⟨rfl, (fun c => by cases c), (fun c => by cases c)⟩
            · intro c; rw [setOwn_same] at c; cases c
            · intro _ g
              exact ⟨(fun c => by cases c), g.2.1, g.2.2.1, g.2.2.2⟩
          have t5 : Tight (s4.upd i fun o => { o with busy := false, disc := true, pcb := o.pcb.map fun p => { p with dropped := true } }) (setOwn own3 i (.incomp k)) none := by
            intro j hj hx
            have e : j ≠ i := fun c => by rw [c, setOwn_same] at hj; cases hj
            rw [upd_ne _ _ e]; exact t4 j hj hx
          have hp5 : ((s4.upd i fun o => { o with busy := false, disc := true, pcb := o.pcb.map fun p => { p with dropped := true } }).so i).pcb =
              some ⟨true, .closed, false, true, false⟩ := by rw [upd_same, hp4]; rfl
          generalize (s4.upd i fun o => { o with busy := false, disc := true, pcb := o.pcb.map fun p => { p with dropped := true } }) = s5 at *
          rw [sofree_inc h5 (setOwn_same _ _)]
          obtain ⟨a1, a2, a3, a4, a5, a6⟩ := h5.deq t5 (setOwn_same _ _)
          obtain ⟨own', b1, b2, b3, b4, b5⟩ := a1.free_loose (setOwn_same _ _) a2 (by
            intro q hq _ _
            rw [a6] at hq
            change (s5.so i).pcb = some q at hq
            rw [hp5] at hq; cases hq; exact .inl rfl)
          refine ⟨own', b1, b2, Next.trans hn4 (Next.trans (Next.set (i := i) (w := .loose) (notlost (setOwn_same _ _)) (fun c => by cases c) (fun j c => by cases c)) (Next.of b3 (.inr ⟨notlost (setOwn_same _ _), b5⟩)))⟩

theorem Inv.established (h : Inv n s op own) (ht : Tight s own none) (i : Nat)
    (hp : pcbIs s i (fun p => p.alive && p.phase = .syn) = true) : Keeps n (Verif.Sock.established s i).2 op own := by
  obtain ⟨p, hp, hl⟩ := pcbIs_some hp
  simp only [Pcb.alive, Bool.and_eq_true, Bool.not_eq_true', decide_eq_true_eq] at hl
  obtain ⟨o1, o2⟩ := h.of_pcb (i := i) (by rw [hp]; exact (fun c => by cases c))
  obtain ⟨⟨q, hq, r, hx⟩, u1, u2, u3, u4, u5⟩ := h.used o1 o2
  rw [hp] at hq; cases hq
  have hpr : (s.so i).proto = false := by
    cases e : (s.so i).proto with
    | false => rfl
    | true =>
      obtain ⟨_, _, q⟩ := r.2.1 e
      rcases q with q | q
      · rw [hl.2] at q; cases q
      · rw [hl.1.1.2] at q; cases q
  have h1 : Inv n (s.upd i fun o => { o with busy := true, pcb := o.pcb.map fun p => { p with phase := .est } }) op own := by
    refine h.touch (p' := { p with phase := .est }) hp ⟨rfl, rfl, rfl, rfl, rfl, rfl, rfl, rfl, rfl⟩ (by rw [hp]; rfl) ?_ ?_ ?_
    · exact ⟨r.1, (fun c => absurd c (by simp [hpr])), fun _ => rfl⟩
    · intro _ g
      refine ⟨⟨fun c => ?_, (fun c => by cases c)⟩, g.2.1, g.2.2.1, g.2.2.2⟩
      have := g.1.1 c
      rw [hl.2] at this; cases this
    · intro _ g
      refine ⟨(fun c => by cases c), g.2.1, g.2.2.1, fun c => ?_⟩
      obtain ⟨g1, g2, g3, g4, g5⟩ := g.2.2.2 c
      exact ⟨g1, g2, g3, g4, (fun c => by cases c)⟩
  have t1 : Tight (s.upd i fun o => { o with busy := true, pcb := o.pcb.map fun p => { p with phase := .est } }) own none := by
    intro j hj hx
    have := ht j hj hx
    have e : j ≠ i := fun c => by rw [c, hpr] at this; cases this
    rw [upd_ne _ _ e]; exact this
  unfold Verif.Sock.established onPcb
  rw [upd_upd]
  cases hh : (s.so i).head with
  | none => exact h1.keeps t1
  | some k =>
    dsimp only
    cases hs : (s.so i).sqInc with
    | false => rw [if_neg (by simp)]; exact h1.keeps t1
    | true =>
      rw [if_pos rfl]
      have hi : own i = .incomp k := by
        rw [hs] at u5; rw [hh] at u3
        cases hw : own i with
        | incomp j => rw [hw] at u3; simp only [hd, Option.some.injEq] at u3; rw [u3]
        | _ => rw [hw] at u5; cases u5
      have hki := (h.head_user (.inr hi)).2.2
      refine ⟨_, h1.promote hi, ?_, Next.set (notlost hi) (fun c => by cases c) (fun j c => by cases c)⟩
      intro j hj hx
      have e : j ≠ i := fun c => by rw [c, setOwn_same] at hj; cases hj
      rw [setOwn_ne _ e] at hj
      have := t1 j hj hx
      dsimp only
      rw [upd_upd, upd_ne _ _ e]
      rw [upd_so]
      split
      · rename_i q; rw [q] at this; exact this
      · exact this

/-- TIME_WAIT begins or ends. -/
theorem Inv.timewait (h : Inv n s op own) (ht : Tight s own none) {i : Nat} {p p' : Pcb} {f : So → So} (hp : (s.so i).pcb = some p)
    (hf : (f (s.so i)).comp = (s.so i).comp ∧ (f (s.so i)).incomp = (s.so i).incomp ∧ (f (s.so i)).qlen = (s.so i).qlen ∧
      (f (s.so i)).incqlen = (s.so i).incqlen ∧ (f (s.so i)).count = (s.so i).count ∧ (f (s.so i)).nofd = (s.so i).nofd ∧
      (f (s.so i)).head = (s.so i).head ∧ (f (s.so i)).sqComp = (s.so i).sqComp ∧ (f (s.so i)).sqInc = (s.so i).sqInc)
    (hp' : (f (s.so i)).pcb = some p') (h1 : (f (s.so i)).proto = ((s.so i).proto && !p.sockref)) (h2 : p'.tcp = p.tcp)
    (h3 : p'.dropped = true ∨ p'.tw = true) (h4 : p'.phase = p.phase) (h5 : p'.sockref = false) (h6 : p'.tw = true → p'.phase = .est)
    (h7 : (f (s.so i)).accepting = (s.so i).accepting) (h8 : (f (s.so i)).pc = (s.so i).pc) (h9 : p.dropped = true → p'.dropped = true) :
    Keeps n (if p.sockref then sofree (s.upd i f) i else s.upd i f) op own := by
  obtain ⟨o1, o2⟩ := h.of_pcb (i := i) (by rw [hp]; exact (fun c => by cases c))
  obtain ⟨⟨q, hq, r, hx⟩, u1, u2, u3, u4, u5⟩ := h.used o1 o2
  rw [hp] at hq; cases hq
  have hpf : (f (s.so i)).proto = false := by
    rw [h1, ← r.1]; cases p.sockref <;> rfl
  have hi1 : Inv n (s.upd i f) op own := by
    refine h.touch hp hf hp' ?_ ?_ ?_
    · exact ⟨by rw [h5, hpf], (fun c => absurd c (by simp [hpf])), h6⟩
    · intro _ g
      refine ⟨by rw [h7, h4]; exact g.1, (fun c => absurd c (by simp [hpf])), fun _ _ => ?_, by rw [h7, hf.1, hf.2.1]; exact g.2.2.2⟩
      rcases h3 with q | q
      · exact .inl q
      · exact .inr (.inl q)
    · intro _ g
      refine ⟨fun a b => h9 (g.1 (by rw [← h4]; exact a) (by rw [← h2]; exact b)), by rw [hf.1]; exact g.2.1, by rw [hf.2.1]; exact g.2.2.1, fun c => ?_⟩
      obtain ⟨g1, g2, g3, g4, g5⟩ := g.2.2.2 c
      exact ⟨hpf, by rw [h2]; exact g2, by rw [h7]; exact g3, by rw [h8]; exact g4, by rw [h4]; exact g5⟩
  have t1 : Tight (s.upd i f) own (some i) := by
    intro j hj hx
    have e : j ≠ i := fun c => hx (by rw [c])
    rw [upd_ne _ _ e]; exact ht j hj (fun c => by cases c)
  cases hs : p.sockref with
  | false =>
    rw [if_neg (by simp)]
    refine ⟨own, hi1, ?_, Next.refl _⟩
    intro j hj hx
    have e : j ≠ i := fun c => by
      have := ht j hj hx
      rw [c, ← r.1, hs] at this; cases this
    rw [upd_ne _ _ e]; exact ht j hj hx
  | true =>
    rw [if_pos rfl]
    have hpr : (s.so i).proto = true := by rw [← r.1]; exact hs
    by_cases c : own i = .loose
    · obtain ⟨own', a1, a2, a3, a4, a5⟩ := hi1.free_loose c t1 (by
        intro q hq _ _
        rw [upd_same, hp'] at hq; cases hq; exact h3)
      exact ⟨own', a1, a2, Next.of a3 (.inr ⟨notlost c, a5⟩)⟩
    · by_cases cu : own i = .user
      · have e : sofree (s.upd i f) i = s.upd i f := by
          unfold sofree
          rw [if_pos]
          have : ((s.upd i f).so i).nofd = false := by rw [upd_same, hf.2.2.2.2.2.1, u2, cu]; rfl
          unfold hasRefs; rw [this]; rfl
        rw [e]
        refine ⟨own, hi1, ?_, Next.refl _⟩
        intro j hj hx
        exact t1 j hj (fun q => c (by rw [Option.some.inj q]; exact hj))
      · rw [if_neg cu] at hx
        have := (hx.2.2.2 c).1
        rw [hpr] at this; cases this

end
end Verif.Sock

import Verif.Sock.Inv
/-! # The pieces keep the invariant -/
namespace Verif.Sock

section
variable {n : Nat} {s : S} {op : List Nat} {own : Nat → Own}

/-- What is known of a socket in use. -/
theorem Inv.used (h : Inv n s op own) {i : Nat} (h1 : own i ≠ .out) (h2 : own i ≠ .free) :
    (∃ p, (s.so i).pcb = some p ∧ Refs (s.so i) p ∧
      (if own i = .user then GoodUser (s.so i) p else GoodOther (own i) (s.so i) p)) ∧
    (s.so i).count = cnt (own i) ∧ (s.so i).nofd = nf (own i) ∧ (s.so i).head = hd (own i) ∧
    (s.so i).sqComp = isComp (own i) ∧ (s.so i).sqInc = isInc (own i) := by
  have g := h.good i
  unfold Good at g
  rwa [if_neg (by simp [h1, h2])] at g

/-- A socket with a control block is in use. -/
theorem Inv.of_pcb (h : Inv n s op own) {i : Nat} (hp : (s.so i).pcb ≠ none) : own i ≠ .out ∧ own i ≠ .free := by
  have g := h.good i
  unfold Good at g
  by_cases c : own i = .out ∨ own i = .free
  · rw [if_pos c] at g; exact absurd g.2.2 hp
  · exact ⟨fun q => c (.inl q), fun q => c (.inr q)⟩

theorem good_of {o : So} {w : Own} (h1 : w ≠ .out) (h2 : w ≠ .free)
    (h : (∃ p, o.pcb = some p ∧ Refs o p ∧ (if w = .user then GoodUser o p else GoodOther w o p)) ∧
      o.count = cnt w ∧ o.nofd = nf w ∧ o.head = hd w ∧ o.sqComp = isComp w ∧ o.sqInc = isInc w) : Good o w := by
  unfold Good
  rw [if_neg (by simp [h1, h2])]
  exact h

theorem setOwn_same (i : Nat) (w : Own) : setOwn own i w i = w := by simp [setOwn]
theorem setOwn_ne {i k : Nat} (w : Own) (h : k ≠ i) : setOwn own i w k = own k := by simp [setOwn, h]

/-- The owner of a queue. -/
theorem Inv.head_user (h : Inv n s op own) {i k : Nat} (hi : own i = .comp k ∨ own i = .incomp k) :
    own k = .user ∧ (s.so k).accepting = true ∧ k ≠ i := by
  have : own k = .user ∧ (s.so k).accepting = true := by
    apply h.user_of_queue
    rcases hi with q | q
    · left
      have := (h.mem (.comp k) rfl i).2 q
      intro c; simp [cont, c] at this
    · right
      have := (h.mem (.incomp k) rfl i).2 q
      intro c; simp [cont, c] at this
  refine ⟨this.1, this.2, ?_⟩
  intro c
  subst c
  rcases hi with q | q <;> rw [q] at this <;> cases this.1

/-- Freeing a socket nobody holds. -/
theorem Inv.free_loose (h : Inv n s op own) {i : Nat} (hi : own i = .loose) (ht : Tight s own (some i))
    (hdd : ∀ p, (s.so i).pcb = some p → (s.so i).proto = false → p.tcp = true → p.dropped = true ∨ p.tw = true) :
    ∃ own', Inv n (sofree s i) op own' ∧ Tight (sofree s i) own' none ∧ (∀ k, k ≠ i → own' k = own k) ∧
      (∀ k, k ≠ i → (sofree s i).so k = s.so k) ∧ (own' i = .loose ∨ own' i = .free) := by
  obtain ⟨⟨p, hp, hr, hx⟩, u1, u2, u3, u4, u5⟩ := h.used (i := i) (by rw [hi]; exact (fun c => by cases c))
    (by rw [hi]; exact (fun c => by cases c))
  rw [hi] at hx u1 u2 u3 u4 u5
  rw [if_neg (fun c => by cases c)] at hx
  simp only [cnt, nf, hd, isComp, isInc] at u1 u2 u3 u4 u5
  by_cases hpr : (s.so i).proto = true
  · have : sofree s i = s := by unfold sofree; rw [if_pos (by simp [hasRefs, hpr])]
    rw [this]
    refine ⟨own, h, ?_, fun _ _ => rfl, fun _ _ => rfl, .inl hi⟩
    intro k hk _
    by_cases e : k = i
    · rw [e]; exact hpr
    · exact ht k hk (fun c => e (Option.some.inj c).symm)
  · have hpf : (s.so i).proto = false := by simpa using hpr
    have e0 : sofree s i = sodealloc (detach s i) i := by
      unfold sofree
      rw [if_neg (by simp [hasRefs, u1, u2, u4, hpf])]
      unfold dequeue; rw [u3]
    have e1 : ∃ o, detach s i = { s.upd i (fun o => { o with pcb := none }) with orphans := o } := by
      unfold detach
      rw [hp]
      by_cases c1 : p.tcp = true
      · rcases hdd p hp hpf c1 with c | c
        · by_cases c2 : p.tw = true
          · exact ⟨s.orphans, by simp [c1, c2, c]; rfl⟩
          · exact ⟨s.orphans, by simp [c1, c2, c]; rfl⟩
        · by_cases c2 : p.dropped = true
          · exact ⟨s.orphans, by simp [c1, c2, c]; rfl⟩
          · exact ⟨s.orphans + 1, by simp [c1, c2, c]; rfl⟩
      · exact ⟨s.orphans, by simp [c1]; rfl⟩
    obtain ⟨oo, e1⟩ := e1
    rw [e0, e1]
    generalize hs : sodealloc { s.upd i (fun o => { o with pcb := none }) with orphans := oo } i = s'
    have hso : ∀ k, s'.so k = if k = i then { s.so i with pcb := none } else s.so k := by
      intro k; rw [← hs]; rfl
    have hcq : ∀ k, (s'.so k).comp = (s.so k).comp ∧ (s'.so k).incomp = (s.so k).incomp ∧
        (s'.so k).qlen = (s.so k).qlen ∧ (s'.so k).incqlen = (s.so k).incqlen := by
      intro k; rw [hso]; split
      · rename_i q; rw [q]; exact ⟨rfl, rfl, rfl, rfl⟩
      · exact ⟨rfl, rfl, rfl, rfl⟩
    refine ⟨setOwn own i .free, ?_, ?_, fun k hk => setOwn_ne _ hk, fun k hk => by rw [hso, if_neg hk], .inr (setOwn_same _ _)⟩
    · apply h.move hi (fun c => by cases c) (fun c => by cases c) (fun c => by cases c)
      · intro k
        by_cases e : k = i
        · rw [e, setOwn_same, hso, if_pos rfl]
          unfold Good; rw [if_pos (.inr rfl)]
          exact ⟨hx.2.1, hx.2.2.1, rfl⟩
        · rw [setOwn_ne _ e, hso, if_neg e]; exact h.good k
      · intro c; cases c
      · intro _; rw [← hs]; exact List.Perm.refl _
      · intro v v1 v2
        cases v <;> first | exact absurd rfl v2 | (rw [← hs]; rfl) | exact (hcq _).1 | exact (hcq _).2.1
      · intro k
        obtain ⟨a, b, c, d⟩ := hcq k
        rw [a, b, c, d]; exact ⟨h.ql k, h.il k⟩
      · rw [← hs]; exact h.ok
    · intro k hk _
      by_cases e : k = i
      · rw [e, setOwn_same] at hk; cases hk
      · rw [setOwn_ne _ e] at hk
        rw [hso, if_neg e]
        exact ht k hk (fun c => e (Option.some.inj c).symm)

/-- A connection leaves a queue. -/
theorem Inv.leave (h : Inv n s op own) {i k : Nat} {w' : Own} {f g : So → So} {tk ab : List Nat}
    (hw : (own i = .comp k ∧ (∀ o, (f o).comp = o.comp.erase i ∧ (f o).incomp = o.incomp ∧ (f o).qlen = o.qlen - 1 ∧ (f o).incqlen = o.incqlen)) ∨
      (own i = .incomp k ∧ (∀ o, (f o).comp = o.comp ∧ (f o).incomp = o.incomp.erase i ∧ (f o).qlen = o.qlen ∧ (f o).incqlen = o.incqlen - 1)))
    (hf : ∀ o, (f o).pcb = o.pcb ∧ (f o).accepting = o.accepting ∧ (f o).proto = o.proto ∧ (f o).pc = o.pc ∧
      (f o).count = o.count ∧ (f o).nofd = o.nofd ∧ (f o).head = o.head ∧ (f o).sqComp = o.sqComp ∧ (f o).sqInc = o.sqInc)
    (hw' : w' = .loose ∧ tk = s.taken ∧ ab = s.aborting ∨ w' = .taken ∧ tk = i :: s.taken ∧ ab = s.aborting ∨
      w' = .aborting ∧ tk = s.taken ∧ ab = i :: s.aborting)
    (hg : ∀ o, (g o).comp = o.comp ∧ (g o).incomp = o.incomp ∧ (g o).qlen = o.qlen ∧ (g o).incqlen = o.incqlen ∧ (g o).pcb = o.pcb ∧
      (g o).proto = o.proto ∧ (g o).nofd = o.nofd ∧ (g o).accepting = o.accepting ∧ (g o).pc = o.pc)
    (hgi : (g (s.so i)).count = cnt w' ∧ (g (s.so i)).head = none ∧
      (g (s.so i)).sqComp = false ∧ (g (s.so i)).sqInc = false) :
    Inv n { ((s.upd k f).upd i g) with taken := tk, aborting := ab } op (setOwn own i w') := by
  have hk := h.head_user (i := i) (k := k) (by
    rcases hw with q | q
    · exact .inl q.1
    · exact .inr q.1)
  obtain ⟨k1, k2, k3⟩ := hk
  have hout : own i ≠ .out ∧ own i ≠ .free ∧ own i ≠ .user ∧ own i ≠ .loose := by
    rcases hw with q | q
    · rw [q.1]; exact ⟨(fun c => by cases c), (fun c => by cases c), (fun c => by cases c), (fun c => by cases c)⟩
    · rw [q.1]; exact ⟨(fun c => by cases c), (fun c => by cases c), (fun c => by cases c), (fun c => by cases c)⟩
  obtain ⟨⟨p, hp, hr, hx⟩, u1, u2, u3, u4, u5⟩ := h.used hout.1 hout.2.1
  rw [if_neg hout.2.2.1] at hx
  have hso : ∀ j, (((s.upd k f).upd i g).so j) = if j = i then g (s.so i) else if j = k then f (s.so k) else s.so j := by
    intro j; rw [upd_so, upd_ne _ _ (Ne.symm k3)]; rfl
  have hcomp : ∀ j, (((s.upd k f).upd i g).so j).comp = if j = k then (f (s.so k)).comp else (s.so j).comp := by
    intro j; rw [hso]
    by_cases e : j = i
    · rw [if_pos e, if_neg (by rw [e]; exact Ne.symm k3), (hg _).1, e]
    · rw [if_neg e]; split <;> rfl
  have hinc : ∀ j, (((s.upd k f).upd i g).so j).incomp = if j = k then (f (s.so k)).incomp else (s.so j).incomp := by
    intro j; rw [hso]
    by_cases e : j = i
    · rw [if_pos e, if_neg (by rw [e]; exact Ne.symm k3), (hg _).2.1, e]
    · rw [if_neg e]; split <;> rfl
  have hql : ∀ j, (((s.upd k f).upd i g).so j).qlen = if j = k then (f (s.so k)).qlen else (s.so j).qlen := by
    intro j; rw [hso]
    by_cases e : j = i
    · rw [if_pos e, if_neg (by rw [e]; exact Ne.symm k3), (hg _).2.2.1, e]
    · rw [if_neg e]; split <;> rfl
  have hil : ∀ j, (((s.upd k f).upd i g).so j).incqlen = if j = k then (f (s.so k)).incqlen else (s.so j).incqlen := by
    intro j; rw [hso]
    by_cases e : j = i
    · rw [if_pos e, if_neg (by rw [e]; exact Ne.symm k3), (hg _).2.2.2.1, e]
    · rw [if_neg e]; split <;> rfl
  have hv : w' ≠ .out ∧ w' ≠ .free ∧ w' ≠ .user ∧ (∀ k, w' ≠ .comp k) ∧ (∀ k, w' ≠ .incomp k) ∧ nf w' = true ∧ hd w' = none ∧
      isComp w' = false ∧ isInc w' = false := by
    rcases hw' with q | q | q <;> rw [q.1] <;>
      exact ⟨(fun c => by cases c), (fun c => by cases c), (fun c => by cases c), (fun k c => by cases c), (fun k c => by cases c), rfl, rfl, rfl, rfl⟩
  obtain ⟨v1, v2, v3, v4, v5, v6, v7, v8, v9⟩ := hv
  have hm : i ∈ cont s op (own i) := by
    refine (h.mem _ ?_ i).2 rfl
    rcases hw with q | q <;> rw [q.1] <;> rfl
  apply h.move rfl ?_ hout.1 v1
  · intro j
    show Good (((s.upd k f).upd i g).so j) _
    rw [hso]
    by_cases e : j = i
    · rw [e, setOwn_same, if_pos rfl]
      obtain ⟨g1, g2, g3, g4, g5, g6, g7, g8, g9⟩ := hg (s.so i)
      refine good_of v1 v2 ⟨⟨p, by rw [g5, hp], ?_, ?_⟩, hgi.1, ?_, ?_, ?_, ?_⟩
      · unfold Refs at hr ⊢; rw [g6]; exact hr
      · rw [if_neg v3]
        obtain ⟨x1, x2, x3, x4⟩ := hx
        exact ⟨x1, by rw [g1, x2], by rw [g2, x3], fun _ => by rw [g6, g8, g9]; exact x4 hout.2.2.2⟩
      · rw [g7, u2, v6]
        rcases hw with q | q <;> rw [q.1] <;> rfl
      · rw [hgi.2.1, v7]
      · rw [hgi.2.2.1, v8]
      · rw [hgi.2.2.2, v9]
    · rw [setOwn_ne _ e, if_neg e]
      by_cases e2 : j = k
      · rw [if_pos e2, e2]
        obtain ⟨⟨p, hp, hr, hx⟩, u1, u2, u3, u4, u5⟩ := h.used (i := k) (by rw [k1]; exact (fun c => by cases c)) (by rw [k1]; exact (fun c => by cases c))
        rw [if_pos k1] at hx
        obtain ⟨f1, f2, f3, f4, f5, f6, f7, f8, f9⟩ := hf (s.so k)
        refine good_of (by rw [k1]; exact (fun c => by cases c)) (by rw [k1]; exact (fun c => by cases c))
          ⟨⟨p, by rw [f1, hp], ?_, ?_⟩, by rw [f5, u1], by rw [f6, u2], by rw [f7, u3], by rw [f8, u4], by rw [f9, u5]⟩
        · unfold Refs at hr ⊢; rw [f3]; exact hr
        · rw [if_pos k1]
          unfold GoodUser at hx ⊢
          rw [f2, f3, f4]
          refine ⟨hx.1, hx.2.1, hx.2.2.1, ?_⟩
          intro c; rw [k2] at c; cases c
      · rw [if_neg e2]; exact h.good j
  · intro _
    rcases hw with ⟨q, qf⟩ | ⟨q, qf⟩
    · rw [q]; show (((s.upd k f).upd i g).so k).comp = _
      rw [hcomp, if_pos rfl, (qf _).1]; rfl
    · rw [q]; show (((s.upd k f).upd i g).so k).incomp = _
      rw [hinc, if_pos rfl, (qf _).2.1]; rfl
  · intro hl
    rcases hw' with q | q | q
    · rw [q.1] at hl; cases hl
    · rw [q.1, q.2.1]; exact List.Perm.refl _
    · rw [q.1, q.2.2]; exact List.Perm.refl _
  · intro v va vb
    cases v with
    | comp j =>
      show (((s.upd k f).upd i g).so j).comp = _
      rw [hcomp]; split
      · rename_i e
        rcases hw with ⟨q, qf⟩ | ⟨q, qf⟩
        · exact absurd (by rw [q, e]) va
        · rw [(qf _).1, e]; rfl
      · rfl
    | incomp j =>
      show (((s.upd k f).upd i g).so j).incomp = _
      rw [hinc]; split
      · rename_i e
        rcases hw with ⟨q, qf⟩ | ⟨q, qf⟩
        · rw [(qf _).2.1, e]; rfl
        · exact absurd (by rw [q, e]) va
      · rfl
    | taken =>
      rcases hw' with q | q | q
      · show tk = _; rw [q.2.1]; rfl
      · exact absurd q.1.symm vb
      · show tk = _; rw [q.2.1]; rfl
    | aborting =>
      rcases hw' with q | q | q
      · show ab = _; rw [q.2.2]; rfl
      · show ab = _; rw [q.2.2]; rfl
      · exact absurd q.1.symm vb
    | _ => rfl
  · intro j
    show (((s.upd k f).upd i g).so j).qlen = (((s.upd k f).upd i g).so j).comp.length ∧
      (((s.upd k f).upd i g).so j).incqlen = (((s.upd k f).upd i g).so j).incomp.length
    rw [hcomp, hinc, hql, hil]
    split
    · rename_i e
      rcases hw with ⟨q, qf⟩ | ⟨q, qf⟩
      · rw [q] at hm
        have hm : i ∈ (s.so k).comp := hm
        rw [(qf _).1, (qf _).2.1, (qf _).2.2.1, (qf _).2.2.2, List.length_erase_of_mem hm]
        exact ⟨by rw [h.ql], h.il k⟩
      · rw [q] at hm
        have hm : i ∈ (s.so k).incomp := hm
        rw [(qf _).1, (qf _).2.1, (qf _).2.2.1, (qf _).2.2.2, List.length_erase_of_mem hm]
        exact ⟨h.ql k, by rw [h.il]⟩
    · exact ⟨h.ql j, h.il j⟩
  · exact h.ok
  · intro c
    rcases hw with q | q
    · exact v4 k (by rw [← c, q.1])
    · exact v5 k (by rw [← c, q.1])

theorem upd_upd (s : S) (i : Nat) (f g : So → So) : (s.upd i f).upd i g = s.upd i (fun o => g (f o)) := by
  unfold S.upd
  congr 1
  funext j
  by_cases e : j = i <;> simp [e]

/-- A change of the control block and the flags of one socket. -/
theorem Inv.touch (h : Inv n s op own) {i : Nat} {f : So → So} {p p' : Pcb} (hp : (s.so i).pcb = some p)
    (hf : (f (s.so i)).comp = (s.so i).comp ∧ (f (s.so i)).incomp = (s.so i).incomp ∧ (f (s.so i)).qlen = (s.so i).qlen ∧
      (f (s.so i)).incqlen = (s.so i).incqlen ∧ (f (s.so i)).count = (s.so i).count ∧ (f (s.so i)).nofd = (s.so i).nofd ∧
      (f (s.so i)).head = (s.so i).head ∧ (f (s.so i)).sqComp = (s.so i).sqComp ∧ (f (s.so i)).sqInc = (s.so i).sqInc)
    (hp' : (f (s.so i)).pcb = some p') (hr : Refs (f (s.so i)) p')
    (hu : own i = .user → GoodUser (s.so i) p → GoodUser (f (s.so i)) p')
    (ho : own i ≠ .user → GoodOther (own i) (s.so i) p → GoodOther (own i) (f (s.so i)) p') : Inv n (s.upd i f) op own := by
  obtain ⟨o1, o2⟩ := h.of_pcb (i := i) (by rw [hp]; exact (fun c => by cases c))
  obtain ⟨⟨q, hq, _, hx⟩, u1, u2, u3, u4, u5⟩ := h.used o1 o2
  rw [hp] at hq
  cases hq
  obtain ⟨f1, f2, f3, f4, f5, f6, f7, f8, f9⟩ := hf
  refine h.upd i f (good_of o1 o2 ⟨⟨p', hp', hr, ?_⟩, by rw [f5, u1], by rw [f6, u2], by rw [f7, u3], by rw [f8, u4], by rw [f9, u5]⟩)
    f1 f2 f3 f4
  by_cases c : own i = .user
  · rw [if_pos c] at hx ⊢; exact hu c hx
  · rw [if_neg c] at hx ⊢; exact ho c hx

/-- The state after `ofp_tcp_close`, when TCP had no reference to the socket. -/
theorem tcpClose_noref {i : Nat} {p : Pcb} (hp : (s.so i).pcb = some p) (hr : p.sockref = false) :
    tcpClose s i = s.upd i fun o => { o with busy := false, disc := true, pcb := o.pcb.map fun p => { p with dropped := true } } := by
  unfold tcpClose
  rw [hp]
  simp only [Option.map_some, Option.getD_some, hr, if_neg Bool.false_ne_true, onPcb, upd_upd]

/-- The state after `ofp_tcp_close`, when TCP had a reference to the socket. -/
theorem tcpClose_ref {i : Nat} {p : Pcb} (hp : (s.so i).pcb = some p) (hr : p.sockref = true) :
    tcpClose s i = sofree (s.upd i fun o => { o with proto := false, busy := false, disc := true, pcb := o.pcb.map fun p => { p with dropped := true, sockref := false } }) i := by
  unfold tcpClose
  rw [hp]
  simp only [Option.map_some, Option.getD_some, hr, if_true, onPcb, upd_upd, Option.map_map]
  rfl

/-- `ofp_tcp_close` keeps the invariant. -/
theorem Inv.tcpClose (h : Inv n s op own) {i : Nat} (ht : Tight s own none) {p : Pcb} (hp : (s.so i).pcb = some p) :
    ∃ own', Inv n (tcpClose s i) op own' ∧ Tight (tcpClose s i) own' none ∧ (∀ k, k ≠ i → own' k = own k) ∧
      (∀ k, k ≠ i → (Verif.Sock.tcpClose s i).so k = s.so k) ∧
      (own i ≠ .loose → own' i = own i ∧ ∃ q, ((Verif.Sock.tcpClose s i).so i).pcb = some q ∧ q.dropped = true ∧ q.tcp = p.tcp) ∧
      (own' i = own i ∨ own' i = .free) := by
  obtain ⟨o1, o2⟩ := h.of_pcb (i := i) (by rw [hp]; exact (fun c => by cases c))
  obtain ⟨⟨q, hq, r, hx⟩, u1, u2, u3, u4, u5⟩ := h.used o1 o2
  rw [hp] at hq
  cases hq
  cases hs : p.sockref with
  | false =>
    have hpr : (s.so i).proto = false := by rw [← r.1]; exact hs
    rw [tcpClose_noref hp hs]
    refine ⟨own, ?_, ?_, fun _ _ => rfl, fun k hk => upd_ne _ _ hk, fun _ => ⟨rfl, { p with dropped := true }, by rw [upd_same]; simp [hp], rfl, rfl⟩, .inl rfl⟩
    · refine h.touch (p' := { p with dropped := true }) hp ⟨rfl, rfl, rfl, rfl, rfl, rfl, rfl, rfl, rfl⟩ (by simp [hp]) ?_ ?_ ?_
      · exact ⟨r.1, (fun c => absurd c (by simp [hpr])), r.2.2⟩
      · intro _ g; exact ⟨g.1, g.2.1, fun _ _ => .inl rfl, g.2.2.2⟩
      · intro _ g; exact ⟨fun _ _ => rfl, g.2.1, g.2.2.1, g.2.2.2⟩
    · intro k hk hx
      have := ht k hk hx
      by_cases e : k = i
      · rw [e, hpr] at this; cases this
      · rw [upd_ne _ _ e]; exact this
  | true =>
    have hpr : (s.so i).proto = true := by rw [← r.1]; exact hs
    rw [tcpClose_ref hp hs]
    generalize hs1 : (s.upd i fun o => { o with proto := false, busy := false, disc := true, pcb := o.pcb.map fun p => { p with dropped := true, sockref := false } }) = s1
    have hi1 : Inv n s1 op own := by
      rw [← hs1]
      refine h.touch (p' := { p with dropped := true, sockref := false }) hp ⟨rfl, rfl, rfl, rfl, rfl, rfl, rfl, rfl, rfl⟩ (by simp [hp]) ?_ ?_ ?_
      · exact ⟨rfl, (fun c => by cases c), r.2.2⟩
      · intro _ g; exact ⟨g.1, (fun c => by cases c), fun _ _ => .inl rfl, g.2.2.2⟩
      · intro _ g; exact ⟨fun _ _ => rfl, g.2.1, g.2.2.1, fun c => ⟨rfl, (g.2.2.2 c).2⟩⟩
    have hk1 : ∀ k, k ≠ i → s1.so k = s.so k := fun k hk => by rw [← hs1]; exact upd_ne _ _ hk
    have ht1 : Tight s1 own (some i) := by
      intro k hk hx
      have e : k ≠ i := fun c => hx (by rw [c])
      rw [hk1 k e]; exact ht k hk (fun c => by cases c)
    have hp1 : (s1.so i).pcb = some { p with dropped := true, sockref := false } := by rw [← hs1, upd_same, hp]; rfl
    by_cases c : own i = .loose
    · obtain ⟨own', a1, a2, a3, a4, a5⟩ := hi1.free_loose c ht1 (by
        intro q hq _ _
        rw [hp1] at hq; cases hq; exact .inl rfl)
      refine ⟨own', a1, a2, a3, fun k hk => (a4 k hk).trans (hk1 k hk), fun h => absurd c h, ?_⟩
      rw [c]; exact a5
    · by_cases cu : own i = .user
      · have e : sofree s1 i = s1 := by
          unfold sofree
          rw [if_pos]
          have : (s1.so i).nofd = false := by rw [← hs1, upd_same]; show (s.so i).nofd = false; rw [u2, cu]; rfl
          simp [hasRefs, this]
        rw [e]
        refine ⟨own, hi1, ?_, fun _ _ => rfl, hk1, fun _ => ⟨rfl, _, hp1, rfl, rfl⟩, .inl rfl⟩
        intro k hk hx
        exact ht1 k hk (fun q => c (by rw [Option.some.inj q]; exact hk))
      · rw [if_neg cu] at hx
        have := (hx.2.2.2 c).1
        rw [hpr] at this; cases this

/-- `ofp_soabort` of a socket nobody holds. -/
theorem Inv.soabort (h : Inv n s op own) {i : Nat} (hi : own i = .loose) (hpr : (s.so i).proto = false)
    (ht : Tight s own (some i)) :
    ∃ own', Inv n (soabort s i) op own' ∧ Tight (soabort s i) own' none ∧ (∀ k, k ≠ i → own' k = own k) ∧
      (∀ k, k ≠ i → (Verif.Sock.soabort s i).so k = s.so k) ∧ (own' i = .loose ∨ own' i = .free) := by
  obtain ⟨o1, o2⟩ : own i ≠ .out ∧ own i ≠ .free := by rw [hi]; exact ⟨(fun c => by cases c), (fun c => by cases c)⟩
  obtain ⟨⟨p, hp, r, hx⟩, u1, u2, u3, u4, u5⟩ := h.used o1 o2
  have hsr : p.sockref = false := by rw [r.1]; exact hpr
  unfold Verif.Sock.soabort
  have key : ∃ f : So → So, usrAbort s i = s.upd i f ∧ Inv n (s.upd i f) op own ∧
      ∀ q, (f (s.so i)).pcb = some q → (f (s.so i)).proto = false → q.tcp = true → q.dropped = true ∨ q.tw = true := by
    unfold usrAbort
    rw [hp]
    by_cases c1 : (!p.tw && !p.dropped) = true
    · simp only [c1, if_true]
      rw [tcpClose_noref hp hsr]
      refine ⟨fun o => { o with busy := false, disc := true, pcb := o.pcb.map fun p => { p with dropped := true } }, ?_, ?_, ?_⟩
      · unfold protoRef; rw [upd_same, hp]; simp
      · refine h.touch (p' := { p with dropped := true }) hp ⟨rfl, rfl, rfl, rfl, rfl, rfl, rfl, rfl, rfl⟩ (by simp [hp]) ?_ ?_ ?_
        · exact ⟨r.1, (fun c => absurd c (by simp [hpr])), r.2.2⟩
        · intro _ g; exact ⟨g.1, g.2.1, fun _ _ => .inl rfl, g.2.2.2⟩
        · intro _ g; exact ⟨fun _ _ => rfl, g.2.1, g.2.2.1, g.2.2.2⟩
      · intro q hq _ _
        simp only [hp, Option.map_some, Option.some.injEq] at hq
        rw [← hq]; exact .inl rfl
    · simp only [c1]
      show ∃ f, protoRef s i = _ ∧ _
      unfold protoRef
      rw [hp]
      by_cases c2 : (p.dropped || !p.tcp) = true
      · simp only [c2, if_true]
        refine ⟨id, ?_, ?_, ?_⟩
        · have : (s.upd i id).so = s.so := by funext j; by_cases e : j = i <;> simp [S.upd, e]
          show s = { s with so := (s.upd i id).so }
          rw [this]
        · refine h.upd i id (h.good i) rfl rfl rfl rfl
        · intro q hq _ ht
          simp only [id_eq, hp, Option.some.injEq] at hq
          rw [← hq] at ht ⊢
          simp [ht] at c2; exact .inl c2
      · simp only [c2]
        have c3 : p.dropped = false ∧ p.tcp = true := by simpa using c2
        have c4 : p.tw = true := by simpa [c3.1] using c1
        refine ⟨fun o => { o with proto := true, pcb := o.pcb.map fun p => { p with sockref := true } }, ?_, ?_, ?_⟩
        · simp only [if_neg Bool.false_ne_true, onPcb, upd_upd]
        · refine h.touch (p' := { p with sockref := true }) hp ⟨rfl, rfl, rfl, rfl, rfl, rfl, rfl, rfl, rfl⟩ (by simp [hp]) ?_ ?_ ?_
          · exact ⟨rfl, fun _ => ⟨c3.2, c3.1, .inr c4⟩, r.2.2⟩
          · intro c; rw [hi] at c; cases c
          · intro _ g; exact ⟨g.1, g.2.1, g.2.2.1, fun c => absurd hi c⟩
        · intro q _ c; cases c
  obtain ⟨f, e, hi', hd'⟩ := key
  rw [e]
  obtain ⟨own', a1, a2, a3, a4, a5⟩ := hi'.free_loose (i := i) hi (by
    intro k hk hx
    have e : k ≠ i := fun c => hx (by rw [c])
    rw [upd_ne _ _ e]; exact ht k hk hx) (by rw [upd_same]; exact hd')
  exact ⟨own', a1, a2, a3, fun k hk => (a4 k hk).trans (upd_ne _ _ hk), a5⟩

end
end Verif.Sock

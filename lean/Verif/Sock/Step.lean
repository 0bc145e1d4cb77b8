import Verif.Sock.Queue
/-! # Every event keeps the invariant -/
namespace Verif.Sock

section
variable {n : Nat} {s : S} {op : List Nat} {own : Nat → Own}

/-- How the holders may change: nobody is lost or under construction that was not before, and who is lost stays lost. -/
def Next (own own' : Nat → Own) : Prop := ∀ k, (own' k = .lost ↔ own k = .lost) ∧ ∀ j, own' k = .fresh j → own k = .fresh j

theorem Next.refl (own : Nat → Own) : Next own own := fun _ => ⟨Iff.rfl, fun _ => id⟩

theorem Next.set {i : Nat} {w : Own} (h0 : own i ≠ .lost) (h1 : w ≠ .lost) (h2 : ∀ j, w ≠ .fresh j) : Next own (setOwn own i w) := by
  intro k
  by_cases e : k = i
  · rw [e, setOwn_same]; exact ⟨⟨fun c => absurd c h1, fun c => absurd c h0⟩, fun j c => absurd c (h2 j)⟩
  · rw [setOwn_ne _ e]; exact ⟨Iff.rfl, fun _ => id⟩

theorem Next.trans {a b c : Nat → Own} (h1 : Next a b) (h2 : Next b c) : Next a c :=
  fun k => ⟨(h2 k).1.trans (h1 k).1, fun j q => (h1 k).2 j ((h2 k).2 j q)⟩

theorem Next.of {own' : Nat → Own} {i : Nat} (h1 : ∀ k, k ≠ i → own' k = own k)
    (h2 : own' i = own i ∨ own i ≠ .lost ∧ (own' i = .loose ∨ own' i = .free)) : Next own own' := by
  intro k
  by_cases e : k = i
  · rw [e]
    rcases h2 with q | ⟨h, q | q⟩ <;> rw [q]
    · exact ⟨Iff.rfl, fun _ => id⟩
    · exact ⟨⟨(fun c => by cases c), fun c => absurd c h⟩, (fun j c => by cases c)⟩
    · exact ⟨⟨(fun c => by cases c), fun c => absurd c h⟩, (fun j c => by cases c)⟩
  · rw [h1 k e]; exact ⟨Iff.rfl, fun _ => id⟩

/-- A holder known to be another is not `lost`. -/
macro "notlost" h:term : term => `(by rw [$h:term]; exact (fun c => by cases c))

theorem pcbIs_some {i : Nat} {f : Pcb → Bool} (h : pcbIs s i f = true) : ∃ p, (s.so i).pcb = some p ∧ f p = true := by
  unfold pcbIs at h
  cases hp : (s.so i).pcb with
  | none => rw [hp] at h; cases h
  | some p => rw [hp] at h; exact ⟨p, rfl, h⟩

theorem Inv.user (h : Inv n s op own) {i : Nat} (hi : i ∈ op) :
    own i = .user ∧ ∃ p, (s.so i).pcb = some p ∧ Refs (s.so i) p ∧ GoodUser (s.so i) p := by
  have hu : own i = .user := (h.mem .user rfl i).1 hi
  obtain ⟨⟨p, hp, r, hx⟩, _⟩ := h.used (i := i) (by rw [hu]; exact (fun c => by cases c)) (by rw [hu]; exact (fun c => by cases c))
  rw [if_pos hu] at hx
  exact ⟨hu, p, hp, r, hx⟩

/-- A change of a user's socket. -/
theorem Inv.touch_user (h : Inv n s op own) (ht : Tight s own none) {i : Nat} (hi : own i = .user) {f : So → So} {p p' : Pcb} (hp : (s.so i).pcb = some p)
    (hf : (f (s.so i)).comp = (s.so i).comp ∧ (f (s.so i)).incomp = (s.so i).incomp ∧ (f (s.so i)).qlen = (s.so i).qlen ∧
      (f (s.so i)).incqlen = (s.so i).incqlen ∧ (f (s.so i)).count = (s.so i).count ∧ (f (s.so i)).nofd = (s.so i).nofd ∧
      (f (s.so i)).head = (s.so i).head ∧ (f (s.so i)).sqComp = (s.so i).sqComp ∧ (f (s.so i)).sqInc = (s.so i).sqInc)
    (hp' : (f (s.so i)).pcb = some p') (hr : Refs (f (s.so i)) p')
    (hu : GoodUser (s.so i) p → GoodUser (f (s.so i)) p') :
    ∃ own', Inv n (s.upd i f) op own' ∧ Tight (s.upd i f) own' none ∧ Next own own' := by
  refine ⟨own, h.touch hp hf hp' hr (fun _ => hu) (fun c => absurd hi c), ?_, Next.refl _⟩
  intro k hk hx
  have e : k ≠ i := fun c => by rw [c, hi] at hk; cases hk
  rw [upd_ne _ _ e]; exact ht k hk hx

theorem Inv.socket (h : Inv n s op own) (ht : Tight s own none) (tcp attach : Bool) :
    ∃ own', Inv n (socreate s tcp attach).2 ((socreate s tcp attach).1.toList ++ op) own' ∧ Tight (socreate s tcp attach).2 own' none ∧ Next own own' := by
  unfold socreate soalloc
  cases hf : s.free with
  | nil => exact ⟨own, h, ht, Next.refl _⟩
  | cons i r =>
    have hi : own i = .free := (h.mem .free rfl i).1 (by show i ∈ s.free; rw [hf]; exact List.mem_cons_self)
    dsimp only
    cases attach with
    | false =>
      rw [if_neg (by simp)]
      refine ⟨own, ?_, ?_, Next.refl _⟩
      · have e : sodealloc ({ s with free := r }.upd i fun _ => blank) i = s.upd i fun _ => blank := by
          unfold sodealloc S.upd; dsimp only; rw [← hf]
        show Inv n (sodealloc ({ s with free := r }.upd i fun _ => blank) i) op own
        rw [e]
        exact h.reinit hi _ ⟨rfl, rfl, rfl, rfl, rfl⟩
      · intro k hk hx
        have e : k ≠ i := fun c => by rw [c, hi] at hk; cases hk
        show (({ s with free := r }.upd i fun _ => blank).so k).proto = true
        rw [upd_ne _ _ e]; exact ht k hk hx
    | true =>
      rw [if_pos rfl]
      refine ⟨setOwn own i .user, ?_, ?_, Next.set (notlost hi) (fun c => by cases c) (fun j c => by cases c)⟩
      · rw [upd_upd]
        refine h.alloc hf (.inr ⟨rfl, rfl⟩) (o := { blank with count := 1, pcb := some ⟨tcp, .closed, false, false, false⟩ }) ?_ ⟨rfl, rfl, rfl, rfl⟩
          (fun _ => { blank with count := 1, pcb := some ⟨tcp, .closed, false, false, false⟩ }) rfl
        refine good_of (fun c => by cases c) (fun c => by cases c) ⟨⟨_, rfl, ⟨rfl, (fun c => by cases c), (fun c => by cases c)⟩, ?_⟩, rfl, rfl, rfl, rfl, rfl⟩
        rw [if_pos rfl]
        refine ⟨⟨(fun c => by cases c), (fun c => by cases c)⟩, (fun c => by cases c), (fun c => by cases c), fun _ => ⟨rfl, rfl⟩⟩
      · intro k hk hx
        have e : k ≠ i := fun c => by rw [c, setOwn_same] at hk; cases hk
        rw [setOwn_ne _ e] at hk
        rw [upd_ne _ _ e, upd_ne _ _ e]; exact ht k hk hx

theorem Inv.tcpClose' (h : Inv n s op own) (ht : Tight s own none) {i : Nat} {p : Pcb} (hp : (s.so i).pcb = some p) :
    ∃ own', Inv n (Verif.Sock.tcpClose s i) op own' ∧ Tight (Verif.Sock.tcpClose s i) own' none ∧ Next own own' := by
  obtain ⟨own', a, b, c, _, f, d⟩ := h.tcpClose ht hp
  refine ⟨own', a, b, Next.of c ?_⟩
  by_cases e : own i = .loose
  · rcases d with q | q
    · exact .inl q
    · exact .inr ⟨notlost e, .inr q⟩
  · exact .inl (f e).1

theorem Inv.accept1 (h : Inv n s op own) (ht : Tight s own none) (k : Nat) :
    ∃ own', Inv n (Verif.Sock.accept1 s k).2 op own' ∧ Tight (Verif.Sock.accept1 s k).2 own' none ∧ Next own own' := by
  unfold Verif.Sock.accept1
  by_cases c : (s.so k).accepting = true
  · rw [if_pos c]
    cases hq : (s.so k).comp with
    | nil => exact ⟨own, h, ht, Next.refl _⟩
    | cons i r =>
      have hi : own i = .comp k := (h.mem (.comp k) rfl i).1 (by show i ∈ (s.so k).comp; rw [hq]; exact List.mem_cons_self)
      obtain ⟨_, u1, u2, u3, u4, u5⟩ := h.used (i := i) (by rw [hi]; exact (fun c => by cases c)) (by rw [hi]; exact (fun c => by cases c))
      have hki := (h.head_user (.inl hi)).2.2
      dsimp only
      have e : (s.upd k fun o => { o with comp := r, qlen := o.qlen - 1 }) = s.upd k fun o => { o with comp := o.comp.erase i, qlen := o.qlen - 1 } := by
        apply upd_congr
        rw [hq]; simp
      rw [e]
      refine ⟨setOwn own i .taken, ?_, ?_, Next.set (notlost hi) (fun c => by cases c) (fun j c => by cases c)⟩
      · refine h.leave (f := fun o => { o with comp := o.comp.erase i, qlen := o.qlen - 1 })
          (g := fun o => { o with count := o.count + 1, sqComp := false, head := none }) (tk := i :: s.taken) (ab := s.aborting)
          (.inl ⟨hi, fun _ => ⟨rfl, rfl, rfl, rfl⟩⟩)
          (fun _ => ⟨rfl, rfl, rfl, rfl, rfl, rfl, rfl, rfl, rfl⟩) (.inr (.inl ⟨rfl, rfl, rfl⟩)) (fun _ => ⟨rfl, rfl, rfl, rfl, rfl, rfl, rfl, rfl, rfl⟩) ?_
        refine ⟨?_, rfl, rfl, ?_⟩
        · show (s.so i).count + 1 = 1; rw [u1, hi]; rfl
        · show (s.so i).sqInc = false; rw [u5, hi]; rfl
      · intro j hj hx
        have e : j ≠ i := fun c => by rw [c, setOwn_same] at hj; cases hj
        rw [setOwn_ne _ e] at hj
        have := ht j hj hx
        dsimp only
        rw [upd_ne _ _ e, upd_so]
        split
        · rename_i q; rw [q] at this; exact this
        · exact this
  · rw [if_neg c]; exact ⟨own, h, ht, Next.refl _⟩

theorem Inv.accept2 (h : Inv n s op own) (ht : Tight s own none) {i : Nat} (hi : i ∈ s.taken) :
    ∃ own', Inv n (Verif.Sock.accept2 s i).2 ((Verif.Sock.accept2 s i).1.toList ++ op) own' ∧ Tight (Verif.Sock.accept2 s i).2 own' none ∧
      (∀ k, (own' k = .lost ↔ own k = .lost ∨ k = i ∧ (Verif.Sock.accept2 s i).1 = none) ∧ ∀ j, own' k = .fresh j → own k = .fresh j) ∧
      ((Verif.Sock.accept2 s i).1 = none ∨ (Verif.Sock.accept2 s i).1 = some i) := by
  have ho : own i = .taken := (h.mem .taken rfl i).1 hi
  obtain ⟨⟨p, hp, r, hx⟩, u1, u2, u3, u4, u5⟩ := h.used (i := i) (by rw [ho]; exact (fun c => by cases c)) (by rw [ho]; exact (fun c => by cases c))
  rw [ho] at hx u1 u2 u3 u4 u5
  rw [if_neg (fun c => by cases c)] at hx
  obtain ⟨x1, x2, x3, x4⟩ := hx
  obtain ⟨x4, x5, x6, x7, x8⟩ := x4 (fun c => by cases c)
  have move : ∀ w op', (w = .user ∧ op' = i :: op ∨ w = .lost ∧ op' = op) →
      Inv n ({ s with taken := s.taken.erase i }.upd i fun o => { o with nofd := false }) op' (setOwn own i w) ∧
      Tight ({ s with taken := s.taken.erase i }.upd i fun o => { o with nofd := false }) (setOwn own i w) none := by
    intro w op' hw
    have hv : w ≠ .out ∧ w ≠ .free ∧ w ≠ .taken ∧ (∀ k, w ≠ .comp k) ∧ (∀ k, w ≠ .incomp k) ∧ w ≠ .loose ∧ cnt w = 1 ∧ nf w = false ∧ hd w = none ∧
      isComp w = false ∧ isInc w = false := by
      rcases hw with q | q <;> rw [q.1] <;>
        exact ⟨(fun c => by cases c), (fun c => by cases c), (fun c => by cases c), (fun k c => by cases c), (fun k c => by cases c), (fun c => by cases c), rfl, rfl, rfl, rfl, rfl⟩
    obtain ⟨v1, v2, v3, v4, v5, v6, v7, v8, v9, v10, v11⟩ := hv
    have hso : ∀ j, ({ s with taken := s.taken.erase i }.upd i fun o => { o with nofd := false }).so j = if j = i then { s.so i with nofd := false } else s.so j :=
      fun j => rfl
    have hc : ∀ j, (({ s with taken := s.taken.erase i }.upd i fun o => { o with nofd := false }).so j).comp = (s.so j).comp := by
      intro j; rw [hso]; split
      · rename_i q; rw [q]
      · rfl
    have hn : ∀ j, (({ s with taken := s.taken.erase i }.upd i fun o => { o with nofd := false }).so j).incomp = (s.so j).incomp := by
      intro j; rw [hso]; split
      · rename_i q; rw [q]
      · rfl
    constructor
    · apply h.move ho (Ne.symm v3) (fun c => by cases c) v1
      · intro j
        rw [hso]
        by_cases e : j = i
        · rw [if_pos e, e, setOwn_same]
          refine good_of v1 v2 ⟨⟨p, hp, r, ?_⟩, by rw [v7]; exact u1, by rw [v8], by rw [v9]; exact u3, by rw [v10]; exact u4, by rw [v11]; exact u5⟩
          rcases hw with q | q
          · rw [if_pos q.1]
            refine ⟨⟨fun c => ?_, fun c => absurd c x8⟩, fun c => ?_, fun c => ?_, fun _ => ⟨x2, x3⟩⟩
            · change (s.so i).accepting = true at c; rw [x6] at c; cases c
            · change (s.so i).proto = true at c; rw [x4] at c; cases c
            · change (s.so i).pc = 2 at c; rw [x7] at c; cases c
          · rw [if_neg (by rw [q.1]; exact (fun c => by cases c))]
            exact ⟨x1, x2, x3, fun _ => ⟨x4, x5, x6, x7, x8⟩⟩
        · rw [if_neg e, setOwn_ne _ e]; exact h.good j
      · intro _; rfl
      · intro hl
        rcases hw with q | q
        · rw [q.1]; show op'.Perm (i :: op); rw [q.2]
        · rw [q.1] at hl; cases hl
      · intro v va vb
        cases v with
        | comp j => exact hc j
        | incomp j => exact hn j
        | taken => exact absurd rfl va
        | user =>
          show op' = op
          rcases hw with q | q
          · exact absurd q.1.symm vb
          · exact q.2
        | _ => rfl
      · intro j
        rw [hc, hn, hso]
        split
        · rename_i q; rw [q]; exact ⟨h.ql i, h.il i⟩
        · exact ⟨h.ql j, h.il j⟩
      · exact h.ok
    · intro j hj hx
      have e : j ≠ i := fun c => by rw [c, setOwn_same] at hj; exact v6 hj
      rw [setOwn_ne _ e] at hj
      rw [hso, if_neg e]; exact ht j hj hx
  unfold Verif.Sock.accept2
  rw [hp]
  dsimp only
  by_cases c : ((s.so i).disc || p.tw || p.dropped) = true
  · rw [if_pos c]
    obtain ⟨a, b⟩ := move .lost op (.inr ⟨rfl, rfl⟩)
    refine ⟨_, a, b, ?_, .inl rfl⟩
    intro k
    by_cases e : k = i
    · rw [e, setOwn_same]; exact ⟨⟨fun _ => .inr ⟨rfl, rfl⟩, fun _ => rfl⟩, (fun j c => by cases c)⟩
    · rw [setOwn_ne _ e]
      refine ⟨⟨.inl, fun c => ?_⟩, fun _ => id⟩
      rcases c with c | c
      · exact c
      · exact absurd c.1 e
  · rw [if_neg c]
    obtain ⟨a, b⟩ := move .user (i :: op) (.inl ⟨rfl, rfl⟩)
    refine ⟨_, a, b, ?_, .inr rfl⟩
    intro k
    have := Next.set (own := own) (i := i) (w := .user) (notlost ho) (fun c => by cases c) (fun j c => by cases c) k
    refine ⟨⟨fun c => .inl (this.1.1 c), fun c => ?_⟩, this.2⟩
    rcases c with c | c
    · exact this.1.2 c
    · cases c.2

/-- `tcp_disconnect` of a socket TCP holds no reference to. -/
theorem tcpDisc_cases {i : Nat} {p : Pcb} (hp : (s.so i).pcb = some p) (hr : p.sockref = false) (d : Bool) :
    (tcpDisc s i d = s ∧ (p.tcp = true → p.tw = true ∨ p.dropped = true ∨ p.phase = .est)) ∨
    tcpDisc s i d = s.upd i fun o => { o with busy := false, disc := true, pcb := o.pcb.map fun p => { p with dropped := true } } := by
  unfold tcpDisc
  rw [hp]
  dsimp only
  by_cases c : (!p.tcp || p.tw || p.dropped) = true
  · rw [if_pos c]
    left
    refine ⟨rfl, fun h => ?_⟩
    simp only [h, Bool.not_true, Bool.false_or, Bool.or_eq_true] at c
    rcases c with q | q
    · exact .inl q
    · exact .inr (.inl q)
  · rw [if_neg c]
    by_cases c2 : p.phase ≠ .est || d
    · rw [if_pos c2]; right; exact tcpClose_noref hp hr
    · rw [if_neg c2]; left
      refine ⟨rfl, fun _ => .inr (.inr ?_)⟩
      by_cases e : p.phase = .est
      · exact e
      · exfalso; apply c2; simp [e]

theorem Inv.closeDisc (h : Inv n s op own) (ht : Tight s own none) {i : Nat} (hi : i ∈ op) (act drop : Bool) (hc : (s.so i).pc = 0) :
    ∃ own', Inv n ((if act then tcpDisc s i drop else s).upd i fun o => { o with pc := 1 }) op own' ∧
      Tight ((if act then tcpDisc s i drop else s).upd i fun o => { o with pc := 1 }) own' none ∧ Next own own' := by
  obtain ⟨hu, p, hp, r, g⟩ := h.user hi
  have hpr : (s.so i).proto = false := by
    cases e : (s.so i).proto with
    | false => rfl
    | true => have := g.2.1 e; rw [hc] at this; cases this
  have hsr : p.sockref = false := by rw [r.1, hpr]
  have e : (if act then tcpDisc s i drop else s) = s ∨ (if act then tcpDisc s i drop else s) =
      s.upd i fun o => { o with busy := false, disc := true, pcb := o.pcb.map fun p => { p with dropped := true } } := by
    cases act with
    | false => exact .inl rfl
    | true =>
      rw [if_pos rfl]
      rcases tcpDisc_cases hp hsr drop with q | q
      · exact .inl q.1
      · exact .inr q
  rcases e with e | e
  · rw [e]
    refine h.touch_user ht hu hp (p' := p) ⟨rfl, rfl, rfl, rfl, rfl, rfl, rfl, rfl, rfl⟩ hp r ?_
    intro g
    refine ⟨g.1, fun c => ?_, fun c => ?_, g.2.2.2⟩
    · change (s.so i).proto = true at c; rw [hpr] at c; cases c
    · cases c
  · rw [e, upd_upd]
    refine h.touch_user ht hu hp (p' := { p with dropped := true }) ⟨rfl, rfl, rfl, rfl, rfl, rfl, rfl, rfl, rfl⟩ (by simp [hp]) ?_ ?_
    · exact ⟨r.1, (fun c => absurd c (by simp [hpr])), r.2.2⟩
    · intro g
      refine ⟨g.1, fun c => ?_, fun c => ?_, g.2.2.2⟩
      · change (s.so i).proto = true at c; rw [hpr] at c; cases c
      · cases c

theorem Inv.closePru (h : Inv n s op own) (ht : Tight s own none) {i : Nat} (hi : i ∈ op) (drop : Bool) (hc : (s.so i).pc = 1) :
    ∃ own', Inv n ((protoRef (tcpDisc s i drop) i).upd i fun o => { o with pc := 2 }) op own' ∧
      Tight ((protoRef (tcpDisc s i drop) i).upd i fun o => { o with pc := 2 }) own' none ∧ Next own own' := by
  obtain ⟨hu, p, hp, r, g⟩ := h.user hi
  have hpr : (s.so i).proto = false := by
    cases e : (s.so i).proto with
    | false => rfl
    | true => have := g.2.1 e; rw [hc] at this; cases this
  have hsr : p.sockref = false := by rw [r.1, hpr]
  rcases tcpDisc_cases hp hsr drop with ⟨e, e2⟩ | e
  · rw [e]
    unfold protoRef
    rw [hp]
    dsimp only
    by_cases c2 : (p.dropped || !p.tcp) = true
    · rw [if_pos c2]
      refine h.touch_user ht hu hp (p' := p) ⟨rfl, rfl, rfl, rfl, rfl, rfl, rfl, rfl, rfl⟩ hp r ?_
      intro g
      refine ⟨g.1, fun c => rfl, fun _ c => ?_, g.2.2.2⟩
      left; simpa [c] using c2
    · rw [if_neg c2]
      have c3 : p.dropped = false ∧ p.tcp = true := by simpa using c2
      unfold onPcb
      rw [upd_upd, upd_upd]
      refine h.touch_user ht hu hp (p' := { p with sockref := true }) ⟨rfl, rfl, rfl, rfl, rfl, rfl, rfl, rfl, rfl⟩ (by simp [hp]) ?_ ?_
      · refine ⟨rfl, fun _ => ⟨c3.2, c3.1, ?_⟩, r.2.2⟩
        rcases e2 c3.2 with q | q | q
        · exact .inr q
        · rw [c3.1] at q; cases q
        · exact .inl q
      · intro g
        exact ⟨g.1, fun c => rfl, fun _ c => .inr (.inr rfl), g.2.2.2⟩
  · rw [e]
    unfold protoRef
    rw [upd_same, hp]
    simp only [Option.map_some, Bool.true_or, if_true]
    rw [upd_upd]
    refine h.touch_user ht hu hp (p' := { p with dropped := true }) ⟨rfl, rfl, rfl, rfl, rfl, rfl, rfl, rfl, rfl⟩ (by simp [hp]) ?_ ?_
    · exact ⟨r.1, (fun c => absurd c (by simp [hpr])), r.2.2⟩
    · intro g
      exact ⟨g.1, fun c => rfl, fun _ _ => .inl rfl, g.2.2.2⟩

end
end Verif.Sock

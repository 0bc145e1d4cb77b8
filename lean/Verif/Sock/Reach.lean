import Verif.Sock.Step2
/-! # The invariant holds in every history -/
namespace Verif.Sock

section
variable {n : Nat} {s : S} {op : List Nat} {own : Nat → Own}

theorem Inv.local' (h : Inv n s op own) (ht : Tight s own none) {i : Nat} {p p' : Pcb} {f : So → So} (hp : (s.so i).pcb = some p)
    (hf : (f (s.so i)).comp = (s.so i).comp ∧ (f (s.so i)).incomp = (s.so i).incomp ∧ (f (s.so i)).qlen = (s.so i).qlen ∧
      (f (s.so i)).incqlen = (s.so i).incqlen ∧ (f (s.so i)).count = (s.so i).count ∧ (f (s.so i)).nofd = (s.so i).nofd ∧
      (f (s.so i)).head = (s.so i).head ∧ (f (s.so i)).sqComp = (s.so i).sqComp ∧ (f (s.so i)).sqInc = (s.so i).sqInc)
    (hp' : (f (s.so i)).pcb = some p') (hr : Refs (f (s.so i)) p') (hpr : (f (s.so i)).proto = (s.so i).proto)
    (hu : own i = .user → GoodUser (s.so i) p → GoodUser (f (s.so i)) p')
    (ho : own i ≠ .user → GoodOther (own i) (s.so i) p → GoodOther (own i) (f (s.so i)) p') : Keeps n (s.upd i f) op own := by
  refine ⟨own, h.touch hp hf hp' hr hu ho, ?_, Next.refl _⟩
  intro j hj hx
  have := ht j hj hx
  rw [upd_so]
  split
  · rename_i e; rw [hpr, ← e]; exact this
  · exact this

/-- What an event does to the list of open descriptors. -/
theorem opened_cons (ev : Ev) (r : Option Nat) (l : Log) : opened ((ev, r) :: l) =
    match ev, r with
    | .socket _ _, some i => i :: opened l
    | .accept2 _, some i => i :: opened l
    | .closeEnd _, some i => (opened l).erase i
    | _, _ => opened l := by
  cases ev <;> cases r <;> rfl

/-- One event. -/
theorem Inv.step {l : Log} (h : Inv n s (opened l) own) (ht : Tight s own none) (hnf : ∀ j i, own j ≠ .fresh i)
    (ev : Ev) (hl : Legal s l ev) :
    ∃ own', Inv n (step s ev).2 (opened ((ev, (Verif.Sock.step s ev).1) :: l)) own' ∧ Tight (Verif.Sock.step s ev).2 own' none ∧
      (∀ k, (own' k = .lost → own k = .lost ∨ (ev, (Verif.Sock.step s ev).1) = (.accept2 k, none)) ∧ (own k = .lost → own' k = .lost) ∧
        (ev = .accept2 k → k ∈ s.taken → (Verif.Sock.step s ev).1 = none → own' k = .lost) ∧ ∀ j, own' k ≠ .fresh j) := by
  have fin : ∀ {s' : S} {op' : List Nat} {r : Option Nat}, (∀ k, ev = .accept2 k → k ∉ s.taken) → Keeps n s' op' own → Verif.Sock.step s ev = (r, s') → opened ((ev, r) :: l) = op' →
      ∃ own', Inv n (Verif.Sock.step s ev).2 (opened ((ev, (Verif.Sock.step s ev).1) :: l)) own' ∧ Tight (Verif.Sock.step s ev).2 own' none ∧
      (∀ k, (own' k = .lost → own k = .lost ∨ (ev, (Verif.Sock.step s ev).1) = (.accept2 k, none)) ∧ (own k = .lost → own' k = .lost) ∧
        (ev = .accept2 k → k ∈ s.taken → (Verif.Sock.step s ev).1 = none → own' k = .lost) ∧ ∀ j, own' k ≠ .fresh j) := by
    intro s' op' r hn ⟨own', a, b, c⟩ e1 e2
    rw [e1]
    refine ⟨own', by rw [e2]; exact a, b, fun k => ⟨fun q => .inl ((c k).1.1 q), (c k).1.2, fun q m => absurd m (hn k q), fun j q => hnf k j ((c k).2 j q)⟩⟩
  cases ev with
  | socket tcp attach =>
    refine fin (fun k c => by first | (cases c; assumption) | cases c) (r := (socreate s tcp attach).1) (op' := (socreate s tcp attach).1.toList ++ opened l) (h.socket ht tcp attach) rfl ?_
    generalize (socreate s tcp attach).1 = r
    cases r <;> rfl
  | listen i b =>
    by_cases c : (pcbIs s i (·.alive) && !(s.so i).busy) = true
    · obtain ⟨hi, hpc⟩ := hl
      obtain ⟨hu, p, hp, r, g⟩ := h.user hi
      have hal : p.alive = true := by
        simp only [Bool.and_eq_true] at c
        obtain ⟨q, hq, c⟩ := pcbIs_some c.1
        rw [hp] at hq; cases hq; exact c
      simp only [Pcb.alive, Bool.and_eq_true, Bool.not_eq_true'] at hal
      have hpr : (s.so i).proto = false := by
        cases e : (s.so i).proto with
        | false => rfl
        | true => have := g.2.1 e; rw [hpc] at this; cases this
      refine fin (fun k c => by first | (cases c; assumption) | cases c) (s' := (onPcb s i fun p => { p with phase := .listen }).upd i
        fun o => { o with accepting := true, qlimit := if b < 0 || b > somaxconn then somaxconn else b.toNat }) (op' := opened l) (r := some i) ?_ ?_ rfl
      · unfold onPcb
        rw [upd_upd]
        refine h.local' ht (p' := { p with phase := .listen }) hp ⟨rfl, rfl, rfl, rfl, rfl, rfl, rfl, rfl, rfl⟩ (by simp [hp]) ?_ rfl ?_ ?_
        · refine ⟨r.1, (fun c => absurd c (by simp [hpr])), fun c => ?_⟩
          change p.tw = true at c
          rw [hal.1.2] at c; cases c
        · intro _ g
          exact ⟨⟨fun _ => rfl, fun _ => rfl⟩, g.2.1, fun c => absurd (hpc.symm.trans c) (by decide), (fun c => by cases c)⟩
        · intro c; exact absurd hu c
      · show (if _ then _ else _) = _
        rw [if_pos c]
    · refine fin (fun k c => by first | (cases c; assumption) | cases c) (s' := s) (op' := opened l) (r := none) (h.keeps ht) ?_ rfl
      show (if _ then _ else _) = _
      rw [if_neg c]
  | connect i =>
    by_cases c : (pcbIs s i (·.alive) && !(s.so i).accepting && !(s.so i).busy) = true
    · obtain ⟨hi, hpc⟩ := hl
      obtain ⟨hu, p, hp, r, g⟩ := h.user hi
      have c' := c
      simp only [Bool.and_eq_true, Bool.not_eq_true'] at c'
      have hal : p.alive = true := by
        obtain ⟨q, hq, c⟩ := pcbIs_some c'.1.1
        rw [hp] at hq; cases hq; exact c
      simp only [Pcb.alive, Bool.and_eq_true, Bool.not_eq_true'] at hal
      have hpr : (s.so i).proto = false := by
        cases e : (s.so i).proto with
        | false => rfl
        | true => have := g.2.1 e; rw [hpc] at this; cases this
      refine fin (fun k c => by first | (cases c; assumption) | cases c) (s' := (onPcb s i fun p => { p with phase := .syn }).upd i fun o => { o with busy := true }) (op' := opened l) (r := some i) ?_ ?_ rfl
      · unfold onPcb
        rw [upd_upd]
        refine h.local' ht (p' := { p with phase := .syn }) hp ⟨rfl, rfl, rfl, rfl, rfl, rfl, rfl, rfl, rfl⟩ (by simp [hp]) ?_ rfl ?_ ?_
        · refine ⟨r.1, (fun c => absurd c (by simp [hpr])), fun c => ?_⟩
          change p.tw = true at c
          rw [hal.1.2] at c; cases c
        · intro _ g
          refine ⟨⟨fun q => ?_, (fun c => by cases c)⟩, g.2.1, fun c => absurd (hpc.symm.trans c) (by decide), g.2.2.2⟩
          change (s.so i).accepting = true at q
          rw [c'.1.2] at q; cases q
        · intro c; exact absurd hu c
      · show (if _ then _ else _) = _
        rw [if_pos c]
    · refine fin (fun k c => by first | (cases c; assumption) | cases c) (s' := s) (op' := opened l) (r := none) (h.keeps ht) ?_ rfl
      show (if _ then _ else _) = _
      rw [if_neg c]
  | shutdown i =>
    by_cases c : pcbIs s i (fun p => p.alive && (p.phase = .closed || p.phase = .listen)) = true
    · obtain ⟨p, hp, _⟩ := pcbIs_some c
      refine fin (fun k c => by first | (cases c; assumption) | cases c) (op' := opened l) (r := none) (h.tcpClose' ht hp) ?_ rfl
      show (if _ then _ else _) = _
      rw [if_pos c]
    · refine fin (fun k c => by first | (cases c; assumption) | cases c) (s' := s) (op' := opened l) (r := none) (h.keeps ht) ?_ rfl
      show (if _ then _ else _) = _
      rw [if_neg c]
  | accept1 k => exact fin (fun k c => by first | (cases c; assumption) | cases c) (op' := opened l) (h.accept1 ht k) rfl (by rw [opened_cons])
  | accept2 i =>
    by_cases c : i ∈ s.taken
    · have e : Verif.Sock.step s (.accept2 i) = Verif.Sock.accept2 s i := if_pos c
      rw [e]
      obtain ⟨own', a, b, d, f⟩ := h.accept2 ht c
      refine ⟨own', ?_, b, fun k => ⟨fun q => ?_, fun q => (d k).1.2 (.inl q), fun q _ z => (d k).1.2 (.inr ⟨?_, z⟩), fun j q => hnf k j ((d k).2 j q)⟩⟩
      · rcases f with f | f <;> rw [f] at a <;> rw [f] <;> exact a
      · rcases (d k).1.1 q with q | q
        · exact .inl q
        · right; rw [q.1, q.2]
      · cases q; rfl
    · refine fin (fun k c => by first | (cases c; assumption) | cases c) (s' := s) (op' := opened l) (r := none) (h.keeps ht) ?_ rfl
      show (if _ then _ else _) = _
      rw [if_neg c]
  | closeDisc i act drop =>
    have hi : i ∈ opened l := hl
    obtain ⟨hu, p, hp, r, g⟩ := h.user hi
    have e0 : (s.so i).pcb ≠ none := by rw [hp]; exact (fun c => by cases c)
    by_cases c : (s.so i).pc = 0
    · refine fin (fun k c => by first | (cases c; assumption) | cases c) (op' := opened l) (r := none) (h.closeDisc ht hi act drop c) ?_ rfl
      show (if _ then _ else _) = _
      rw [if_neg e0, if_pos c]
    · refine fin (fun k c => by first | (cases c; assumption) | cases c) (s' := s) (op' := opened l) (r := none) (h.keeps ht) ?_ rfl
      show (if _ then _ else _) = _
      rw [if_neg e0, if_neg c]
  | closePru i drop =>
    by_cases c : (s.so i).pc = 1
    · refine fin (fun k c => by first | (cases c; assumption) | cases c) (op' := opened l) (r := none) (h.closePru ht hl drop c) ?_ rfl
      show (if _ then _ else _) = _
      rw [if_pos c]
    · refine fin (fun k c => by first | (cases c; assumption) | cases c) (s' := s) (op' := opened l) (r := none) (h.keeps ht) ?_ rfl
      show (if _ then _ else _) = _
      rw [if_neg c]
  | closeDeq i => exact fin (fun k c => by first | (cases c; assumption) | cases c) (op' := opened l) (h.closeDeq ht i) rfl (by rw [opened_cons])
  | abort i =>
    by_cases c : i ∈ s.aborting
    · refine fin (fun k c => by first | (cases c; assumption) | cases c) (op' := opened l) (r := none) (h.abort ht i c) ?_ rfl
      show (if _ then _ else _) = _
      rw [if_pos c]
    · refine fin (fun k c => by first | (cases c; assumption) | cases c) (s' := s) (op' := opened l) (r := none) (h.keeps ht) ?_ rfl
      show (if _ then _ else _) = _
      rw [if_neg c]
  | closeEnd i =>
    by_cases c : ((s.so i).pc = 2 && (!(s.so i).accepting || ((s.so i).incomp = [] && (s.so i).comp = []))) = true
    · have c' := c
      simp only [Bool.and_eq_true, Bool.or_eq_true, Bool.not_eq_true', decide_eq_true_eq] at c'
      refine fin (fun k c => by first | (cases c; assumption) | cases c) (op' := (opened l).erase i) (r := some i) (h.closeEnd ht hl c'.1 c'.2) ?_ rfl
      show (if _ then _ else _) = _
      rw [if_pos c]
    · refine fin (fun k c => by first | (cases c; assumption) | cases c) (s' := s) (op' := opened l) (r := none) (h.keeps ht) ?_ rfl
      show (if _ then _ else _) = _
      rw [if_neg c]
  | newconn k attach bound =>
    by_cases c : pcbIs s k (fun p => p.alive && p.phase = .listen) = true
    · refine fin (fun k c => by first | (cases c; assumption) | cases c) (op' := opened l) (r := (Verif.Sock.newconn s k attach bound).1) (h.newconn ht k attach bound c hnf) ?_ (by rw [opened_cons])
      show (if _ then _ else _) = _
      rw [if_pos c]
    · refine fin (fun k c => by first | (cases c; assumption) | cases c) (s' := s) (op' := opened l) (r := none) (h.keeps ht) ?_ rfl
      show (if _ then _ else _) = _
      rw [if_neg c]
  | established i =>
    by_cases c : pcbIs s i (fun p => p.alive && p.phase = .syn) = true
    · refine fin (fun k c => by first | (cases c; assumption) | cases c) (op' := opened l) (r := (Verif.Sock.established s i).1) (h.established ht i c) ?_ (by rw [opened_cons])
      show (if _ then _ else _) = _
      rw [if_pos c]
    · refine fin (fun k c => by first | (cases c; assumption) | cases c) (s' := s) (op' := opened l) (r := none) (h.keeps ht) ?_ rfl
      show (if _ then _ else _) = _
      rw [if_neg c]
  | tcpDone i =>
    by_cases c : pcbIs s i (fun p => p.alive && (p.phase = .syn || p.phase = .est)) = true
    · obtain ⟨p, hp, _⟩ := pcbIs_some c
      refine fin (fun k c => by first | (cases c; assumption) | cases c) (op' := opened l) (r := none) (h.tcpClose' ht hp) ?_ rfl
      show (if _ then _ else _) = _
      rw [if_pos c]
    · refine fin (fun k c => by first | (cases c; assumption) | cases c) (s' := s) (op' := opened l) (r := none) (h.keeps ht) ?_ rfl
      show (if _ then _ else _) = _
      rw [if_neg c]
  | disconnected i =>
    by_cases c : pcbIs s i (fun p => p.alive && p.phase = .est) = true
    · obtain ⟨p, hp, _⟩ := pcbIs_some c
      obtain ⟨o1, o2⟩ := h.of_pcb (i := i) (by rw [hp]; exact (fun c => by cases c))
      obtain ⟨⟨q, hq, r, hx⟩, _⟩ := h.used o1 o2
      rw [hp] at hq; cases hq
      refine fin (fun k c => by first | (cases c; assumption) | cases c) (s' := s.upd i fun o => { o with busy := false, disc := true }) (op' := opened l) (r := none) ?_ ?_ rfl
      · exact h.local' ht (p' := p) hp ⟨rfl, rfl, rfl, rfl, rfl, rfl, rfl, rfl, rfl⟩ hp r rfl (fun _ g => g) (fun _ g => g)
      · show (if _ then _ else _) = _
        rw [if_pos c]
    · refine fin (fun k c => by first | (cases c; assumption) | cases c) (s' := s) (op' := opened l) (r := none) (h.keeps ht) ?_ rfl
      show (if _ then _ else _) = _
      rw [if_neg c]
  | twstart i =>
    by_cases c : pcbIs s i (fun p => p.alive && p.phase = .est) = true
    · obtain ⟨p, hp, c2⟩ := pcbIs_some c
      simp only [Pcb.alive, Bool.and_eq_true, Bool.not_eq_true', decide_eq_true_eq] at c2
      have er : pcbIs s i (·.sockref) = p.sockref := by unfold pcbIs; rw [hp]; rfl
      refine fin (fun k c => by first | (cases c; assumption) | cases c) (op' := opened l) (r := none) (h.timewait ht (p' := { p with tw := true, sockref := false })
        (f := fun o => { o with pcb := o.pcb.map fun p => { p with tw := true, sockref := false }, busy := false, disc := true, proto := o.proto && !p.sockref })
        hp ⟨rfl, rfl, rfl, rfl, rfl, rfl, rfl, rfl, rfl⟩ (by simp [hp]) rfl rfl (.inr rfl) rfl rfl (fun _ => c2.2) rfl rfl id) ?_ rfl
      show (if _ then _ else _) = _
      rw [if_pos c]
      simp only [er, onPcb, upd_upd]
    · refine fin (fun k c => by first | (cases c; assumption) | cases c) (s' := s) (op' := opened l) (r := none) (h.keeps ht) ?_ rfl
      show (if _ then _ else _) = _
      rw [if_neg c]
  | twclose i =>
    by_cases c : pcbIs s i (fun p => p.tcp && p.tw && !p.dropped) = true
    · obtain ⟨p, hp, c2⟩ := pcbIs_some c
      simp only [Bool.and_eq_true, Bool.not_eq_true'] at c2
      obtain ⟨o1, o2⟩ := h.of_pcb (i := i) (by rw [hp]; exact (fun c => by cases c))
      obtain ⟨⟨q, hq, r, _⟩, _⟩ := h.used o1 o2
      rw [hp] at hq; cases hq
      have er : pcbIs s i (·.sockref) = p.sockref := by unfold pcbIs; rw [hp]; rfl
      refine fin (fun k c => by first | (cases c; assumption) | cases c) (op' := opened l) (r := none) (h.timewait ht (p' := { p with dropped := true, sockref := false })
        (f := fun o => { o with pcb := o.pcb.map fun p => { p with dropped := true, sockref := false }, proto := o.proto && !p.sockref })
        hp ⟨rfl, rfl, rfl, rfl, rfl, rfl, rfl, rfl, rfl⟩ (by simp [hp]) rfl rfl (.inl rfl) rfl rfl r.2.2 rfl rfl (fun _ => rfl)) ?_ rfl
      show (if _ then _ else _) = _
      rw [if_pos c]
      simp only [er, onPcb, upd_upd]
    · refine fin (fun k c => by first | (cases c; assumption) | cases c) (s' := s) (op' := opened l) (r := none) (h.keeps ht) ?_ rfl
      show (if _ then _ else _) = _
      rw [if_neg c]
  | orphanDone =>
    refine fin (fun k c => by first | (cases c; assumption) | cases c) (s' := { s with orphans := s.orphans - 1 }) (op' := opened l) (r := none) ⟨own, ?_, ht, Next.refl _⟩ rfl rfl
    exact ⟨h.good, h.out, h.mem, h.nodup, h.ql, h.il, h.ok⟩

end

/-- The invariant of histories. -/
theorem Hist.inv {n : Nat} {l : Log} {s : S} (h : Hist n l s) :
    ∃ own, Inv n s (opened l) own ∧ Tight s own none ∧ (∀ k, (own k = .lost → (Ev.accept2 k, none) ∈ l) ∧ ∀ j, own k ≠ .fresh j) := by
  induction h with
  | nil =>
    refine ⟨fun i => if i < n then .free else .out, ⟨?_, ?_, ?_, ?_, fun _ => rfl, fun _ => rfl, rfl, rfl⟩, ?_, ?_⟩
    · intro i
      unfold Good
      rw [if_pos]
      · exact ⟨rfl, rfl, rfl⟩
      · split
        · exact .inr rfl
        · exact .inl rfl
    · intro i
      by_cases c : i < n
      · simp [c]
      · simp [c]; omega
    · intro w hw i
      cases w with
      | free => show i ∈ List.range n ↔ _; simp
      | out => cases hw
      | lost => cases hw
      | loose => cases hw
      | fresh j => cases hw
      | _ =>
        constructor
        · intro c; cases c
        · intro c; split at c <;> cases c
    · intro w hw
      cases w with
      | free => exact List.nodup_range
      | _ => exact List.nodup_nil
    · intro i hi; dsimp only at hi; split at hi <;> cases hi
    · intro k
      refine ⟨fun c => ?_, fun j c => ?_⟩ <;> (dsimp only at c; split at c <;> cases c)
  | cons ev h hl ih =>
    obtain ⟨own, a, b, c⟩ := ih
    obtain ⟨own', d, e, f⟩ := a.step b (fun j i => (c j).2 i) ev hl
    refine ⟨own', d, e, fun k => ⟨fun q => ?_, (f k).2.2.2⟩⟩
    rcases (f k).1 q with q | q
    · exact List.mem_cons_of_mem _ ((c k).1 q)
    · rw [← q]; exact List.mem_cons_self

end Verif.Sock

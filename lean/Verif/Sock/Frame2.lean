import Verif.Sock.Frame
/-! # What one event does to the queues -/
namespace Verif.Sock

/-- The backlog a listening socket gets. -/
def backlog (b : Int) : Nat := if b < 0 || b > somaxconn then somaxconn else b.toNat

/-- The completed queue of `k` before and after an event. -/
def CompRel (ev : Ev) (r : Option Nat) (k : Nat) (c c' : List Nat) : Prop :=
  match ev with
  | .accept1 j => if j = k then r.toList ++ c' = c else c' = c
  | .established i => c' = c ++ (if r = some k then [i] else [])
  | .closeDeq j => j ≠ k → c' = c
  | _ => c' = c

/-- All of it. -/
def Fr (ev : Ev) (r : Option Nat) (s s' : S) (k : Nat) : Prop :=
  CompRel ev r k (s.so k).comp (s'.so k).comp ∧
  ((s'.so k).qlimit = (s.so k).qlimit ∨ (s'.so k).qlimit = 0 ∨ ∃ b, ev = .listen k b ∧ (s'.so k).qlimit = backlog b) ∧
  (tot (s'.so k) ≤ tot (s.so k) ∨ tot (s'.so k) ≤ 3 * (s.so k).qlimit / 2 + (s.so k).qlimit + 1)

theorem Calm.fr {s s' : S} (h : Calm s s') (ev : Ev) (k : Nat) (hc : CompRel ev (step s ev).1 k (s.so k).comp (s.so k).comp) :
    Fr ev (step s ev).1 s s' k := by
  have h := h k
  refine ⟨?_, .inl (congrArg Prod.snd h.1), .inl h.2⟩
  rw [show (s'.so k).comp = (s.so k).comp from congrArg Prod.fst h.1]; exact hc

section
variable {n : Nat} {s : S} {op : List Nat} {own : Nat → Own}

theorem inv_frame {l : Log} (h : Inv n s (opened l) own) (ht : Tight s own none)
    (ev : Ev) (hl : Legal s l ev) (k : Nat) : Fr ev (step s ev).1 s (step s ev).2 k := by
  cases ev with
  | socket tcp attach =>
    show Fr _ _ s (socreate s tcp attach).2 k
    unfold socreate
    cases ha : soalloc s with
    | none => exact (Calm.refl s).fr _ k rfl
    | some r =>
      obtain ⟨i, s1⟩ := r
      obtain ⟨a1, a2, a3, _, _⟩ := h.calm_alloc ha k
      have fin : ∀ s2, Calm s1 s2 → Fr (.socket tcp attach) (step s (.socket tcp attach)).1 s s2 k := by
        intro s2 c
        have c := c k
        refine ⟨?_, ?_, .inl (Nat.le_trans c.2 (Nat.le_of_eq a2))⟩
        · show (s2.so k).comp = _
          rw [show (s2.so k).comp = (s1.so k).comp from congrArg Prod.fst c.1, a1]
        · rw [show (s2.so k).qlimit = (s1.so k).qlimit from congrArg Prod.snd c.1]
          rcases a3 with q | q
          · exact .inl q
          · exact .inr (.inl q)
      dsimp only
      split
      · dsimp only; exact fin _ (Calm.upd rfl (Nat.le_refl _))
      · exact fin _ (Calm.refl _)
  | listen i b =>
    unfold step
    dsimp only
    split
    · unfold onPcb
      rw [upd_upd]
      refine ⟨?_, ?_, ?_⟩
      · show _ = _; rw [upd_so]; split
        · rename_i e; rw [e]
        · rfl
      · rw [upd_so]; split
        · rename_i e; right; right; exact ⟨b, by rw [e], rfl⟩
        · exact .inl rfl
      · left; rw [upd_so]; split
        · rename_i e; rw [e]; exact Nat.le_refl _
        · exact Nat.le_refl _
    · exact ⟨rfl, .inl rfl, .inl (Nat.le_refl _)⟩
  | connect i =>
    refine Calm.fr ?_ _ k rfl
    unfold step; dsimp only
    split
    · dsimp only; exact Calm.trans (calm_onPcb _ _ _) (Calm.upd rfl (Nat.le_refl _))
    · exact Calm.refl _
  | shutdown i =>
    refine Calm.fr ?_ _ k rfl
    unfold step; dsimp only
    split
    · exact calm_tcpClose _ _
    · exact Calm.refl _
  | accept1 j =>
    show Fr _ (accept1 s j).1 s (accept1 s j).2 k
    unfold Verif.Sock.accept1
    split
    · split
      · rename_i hq
        refine ⟨?_, .inl rfl, .inl (Nat.le_refl _)⟩
        show if j = k then _ else _
        split <;> rfl
      · rename_i i r hq
        have hi : own i = .comp j := (h.mem (.comp j) rfl i).1 (by show i ∈ (s.so j).comp; rw [hq]; exact List.mem_cons_self)
        have hki := (h.head_user (.inl hi)).2.2
        dsimp only
        have c2 : Calm (s.upd j fun o => { o with comp := r, qlen := o.qlen - 1 }) ((s.upd j fun o => { o with comp := r, qlen := o.qlen - 1 }).upd i
          fun o => { o with count := o.count + 1, sqComp := false, head := none }) := Calm.upd rfl (Nat.le_refl _)
        have c2 := c2 k
        have e1 : (((s.upd j fun o => { o with comp := r, qlen := o.qlen - 1 }).upd i
          fun o => { o with count := o.count + 1, sqComp := false, head := none }).so k).comp = ((s.upd j fun o => { o with comp := r, qlen := o.qlen - 1 }).so k).comp := congrArg Prod.fst c2.1
        have e2 : (((s.upd j fun o => { o with comp := r, qlen := o.qlen - 1 }).upd i
          fun o => { o with count := o.count + 1, sqComp := false, head := none }).so k).qlimit = ((s.upd j fun o => { o with comp := r, qlen := o.qlen - 1 }).so k).qlimit := congrArg Prod.snd c2.1
        refine ⟨?_, .inl ?_, .inl (Nat.le_trans c2.2 ?_)⟩
        · show if j = k then _ else _
          split
          · rename_i e
            dsimp only
            rw [e1, upd_so, if_pos e.symm, ← e, hq]; rfl
          · rename_i e
            dsimp only
            rw [e1, upd_ne _ _ (Ne.symm e)]
        · dsimp only
          rw [e2, upd_so]; split
          · rename_i e; rw [e]
          · rfl
        · refine upd_tot ?_ k
          unfold tot; rw [hq]; simp
    · refine ⟨?_, .inl rfl, .inl (Nat.le_refl _)⟩
      show if j = k then _ else _
      split <;> rfl
  | accept2 i =>
    refine Calm.fr ?_ _ k rfl
    unfold step; dsimp only
    split
    · have : Calm s ({ s with taken := s.taken.erase i }.upd i fun o => { o with nofd := false }) :=
        Calm.trans (b := { s with taken := s.taken.erase i }) (Calm.refl s) (Calm.upd rfl (Nat.le_refl _))
      unfold Verif.Sock.accept2
      split
      · exact this
      · dsimp only; split <;> exact this
    · exact Calm.refl _
  | closeDisc i act drop =>
    refine Calm.fr ?_ _ k rfl
    unfold step; dsimp only
    split
    · exact Calm.refl _
    · split
      · dsimp only
        refine Calm.trans (b := if act then tcpDisc s i drop else s) ?_ (Calm.upd rfl (Nat.le_refl _))
        split
        · exact calm_tcpDisc _ _ _
        · exact Calm.refl _
      · exact Calm.refl _
  | closePru i drop =>
    refine Calm.fr ?_ _ k rfl
    unfold step; dsimp only
    split
    · dsimp only; exact Calm.trans (Calm.trans (calm_tcpDisc _ _ _) (calm_protoRef _ _)) (Calm.upd rfl (Nat.le_refl _))
    · exact Calm.refl _
  | closeDeq j =>
    unfold step; dsimp only
    split
    · split
      · rename_i sp r hq
        have c : Calm s ((s.upd j fun o => { o with incomp := r, incqlen := o.incqlen - 1 }).upd sp fun o => { o with sqInc := false, head := none }) := by
          refine Calm.trans (b := s.upd _ _) (Calm.upd rfl ?_) (Calm.upd rfl (Nat.le_refl _))
          unfold tot; rw [hq]; simp
        have c := c k
        exact ⟨fun _ => congrArg Prod.fst c.1, .inl (congrArg Prod.snd c.1), .inl c.2⟩
      · split
        · rename_i sp r hq
          have c2 : Calm (s.upd j fun o => { o with comp := r, qlen := o.qlen - 1 }) ((s.upd j fun o => { o with comp := r, qlen := o.qlen - 1 }).upd sp
            fun o => { o with sqComp := false, head := none }) := Calm.upd rfl (Nat.le_refl _)
          have c2 := c2 k
          refine ⟨fun e => ?_, .inl ?_, .inl (Nat.le_trans c2.2 ?_)⟩
          · refine (congrArg Prod.fst c2.1).trans ?_
            show ((s.upd j _).so k).comp = _
            rw [upd_ne _ _ (Ne.symm e)]
          · refine (congrArg Prod.snd c2.1).trans ?_
            show ((s.upd j fun o => { o with comp := r, qlen := o.qlen - 1 }).so k).qlimit = _
            rw [upd_so]; split
            · rename_i e; rw [e]
            · rfl
          · refine upd_tot ?_ k
            unfold tot; rw [hq]; simp
        · exact ⟨fun _ => rfl, .inl rfl, .inl (Nat.le_refl _)⟩
    · exact ⟨fun _ => rfl, .inl rfl, .inl (Nat.le_refl _)⟩
  | abort i =>
    refine Calm.fr ?_ _ k rfl
    unfold step; dsimp only
    split
    · exact Calm.trans (b := { s with aborting := s.aborting.erase i }) (Calm.refl s) (calm_soabort _ _)
    · exact Calm.refl _
  | closeEnd i =>
    refine Calm.fr ?_ _ k rfl
    unfold step; dsimp only
    split
    · exact calm_closeEnd _ _
    · exact Calm.refl _
  | newconn h0 attach bound =>
    unfold step; dsimp only
    split
    · rename_i c
      obtain ⟨p, hp, hl⟩ := pcbIs_some c
      simp only [Pcb.alive, Bool.and_eq_true, Bool.not_eq_true', decide_eq_true_eq] at hl
      obtain ⟨o1, o2⟩ := h.of_pcb (i := h0) (by rw [hp]; exact (fun c => by cases c))
      obtain ⟨⟨q, hq, r, hx⟩, _⟩ := h.used o1 o2
      rw [hp] at hq; cases hq
      have hu : own h0 = .user := by
        by_cases c : own h0 = .user
        · exact c
        · rw [if_neg c] at hx
          have := hx.1 hl.2 hl.1.1.1
          rw [hl.1.2] at this; cases this
      obtain ⟨a1, a2, a3⟩ := h.newconn_frame ht h0 attach bound hu k
      refine ⟨a1, ?_, ?_⟩
      · rcases a2 with q | q
        · exact .inl q
        · exact .inr (.inl q)
      · rcases a3 with q | q
        · exact .inl q
        · exact .inr q.2
    · exact ⟨rfl, .inl rfl, .inl (Nat.le_refl _)⟩
  | established i =>
    unfold step; dsimp only
    split
    · rename_i c
      have c1 : Calm s ((onPcb s i fun p => { p with phase := .est }).upd i fun o => { o with busy := true }) :=
        Calm.trans (calm_onPcb s i _) (Calm.upd rfl (Nat.le_refl _))
      have e1 : ∀ j, ((((onPcb s i fun p => { p with phase := .est }).upd i fun o => { o with busy := true })).so j).comp = (s.so j).comp :=
        fun j => congrArg Prod.fst (c1 j).1
      unfold Verif.Sock.established
      dsimp only
      split
      · refine ⟨?_, .inl (congrArg Prod.snd (c1 k).1), .inl (c1 k).2⟩
        show _ = _ ++ _
        rw [if_neg (fun c => by cases c), List.append_nil]; exact e1 k
      · rename_i j hj
        split
        · rename_i hs
          have hi : own i = .incomp j := by
            have o12 : own i ≠ .out ∧ own i ≠ .free := by
              apply h.of_pcb
              obtain ⟨p, hp, _⟩ := pcbIs_some c
              rw [hp]; exact (fun c => by cases c)
            obtain ⟨_, u1, u2, u3, u4, u5⟩ := h.used o12.1 o12.2
            rw [hs] at u5; rw [hj] at u3
            cases hw : own i with
            | incomp j' => rw [hw] at u3; simp only [hd, Option.some.injEq] at u3; rw [u3]
            | _ => rw [hw] at u5; cases u5
          have hm : i ∈ (s.so j).incomp := (h.mem (.incomp j) rfl i).2 hi
          have e2 : (((onPcb s i fun p => { p with phase := .est }).upd i fun o => { o with busy := true }).so j) = s.so j := by
            have := (h.head_user (.inr hi)).2.2
            unfold onPcb
            rw [upd_upd, upd_ne _ _ this]
          generalize ((onPcb s i fun p => { p with phase := .est }).upd i fun o => { o with busy := true }) = s1 at c1 e1 e2 ⊢
          rw [upd_upd]
          have c3 := (Calm.upd (s := s1.upd j fun o => { o with incomp := o.incomp.erase i, incqlen := o.incqlen - 1, comp := o.comp ++ [i], qlen := o.qlen + 1 }) (i := i)
            (f := fun o => { o with sqInc := false, sqComp := true }) rfl (Nat.le_refl _)) k
          refine ⟨?_, .inl ?_, .inl (Nat.le_trans c3.2 ?_)⟩
          · show _ = _ ++ _
            refine (congrArg Prod.fst c3.1).trans ?_
            show ((s1.upd j _).so k).comp = _
            rw [upd_so]
            by_cases e : k = j
            · rw [if_pos e, if_pos (by rw [e]), e]; dsimp only; rw [e1]
            · rw [if_neg e, if_neg (fun c => e (Option.some.inj c).symm), List.append_nil, e1]
          · refine (congrArg Prod.snd c3.1).trans ?_
            show ((s1.upd j fun o => { o with incomp := o.incomp.erase i, incqlen := o.incqlen - 1, comp := o.comp ++ [i], qlen := o.qlen + 1 }).so k).qlimit = _
            rw [upd_so]; split
            · rename_i e; rw [e2, e]
            · exact congrArg Prod.snd (c1 k).1
          · refine Nat.le_trans (upd_tot ?_ k) (c1 k).2
            rw [e2]
            unfold tot
            dsimp only
            rw [List.length_erase_of_mem hm, List.length_append]
            have := List.length_pos_of_mem hm
            simp only [List.length_singleton]
            omega
        · refine ⟨?_, .inl (congrArg Prod.snd (c1 k).1), .inl (c1 k).2⟩
          show _ = _ ++ _
          rw [if_neg (fun c => by cases c), List.append_nil]; exact e1 k
    · refine ⟨?_, .inl rfl, .inl (Nat.le_refl _)⟩
      show _ = _ ++ _
      rw [if_neg (fun c => by cases c), List.append_nil]
  | tcpDone i =>
    refine Calm.fr ?_ _ k rfl
    unfold step; dsimp only
    split
    · exact calm_tcpClose _ _
    · exact Calm.refl _
  | disconnected i =>
    refine Calm.fr ?_ _ k rfl
    unfold step; dsimp only
    split
    · dsimp only; exact Calm.upd rfl (Nat.le_refl _)
    · exact Calm.refl _
  | twstart i =>
    refine Calm.fr ?_ _ k rfl
    unfold step; dsimp only
    split
    · have : Calm s ((onPcb s i fun p => { p with tw := true, sockref := false }).upd i
        fun o => { o with busy := false, disc := true, proto := o.proto && !(pcbIs s i (·.sockref)) }) :=
        Calm.trans (calm_onPcb s i _) (Calm.upd rfl (Nat.le_refl _))
      dsimp only
      split
      · exact Calm.trans this (calm_sofree _ _)
      · exact this
    · exact Calm.refl _
  | twclose i =>
    refine Calm.fr ?_ _ k rfl
    unfold step; dsimp only
    split
    · have : Calm s ((onPcb s i fun p => { p with dropped := true, sockref := false }).upd i
        fun o => { o with proto := o.proto && !(pcbIs s i (·.sockref)) }) :=
        Calm.trans (calm_onPcb s i _) (Calm.upd rfl (Nat.le_refl _))
      dsimp only
      split
      · exact Calm.trans this (calm_sofree _ _)
      · exact this
    · exact Calm.refl _
  | orphanDone => exact (Calm.refl s).fr _ k rfl

end
end Verif.Sock

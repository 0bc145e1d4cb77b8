import Verif.Sock.Keep
/-! # New connections and the queues -/
namespace Verif.Sock

section
variable {n : Nat} {s : S} {op : List Nat} {own : Nat → Own}

theorem upd_congr {s : S} {i : Nat} {f g : So → So} (h : f (s.so i) = g (s.so i)) : s.upd i f = s.upd i g := by
  unfold S.upd; rw [h]

/-- Remove a connection from the incomplete queue. -/
theorem Inv.deq (h : Inv n s op own) (ht : Tight s own none) {i k : Nat} (hi : own i = .incomp k) :
    let s' := (s.upd k fun o => { o with incomp := o.incomp.erase i, incqlen := o.incqlen - 1 }).upd i
      fun o => { o with sqInc := false, head := none }
    Inv n s' op (setOwn own i .loose) ∧ Tight s' (setOwn own i .loose) (some i) ∧ (s'.so i).proto = false ∧
      (∀ j, j ≠ i → j ≠ k → s'.so j = s.so j) ∧
      s'.so k = { s.so k with incomp := (s.so k).incomp.erase i, incqlen := (s.so k).incqlen - 1 } ∧
      s'.so i = { s.so i with sqInc := false, head := none } := by
  intro s'
  have hk := (h.head_user (.inr hi)).2.2
  obtain ⟨⟨p, hp, r, hx⟩, u1, u2, u3, u4, u5⟩ := h.used (i := i) (by rw [hi]; exact (fun c => by cases c)) (by rw [hi]; exact (fun c => by cases c))
  rw [if_neg (by rw [hi]; exact (fun c => by cases c))] at hx
  have e1 : ∀ j, j ≠ i → j ≠ k → s'.so j = s.so j := by
    intro j h1 h2
    show ((s.upd k _).upd i _).so j = _
    rw [upd_ne _ _ h1, upd_ne _ _ h2]
  have e2 : s'.so k = { s.so k with incomp := (s.so k).incomp.erase i, incqlen := (s.so k).incqlen - 1 } := by
    show ((s.upd k _).upd i _).so k = _
    rw [upd_ne _ _ hk, upd_same]
  have e3 : s'.so i = { s.so i with sqInc := false, head := none } := by
    show ((s.upd k _).upd i _).so i = _
    rw [upd_same, upd_ne _ _ (Ne.symm hk)]
  refine ⟨?_, ?_, ?_, e1, e2, e3⟩
  · refine h.leave (f := fun o => { o with incomp := o.incomp.erase i, incqlen := o.incqlen - 1 })
      (g := fun o => { o with sqInc := false, head := none }) (tk := s.taken) (ab := s.aborting) (.inr ⟨hi, fun _ => ⟨rfl, rfl, rfl, rfl⟩⟩)
      (fun _ => ⟨rfl, rfl, rfl, rfl, rfl, rfl, rfl, rfl, rfl⟩) (.inl ⟨rfl, rfl, rfl⟩) (fun _ => ⟨rfl, rfl, rfl, rfl, rfl, rfl, rfl, rfl, rfl⟩) ?_
    refine ⟨?_, rfl, ?_, rfl⟩
    · show (s.so i).count = _; rw [u1, hi]; rfl
    · show (s.so i).sqComp = _; rw [u4, hi]; rfl
  · intro j hj hx
    have e : j ≠ i := fun c => hx (by rw [c])
    rw [setOwn_ne _ e] at hj
    have := ht j hj (fun c => by cases c)
    by_cases ek : j = k
    · rw [ek, e2]; rw [ek] at this; exact this
    · rw [e1 j e ek]; exact this
  · rw [e3]; exact (hx.2.2.2 (by rw [hi]; exact (fun c => by cases c))).1

/-- Making room in the incomplete queue. -/
theorem Inv.evict (m : Nat) (h : Inv n s op own) (ht : Tight s own none) (k : Nat) :
    ∃ own', Inv n (evict m s k) op own' ∧ Tight (evict m s k) own' none ∧ (∀ j, own j ≠ .incomp k → own' j = own j) ∧
      (∀ j, own' j = own j ∨ own' j = .loose ∨ own' j = .free) ∧
      (∀ j, own j ≠ .incomp k → j ≠ k → (Verif.Sock.evict m s k).so j = s.so j) ∧
      (∃ a, (Verif.Sock.evict m s k).so k = { s.so k with incomp := a, incqlen := a.length } ∧
        ((s.so k).incomp.length ≤ m → a.length ≤ (s.so k).qlimit) ∧ a.length ≤ (s.so k).incomp.length) := by
  induction m generalizing s own with
  | zero =>
    refine ⟨own, h, ht, fun _ _ => rfl, fun _ => .inl rfl, fun _ _ _ => rfl, (s.so k).incomp, ?_, ?_, Nat.le_refl _⟩
    · show s.so k = _; rw [← h.il]
    · intro c; rw [Nat.le_zero.1 c]; exact Nat.zero_le _
  | succ m ih =>
    unfold Verif.Sock.evict
    by_cases c : (s.so k).incqlen > (s.so k).qlimit
    · rw [if_pos c]
      cases hq : (s.so k).incomp with
      | nil =>
        refine ⟨own, h, ht, fun _ _ => rfl, fun _ => .inl rfl, fun _ _ _ => rfl, [], ?_, ?_, Nat.le_refl _⟩
        · show s.so k = _; rw [← hq, ← h.il]
        · intro _; exact Nat.zero_le _
      | cons sp r =>
        have hi : own sp = .incomp k := (h.mem (.incomp k) rfl sp).1 (by show sp ∈ (s.so k).incomp; rw [hq]; exact List.mem_cons_self)
        have hk := (h.head_user (.inr hi)).2.2
        dsimp only
        have eq : (s.upd k fun o => { o with incomp := o.incomp.tail, incqlen := o.incqlen - 1 }) =
            (s.upd k fun o => { o with incomp := o.incomp.erase sp, incqlen := o.incqlen - 1 }) := by
          apply upd_congr
          rw [hq]; simp
        rw [eq]
        obtain ⟨a1, a2, a3, a4, a5, a6⟩ := h.deq ht hi
        generalize ((s.upd k fun o => { o with incomp := o.incomp.erase sp, incqlen := o.incqlen - 1 }).upd sp
          fun o => { o with sqInc := false, head := none }) = s1 at a1 a2 a3 a4 a5 a6 ⊢
        obtain ⟨own1, b1, b2, b3, b4, b5⟩ := a1.soabort (setOwn_same _ _) a3 a2
        have hk1 : (Verif.Sock.soabort s1 sp).so k = { s.so k with incomp := r, incqlen := (s.so k).incqlen - 1 } := by
          rw [b4 k hk, a5, hq]; simp
        have hlen : (s.so k).incqlen = r.length + 1 := by rw [h.il, hq]; rfl
        obtain ⟨own', c1, c2, c3, c4, c5, a, c6, c7, c8⟩ := ih b1 b2
        refine ⟨own', c1, c2, ?_, ?_, ?_, a, ?_, ?_, ?_⟩
        · intro j hj
          have hjs : j ≠ sp := fun e => hj (by rw [e, hi])
          have e : own1 j = own j := by rw [b3 j hjs, setOwn_ne _ hjs]
          rw [c3 j (by rw [e]; exact hj), e]
        · intro j
          rcases c4 j with q | q
          · by_cases hjs : j = sp
            · rw [q, hjs]; exact .inr b5
            · left; rw [q, b3 j hjs, setOwn_ne _ hjs]
          · exact .inr q
        · intro j hj hjk
          have hjs : j ≠ sp := fun e => hj (by rw [e, hi])
          have e : own1 j = own j := by rw [b3 j hjs, setOwn_ne _ hjs]
          rw [c5 j (by rw [e]; exact hj) hjk, b4 j hjs, a4 j hjs hjk]
        · rw [c6, hk1]
        · intro q
          rw [hk1] at c7
          apply c7
          simpa using q
        · rw [hk1] at c8
          exact Nat.le_trans c8 (Nat.le_succ _)
    · rw [if_neg c]
      refine ⟨own, h, ht, fun _ _ => rfl, fun _ => .inl rfl, fun _ _ _ => rfl, (s.so k).incomp, ?_, ?_, Nat.le_refl _⟩
      · show s.so k = _; rw [← h.il]
      · intro _; rw [← h.il]; omega

/-- A socket is taken from the pool. -/
theorem Inv.alloc (h : Inv n s op own) {i : Nat} {r : List Nat} (hf : s.free = i :: r) {w : Own} {op' : List Nat} {o : So}
    (hw : (∃ k, w = .fresh k) ∧ op' = op ∨ w = .user ∧ op' = i :: op) (hg : Good o w)
    (ho : o.comp = [] ∧ o.incomp = [] ∧ o.qlen = 0 ∧ o.incqlen = 0) (f : So → So) (hfo : f (s.so i) = o) :
    Inv n ({ s with free := r }.upd i f) op' (setOwn own i w) := by
  have hi : own i = .free := (h.mem .free rfl i).1 (by show i ∈ s.free; rw [hf]; exact List.mem_cons_self)
  have g := h.good i
  unfold Good at g
  rw [if_pos (.inr hi)] at g
  have hso : ∀ j, ({ s with free := r }.upd i f).so j = if j = i then o else s.so j := by
    intro j; rw [upd_so]; dsimp only; rw [hfo]
  generalize ({ s with free := r }.upd i f).so = so' at hso
  have hs' : ({ s with free := r }.upd i f) = { s with free := r, so := so' } := by
    unfold S.upd; congr 1; funext j; rw [hso]; dsimp only; rw [hfo]
  rw [hs']
  have hc : ∀ j, (so' j).comp = (s.so j).comp := by
    intro j; rw [hso]; split
    · rename_i e; rw [e, ho.1, g.1]
    · rfl
  have hn : ∀ j, (so' j).incomp = (s.so j).incomp := by
    intro j; rw [hso]; split
    · rename_i e; rw [e, ho.2.1, g.2.1]
    · rfl
  have hw1 : w ≠ .out ∧ w ≠ .free ∧ (∀ k, w ≠ .comp k) ∧ (∀ k, w ≠ .incomp k) := by
    rcases hw with ⟨⟨k, q⟩, _⟩ | ⟨q, _⟩ <;> rw [q] <;>
      exact ⟨(fun c => by cases c), (fun c => by cases c), (fun k c => by cases c), (fun k c => by cases c)⟩
  apply h.move hi (Ne.symm hw1.2.1) (fun c => by cases c) hw1.1
  · intro j
    show Good (so' j) _
    rw [hso]
    by_cases e : j = i
    · rw [if_pos e, e, setOwn_same]; exact hg
    · rw [if_neg e, setOwn_ne _ e]; exact h.good j
  · intro _; show r = s.free.erase i; rw [hf]; simp
  · intro hl
    rcases hw with ⟨⟨k, q⟩, _⟩ | ⟨q, q2⟩
    · rw [q] at hl; cases hl
    · rw [q]; show op'.Perm (i :: op); rw [q2]
  · intro v v1 v2
    cases v with
    | free => exact absurd rfl v1
    | comp j => exact hc j
    | incomp j => exact hn j
    | user =>
      show op' = op
      rcases hw with q | q
      · exact q.2
      · exact absurd q.1.symm v2
    | _ => rfl
  · intro j
    show (so' j).qlen = (so' j).comp.length ∧ (so' j).incqlen = (so' j).incomp.length
    rw [hso]
    split
    · rw [ho.1, ho.2.1, ho.2.2.1, ho.2.2.2]; exact ⟨rfl, rfl⟩
    · exact ⟨h.ql j, h.il j⟩
  · exact h.ok

/-- A record of the pool is overwritten. -/
theorem Inv.reinit (h : Inv n s op own) {i : Nat} (hi : own i = .free) (f : So → So)
    (ho : (f (s.so i)).comp = [] ∧ (f (s.so i)).incomp = [] ∧ (f (s.so i)).qlen = 0 ∧ (f (s.so i)).incqlen = 0 ∧ (f (s.so i)).pcb = none) :
    Inv n (s.upd i f) op own := by
  have g := h.good i
  unfold Good at g
  rw [if_pos (.inr hi)] at g
  refine h.upd i f ?_ (by rw [ho.1, g.1]) (by rw [ho.2.1, g.2.1]) (by rw [ho.2.2.1, h.ql, g.1]; rfl) (by rw [ho.2.2.2.1, h.il, g.2.1]; rfl)
  unfold Good
  rw [if_pos (.inr hi)]
  exact ⟨ho.1, ho.2.1, ho.2.2.2.2⟩

/-- A new connection enters the incomplete queue. -/
theorem Inv.enqueue (h : Inv n s op own) {i k : Nat} (hi : own i = .fresh k) (hk : own k = .user) (ha : (s.so k).accepting = true) :
    Inv n ((s.upd k fun o => { o with incomp := o.incomp ++ [i], incqlen := o.incqlen + 1 }).upd i fun o => { o with sqInc := true })
      op (setOwn own i (.incomp k)) := by
  have hki : k ≠ i := fun c => by rw [c, hi] at hk; cases hk
  obtain ⟨⟨p, hp, r, hx⟩, u1, u2, u3, u4, u5⟩ := h.used (i := i) (by rw [hi]; exact (fun c => by cases c)) (by rw [hi]; exact (fun c => by cases c))
  rw [hi] at hx u1 u2 u3 u4 u5
  rw [if_neg (fun c => by cases c)] at hx
  generalize hs : ((s.upd k fun o => { o with incomp := o.incomp ++ [i], incqlen := o.incqlen + 1 }).upd i fun o => { o with sqInc := true }) = s'
  have e1 : ∀ j, j ≠ i → j ≠ k → s'.so j = s.so j := by
    intro j h1 h2; rw [← hs, upd_ne _ _ h1, upd_ne _ _ h2]
  have e2 : s'.so k = { s.so k with incomp := (s.so k).incomp ++ [i], incqlen := (s.so k).incqlen + 1 } := by
    rw [← hs, upd_ne _ _ hki, upd_same]
  have e3 : s'.so i = { s.so i with sqInc := true } := by
    rw [← hs, upd_same, upd_ne _ _ (Ne.symm hki)]
  have hc : ∀ j, (s'.so j).comp = (s.so j).comp := by
    intro j
    by_cases a : j = i
    · rw [a, e3]
    · by_cases b : j = k
      · rw [b, e2]
      · rw [e1 j a b]
  have hn : ∀ j, j ≠ k → (s'.so j).incomp = (s.so j).incomp := by
    intro j b
    by_cases a : j = i
    · rw [a, e3]
    · rw [e1 j a b]
  apply h.move hi (fun c => by cases c) (fun c => by cases c) (fun c => by cases c)
  · intro j
    by_cases a : j = i
    · rw [a, setOwn_same, e3]
      refine good_of (fun c => by cases c) (fun c => by cases c) ⟨⟨p, hp, r, ?_⟩, u1, u2, u3, u4, rfl⟩
      rw [if_neg (fun c => by cases c)]
      exact ⟨hx.1, hx.2.1, hx.2.2.1, fun _ => hx.2.2.2 (fun c => by cases c)⟩
    · rw [setOwn_ne _ a]
      by_cases b : j = k
      · rw [b, e2]
        obtain ⟨⟨p, hp, r, hx⟩, u⟩ := h.used (i := k) (by rw [hk]; exact (fun c => by cases c)) (by rw [hk]; exact (fun c => by cases c))
        rw [if_pos hk] at hx
        refine good_of (by rw [hk]; exact (fun c => by cases c)) (by rw [hk]; exact (fun c => by cases c)) ⟨⟨p, hp, r, ?_⟩, u⟩
        rw [if_pos hk]
        exact ⟨hx.1, hx.2.1, hx.2.2.1, fun c => by rw [ha] at c; cases c⟩
      · rw [e1 j a b]; exact h.good j
  · intro c; cases c
  · intro _
    show (s'.so k).incomp.Perm (i :: (s.so k).incomp)
    rw [e2]; exact List.perm_append_singleton _ _
  · intro v v1 v2
    cases v with
    | comp j => exact hc j
    | incomp j => exact hn j (fun c => v2 (by rw [c]))
    | _ => rw [← hs]; rfl
  · intro j
    by_cases b : j = k
    · rw [b, hc, e2]
      exact ⟨h.ql k, by simp [h.il]⟩
    · rw [hc, hn j b]
      by_cases a : j = i
      · rw [a, e3]; exact ⟨h.ql i, h.il i⟩
      · rw [e1 j a b]; exact ⟨h.ql j, h.il j⟩
  · rw [← hs]; exact h.ok

/-- A connection is complete: from one queue to the other. -/
theorem Inv.promote (h : Inv n s op own) {i k : Nat} (hi : own i = .incomp k) :
    Inv n (((s.upd k fun o => { o with incomp := o.incomp.erase i, incqlen := o.incqlen - 1 }).upd k
        fun o => { o with comp := o.comp ++ [i], qlen := o.qlen + 1 }).upd i fun o => { o with sqInc := false, sqComp := true })
      op (setOwn own i (.comp k)) := by
  obtain ⟨hk, ha, hki⟩ := h.head_user (.inr hi)
  obtain ⟨⟨p, hp, r, hx⟩, u1, u2, u3, u4, u5⟩ := h.used (i := i) (by rw [hi]; exact (fun c => by cases c)) (by rw [hi]; exact (fun c => by cases c))
  rw [hi] at hx u1 u2 u3 u4 u5
  rw [if_neg (fun c => by cases c)] at hx
  have hm : i ∈ (s.so k).incomp := (h.mem (.incomp k) rfl i).2 hi
  rw [upd_upd]
  generalize hs : ((s.upd k fun o => { o with comp := o.comp ++ [i], incomp := o.incomp.erase i, qlen := o.qlen + 1, incqlen := o.incqlen - 1 }).upd i
    fun o => { o with sqInc := false, sqComp := true }) = s'
  have e1 : ∀ j, j ≠ i → j ≠ k → s'.so j = s.so j := by
    intro j h1 h2; rw [← hs, upd_ne _ _ h1, upd_ne _ _ h2]
  have e2 : s'.so k = { s.so k with comp := (s.so k).comp ++ [i], incomp := (s.so k).incomp.erase i, qlen := (s.so k).qlen + 1, incqlen := (s.so k).incqlen - 1 } := by
    rw [← hs, upd_ne _ _ hki, upd_same]
  have e3 : s'.so i = { s.so i with sqInc := false, sqComp := true } := by
    rw [← hs, upd_same, upd_ne _ _ (Ne.symm hki)]
  have hc : ∀ j, j ≠ k → (s'.so j).comp = (s.so j).comp := by
    intro j b
    by_cases a : j = i
    · rw [a, e3]
    · rw [e1 j a b]
  have hn : ∀ j, j ≠ k → (s'.so j).incomp = (s.so j).incomp := by
    intro j b
    by_cases a : j = i
    · rw [a, e3]
    · rw [e1 j a b]
  apply h.move hi (fun c => by cases c) (fun c => by cases c) (fun c => by cases c)
  · intro j
    by_cases a : j = i
    · rw [a, setOwn_same, e3]
      refine good_of (fun c => by cases c) (fun c => by cases c) ⟨⟨p, hp, r, ?_⟩, u1, u2, u3, rfl, rfl⟩
      rw [if_neg (fun c => by cases c)]
      exact ⟨hx.1, hx.2.1, hx.2.2.1, fun _ => hx.2.2.2 (fun c => by cases c)⟩
    · rw [setOwn_ne _ a]
      by_cases b : j = k
      · rw [b, e2]
        obtain ⟨⟨p, hp, r, hx⟩, u⟩ := h.used (i := k) (by rw [hk]; exact (fun c => by cases c)) (by rw [hk]; exact (fun c => by cases c))
        rw [if_pos hk] at hx
        refine good_of (by rw [hk]; exact (fun c => by cases c)) (by rw [hk]; exact (fun c => by cases c)) ⟨⟨p, hp, r, ?_⟩, u⟩
        rw [if_pos hk]
        exact ⟨hx.1, hx.2.1, hx.2.2.1, fun c => by rw [ha] at c; cases c⟩
      · rw [e1 j a b]; exact h.good j
  · intro _
    show (s'.so k).incomp = (s.so k).incomp.erase i
    rw [e2]
  · intro _
    show (s'.so k).comp.Perm (i :: (s.so k).comp)
    rw [e2]; exact List.perm_append_singleton _ _
  · intro v v1 v2
    cases v with
    | comp j => exact hc j (fun c => v2 (by rw [c]))
    | incomp j => exact hn j (fun c => v1 (by rw [c]))
    | _ => rw [← hs]; rfl
  · intro j
    by_cases b : j = k
    · rw [b, e2]
      have := List.length_erase_of_mem hm
      refine ⟨by simp [h.ql], ?_⟩
      show (s.so k).incqlen - 1 = ((s.so k).incomp.erase i).length
      rw [this, h.il]
    · rw [hc j b, hn j b]
      by_cases a : j = i
      · rw [a, e3]; exact ⟨h.ql i, h.il i⟩
      · rw [e1 j a b]; exact ⟨h.ql j, h.il j⟩
  · rw [← hs]; exact h.ok

end
end Verif.Sock

import Verif.Sock.Reach
/-! # What the events do to the queues -/
namespace Verif.Sock

/-- The completed queue and the limit. -/
def pi (o : So) : List Nat × Nat := (o.comp, o.qlimit)
/-- All pending connections. -/
def tot (o : So) : Nat := o.comp.length + o.incomp.length

theorem upd_pi {s : S} {i : Nat} {f : So → So} (hf : pi (f (s.so i)) = pi (s.so i)) (k : Nat) : pi ((s.upd i f).so k) = pi (s.so k) := by
  rw [upd_so]; split
  · rename_i e; rw [e, hf]
  · rfl

theorem upd_tot {s : S} {i : Nat} {f : So → So} (hf : tot (f (s.so i)) ≤ tot (s.so i)) (k : Nat) : tot ((s.upd i f).so k) ≤ tot (s.so k) := by
  rw [upd_so]; split
  · rename_i e; rw [e]; exact hf
  · exact Nat.le_refl _

/-- The completed queues and limits stay; no more pending connections. -/
def Calm (s s' : S) : Prop := ∀ k, pi (s'.so k) = pi (s.so k) ∧ tot (s'.so k) ≤ tot (s.so k)

theorem Calm.refl (s : S) : Calm s s := fun _ => ⟨rfl, Nat.le_refl _⟩
theorem Calm.trans {a b c : S} (h1 : Calm a b) (h2 : Calm b c) : Calm a c :=
  fun k => ⟨(h2 k).1.trans (h1 k).1, Nat.le_trans (h2 k).2 (h1 k).2⟩
theorem Calm.upd {s : S} {i : Nat} {f : So → So} (h1 : pi (f (s.so i)) = pi (s.so i)) (h2 : tot (f (s.so i)) ≤ tot (s.so i)) : Calm s (s.upd i f) :=
  fun k => ⟨upd_pi h1 k, upd_tot h2 k⟩

theorem erase_le (l : List Nat) (i : Nat) : (l.erase i).length ≤ l.length := List.length_erase_le

theorem calm_dequeue (s : S) (i : Nat) : Calm s (dequeue s i) := by
  unfold dequeue
  split
  · exact Calm.refl _
  · refine Calm.trans (b := s.upd _ _) (Calm.upd rfl ?_) (Calm.upd rfl (Nat.le_refl _))
    exact Nat.add_le_add_left (erase_le _ _) _

theorem calm_detach (s : S) (i : Nat) : Calm s (detach s i) := by
  unfold detach
  split
  · exact Calm.refl _
  · have : Calm s (s.upd i fun o => { o with pcb := none }) := Calm.upd rfl (Nat.le_refl _)
    dsimp only
    split
    · exact this
    · split
      · split
        · exact this
        · exact this
      · split
        · exact this
        · exact this

theorem calm_sofree (s : S) (i : Nat) : Calm s (sofree s i) := by
  unfold sofree
  split
  · exact Calm.refl _
  · exact Calm.trans (calm_dequeue s i) (calm_detach _ i)

theorem calm_onPcb (s : S) (i : Nat) (f : Pcb → Pcb) : Calm s (onPcb s i f) := Calm.upd rfl (Nat.le_refl _)

theorem calm_tcpClose (s : S) (i : Nat) : Calm s (tcpClose s i) := by
  unfold tcpClose
  have h1 : Calm s ((onPcb s i fun p => { p with dropped := true }).upd i fun o => { o with busy := false, disc := true }) :=
    Calm.trans (calm_onPcb s i _) (Calm.upd rfl (Nat.le_refl _))
  dsimp only
  split
  · exact Calm.trans (Calm.trans (Calm.trans h1 (calm_onPcb _ i _)) (Calm.upd rfl (Nat.le_refl _))) (calm_sofree _ i)
  · exact h1

theorem calm_protoRef (s : S) (i : Nat) : Calm s (protoRef s i) := by
  unfold protoRef
  split
  · exact Calm.refl _
  · split
    · exact Calm.refl _
    · exact Calm.trans (calm_onPcb s i _) (Calm.upd rfl (Nat.le_refl _))

theorem calm_soabort (s : S) (i : Nat) : Calm s (soabort s i) := by
  unfold soabort
  refine Calm.trans ?_ (calm_sofree _ i)
  unfold usrAbort
  split
  · exact Calm.refl _
  · refine Calm.trans ?_ (calm_protoRef _ i)
    split
    · exact calm_tcpClose s i
    · exact Calm.refl _

theorem calm_tcpDisc (s : S) (i : Nat) (d : Bool) : Calm s (tcpDisc s i d) := by
  unfold tcpDisc
  split
  · exact Calm.refl _
  · split
    · exact Calm.refl _
    · split
      · exact calm_tcpClose s i
      · exact Calm.refl _

theorem calm_evict (m : Nat) (s : S) (h : Nat) : Calm s (evict m s h) := by
  induction m generalizing s with
  | zero => exact Calm.refl _
  | succ m ih =>
    unfold evict
    split
    · split
      · exact Calm.refl _
      · refine Calm.trans ?_ (ih _)
        refine Calm.trans ?_ (calm_soabort _ _)
        refine Calm.trans (b := s.upd _ _) (Calm.upd rfl ?_) (Calm.upd rfl (Nat.le_refl _))
        refine Nat.add_le_add_left ?_ _
        rw [List.length_tail]; exact Nat.sub_le _ _
    · exact Calm.refl _

theorem calm_closeEnd (s : S) (i : Nat) : Calm s (closeEnd s i) := by
  unfold closeEnd
  have h1 : Calm s (s.upd i fun o => { o with nofd := true }) := Calm.upd rfl (Nat.le_refl _)
  dsimp only
  split
  · exact h1
  · split
    · exact Calm.trans (Calm.trans h1 (Calm.upd rfl (Nat.le_refl _))) (calm_sofree _ i)
    · exact Calm.trans h1 (Calm.upd rfl (Nat.le_refl _))

section
variable {n : Nat} {s : S} {op : List Nat} {own : Nat → Own}

/-- The limit of a new socket is 0, that of another stays. -/
theorem Inv.calm_alloc (h : Inv n s op own) {i : Nat} {s1 : S} (ha : soalloc s = some (i, s1)) (k : Nat) :
    (s1.so k).comp = (s.so k).comp ∧ tot (s1.so k) = tot (s.so k) ∧ ((s1.so k).qlimit = (s.so k).qlimit ∨ (s1.so k).qlimit = 0) ∧
    own i = .free ∧ (k ≠ i → s1.so k = s.so k) := by
  unfold soalloc at ha
  cases hf : s.free with
  | nil => rw [hf] at ha; cases ha
  | cons j r =>
    rw [hf] at ha
    simp only [Option.some.injEq, Prod.mk.injEq] at ha
    obtain ⟨e, ha⟩ := ha
    subst e
    have hj : own j = .free := (h.mem .free rfl j).1 (by show j ∈ s.free; rw [hf]; exact List.mem_cons_self)
    have g := h.good j
    unfold Good at g
    rw [if_pos (.inr hj)] at g
    rw [← ha]
    by_cases e : k = j
    · subst e
      rw [upd_same]
      unfold tot
      rw [g.1, g.2.1]
      exact ⟨rfl, rfl, .inr rfl, hj, fun c => absurd rfl c⟩
    · rw [upd_ne _ _ e]
      exact ⟨rfl, rfl, .inl rfl, hj, fun _ => rfl⟩

/-- A new connection: the completed queues stay, and the pending connections do not exceed the limits. -/
theorem Inv.newconn_frame (h : Inv n s op own) (ht : Tight s own none) (h0 : Nat) (attach bound : Bool) (hu : own h0 = .user) (k : Nat) :
    ((Verif.Sock.newconn s h0 attach bound).2.so k).comp = (s.so k).comp ∧
    (((Verif.Sock.newconn s h0 attach bound).2.so k).qlimit = (s.so k).qlimit ∨ ((Verif.Sock.newconn s h0 attach bound).2.so k).qlimit = 0) ∧
    (tot ((Verif.Sock.newconn s h0 attach bound).2.so k) ≤ tot (s.so k) ∨
      k = h0 ∧ tot ((Verif.Sock.newconn s h0 attach bound).2.so k) ≤ 3 * (s.so k).qlimit / 2 + (s.so k).qlimit + 1) := by
  unfold Verif.Sock.newconn
  split
  · exact ⟨rfl, .inl rfl, .inl (Nat.le_refl _)⟩
  · rename_i hq
    cases ha : soalloc s with
    | none => exact ⟨rfl, .inl rfl, .inl (Nat.le_refl _)⟩
    | some r =>
      obtain ⟨i, s1⟩ := r
      obtain ⟨a1, a2, a3, a4, a5⟩ := h.calm_alloc ha k
      have hki : h0 ≠ i := fun c => by rw [c, a4] at hu; cases hu
      have b5 := (h.calm_alloc ha h0).2.2.2.2 hki
      dsimp only
      cases attach with
      | false =>
        rw [if_pos (by rfl)]
        have := (Calm.upd (s := s1) (i := i) (f := fun o => { o with head := some h0, nofd := true }) rfl (Nat.le_refl _)) k
        have e1 : (((s1.upd i fun o => { o with head := some h0, nofd := true }).so k).comp) = (s1.so k).comp := congrArg Prod.fst this.1
        have e2 : (((s1.upd i fun o => { o with head := some h0, nofd := true }).so k).qlimit) = (s1.so k).qlimit := congrArg Prod.snd this.1
        refine ⟨e1.trans a1, ?_, .inl (Nat.le_trans this.2 (Nat.le_of_eq a2))⟩
        rw [← e2] at a3; exact a3
      | true =>
        rw [if_neg (by simp)]
        -- the state before making room
        have hfr : s.free ≠ [] := by
          intro c; unfold soalloc at ha; rw [c] at ha; cases ha
        obtain ⟨i', r, hf⟩ := List.exists_cons_of_ne_nil hfr
        have hs1 : i' = i ∧ { s with free := r }.upd i' (fun _ => blank) = s1 := by
          unfold soalloc at ha; rw [hf] at ha
          simpa using ha
        obtain ⟨rfl, hs1⟩ := hs1
        have h2 : Inv n (s1.upd i' fun o => { o with head := some h0, nofd := true, pcb := some ⟨true, .closed, false, false, false⟩ }) op (setOwn own i' (.fresh h0)) := by
          rw [← hs1, upd_upd]
          refine h.alloc hf (.inl ⟨⟨h0, rfl⟩, rfl⟩) (o := { blank with head := some h0, nofd := true, pcb := some ⟨true, .closed, false, false, false⟩ }) ?_ ⟨rfl, rfl, rfl, rfl⟩
            (fun _ => { blank with head := some h0, nofd := true, pcb := some ⟨true, .closed, false, false, false⟩ }) rfl
          refine good_of (fun c => by cases c) (fun c => by cases c) ⟨⟨_, rfl, ⟨rfl, (fun c => by cases c), (fun c => by cases c)⟩, ?_⟩, rfl, rfl, rfl, rfl, rfl⟩
          rw [if_neg (fun c => by cases c)]
          exact ⟨(fun c => by cases c), rfl, rfl, fun _ => ⟨rfl, rfl, rfl, rfl, (fun c => by cases c)⟩⟩
        have t2 : Tight (s1.upd i' fun o => { o with head := some h0, nofd := true, pcb := some ⟨true, .closed, false, false, false⟩ }) (setOwn own i' (.fresh h0)) none := by
          intro j hj hx
          have e : j ≠ i' := fun c => by rw [c, setOwn_same] at hj; cases hj
          rw [setOwn_ne _ e] at hj
          rw [upd_ne _ _ e, ← hs1, upd_ne _ _ e]; exact ht j hj hx
        have cal2 : Calm s1 (s1.upd i' fun o => { o with head := some h0, nofd := true, pcb := some ⟨true, .closed, false, false, false⟩ }) :=
          Calm.upd rfl (Nat.le_refl _)
        have hk2 : (s1.upd i' fun o => { o with head := some h0, nofd := true, pcb := some ⟨true, .closed, false, false, false⟩ }).so h0 = s.so h0 := by
          rw [upd_ne _ _ hki, b5]
        generalize (s1.upd i' fun o => { o with head := some h0, nofd := true, pcb := some ⟨true, .closed, false, false, false⟩ }) = s2 at *
        obtain ⟨own3, _, _, _, _, _, a, c6, c7, c8⟩ := h2.evict (s2.so h0).incomp.length t2 h0
        have cal3 : Calm s2 (Verif.Sock.evict (s2.so h0).incomp.length s2 h0) := calm_evict _ _ _
        generalize Verif.Sock.evict (s2.so h0).incomp.length s2 h0 = s3 at *
        have c7 := c7 (Nat.le_refl _)
        rw [hk2] at c6 c7
        have step4 : ∀ k, (((s3.upd h0 fun o => { o with incomp := o.incomp ++ [i'], incqlen := o.incqlen + 1 }).upd i' fun o => { o with sqInc := true }).so k).comp = (s3.so k).comp ∧
            (((s3.upd h0 fun o => { o with incomp := o.incomp ++ [i'], incqlen := o.incqlen + 1 }).upd i' fun o => { o with sqInc := true }).so k).qlimit = (s3.so k).qlimit ∧
            (k ≠ h0 → tot ((((s3.upd h0 fun o => { o with incomp := o.incomp ++ [i'], incqlen := o.incqlen + 1 }).upd i' fun o => { o with sqInc := true }).so k)) ≤ tot (s3.so k)) := by
          intro k
          have p1 := upd_pi (s := s3) (i := h0) (f := fun o => { o with incomp := o.incomp ++ [i'], incqlen := o.incqlen + 1 }) rfl k
          have p2 := (Calm.upd (s := s3.upd h0 fun o => { o with incomp := o.incomp ++ [i'], incqlen := o.incqlen + 1 }) (i := i') (f := fun o => { o with sqInc := true }) rfl (Nat.le_refl _)) k
          refine ⟨congrArg Prod.fst (p2.1.trans p1), congrArg Prod.snd (p2.1.trans p1), fun e => Nat.le_trans p2.2 ?_⟩
          rw [upd_ne _ _ e]; exact Nat.le_refl _
        have tot4 : tot (((s3.upd h0 fun o => { o with incomp := o.incomp ++ [i'], incqlen := o.incqlen + 1 }).upd i' fun o => { o with sqInc := true }).so h0) ≤
            3 * (s.so h0).qlimit / 2 + (s.so h0).qlimit + 1 := by
          rw [upd_ne _ _ hki, upd_same, c6]
          unfold tot
          dsimp only
          rw [List.length_append, ← h.ql]
          simp only [List.length_singleton]
          omega
        generalize ((s3.upd h0 fun o => { o with incomp := o.incomp ++ [i'], incqlen := o.incqlen + 1 }).upd i' fun o => { o with sqInc := true }) = s4 at *
        have q := step4 k
        have cal := cal3 k
        have fin : ∀ s5 : S, Calm s4 s5 → (s5.so k).comp = (s.so k).comp ∧ ((s5.so k).qlimit = (s.so k).qlimit ∨ (s5.so k).qlimit = 0) ∧
            (tot (s5.so k) ≤ tot (s.so k) ∨ k = h0 ∧ tot (s5.so k) ≤ 3 * (s.so k).qlimit / 2 + (s.so k).qlimit + 1) := by
          intro s5 c5
          have c5 := c5 k
          have e1 : (s5.so k).comp = (s.so k).comp := by
            rw [show (s5.so k).comp = (s4.so k).comp from congrArg Prod.fst c5.1, q.1,
              show (s3.so k).comp = (s2.so k).comp from congrArg Prod.fst cal.1, show (s2.so k).comp = (s1.so k).comp from congrArg Prod.fst (cal2 k).1, a1]
          have e2 : (s5.so k).qlimit = (s1.so k).qlimit := by
            rw [show (s5.so k).qlimit = (s4.so k).qlimit from congrArg Prod.snd c5.1, q.2.1,
              show (s3.so k).qlimit = (s2.so k).qlimit from congrArg Prod.snd cal.1, show (s2.so k).qlimit = (s1.so k).qlimit from congrArg Prod.snd (cal2 k).1]
          refine ⟨e1, by rw [e2]; exact a3, ?_⟩
          by_cases e : k = h0
          · right
            refine ⟨e, ?_⟩
            rw [e] at c5 ⊢
            exact Nat.le_trans c5.2 tot4
          · left
            exact Nat.le_trans c5.2 (Nat.le_trans (q.2.2 e) (Nat.le_trans cal.2 (Nat.le_trans (cal2 k).2 (Nat.le_of_eq a2))))
        cases bound with
        | true => rw [if_pos rfl]; exact fin _ (calm_onPcb _ _ _)
        | false => rw [if_neg (by simp)]; exact fin _ (calm_soabort _ _)

end
end Verif.Sock

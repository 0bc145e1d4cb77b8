import Verif.Arp.Steps
/-! Packet-buffer accounting and the invariant along runs. -/
namespace Verif.Arp

variable {E : Env} {s : St}

/-- The invariant of runs: the table structure, timers refer to pool entries, unused entries hold
no packets, and every packet buffer is free or holds a waiting packet. -/
structure WF (E : Env) (s : St) : Prop where
  inv : Inv E s
  tim : ∀ p ∈ s.timers, 1 ≤ p.2 ∧ p.2 ≤ E.n
  dead : ∀ i, 1 ≤ i → i ≤ E.n → (s.ent i).used = false → (s.ent i).pkts = []
  bal : s.pktFree + waitingCount E s = pktPool

theorem sum_put (f : Nat → Nat) (i v : Nat) : ∀ (l : List Nat), l.Nodup → i ∈ l →
    (l.map (put f i v)).sum + f i = (l.map f).sum + v := by
  intro l
  induction l with
  | nil => intro _ h; cases h
  | cons a l ih =>
    intro hn hm
    rw [List.nodup_cons] at hn
    simp only [List.map_cons, List.sum_cons]
    by_cases ha : a = i
    · subst ha
      rw [put_same]
      have : l.map (put f a v) = l.map f := by
        apply List.map_congr_left
        intro x hx
        rw [put_ne]
        intro hxa; subst hxa; exact hn.1 hx
      rw [this]; omega
    · have hm' : i ∈ l := by
        cases hm with
        | head => exact absurd rfl ha
        | tail _ h => exact h
      rw [put_ne _ _ ha]
      have := ih hn.2 hm'
      omega

theorem mem_pool {i : Nat} (h1 : 1 ≤ i) (h2 : i ≤ E.n) : i ∈ List.range' 1 E.n := by
  rw [List.mem_range']
  exact ⟨i - 1, by omega, by omega⟩

theorem waiting_put {s' : St} {i : Nat} (h1 : 1 ≤ i) (h2 : i ≤ E.n) (e : Entry)
    (he : s'.ent = put s.ent i e) :
    waitingCount E s' + (s.ent i).pkts.length = waitingCount E s + e.pkts.length := by
  unfold waitingCount
  have : (fun j => (s'.ent j).pkts.length) = put (fun j => (s.ent j).pkts.length) i e.pkts.length := by
    funext j
    rw [he]
    by_cases hj : j = i
    · subst hj; rw [put_same, put_same]
    · rw [put_ne _ _ hj, put_ne _ _ hj]
  rw [this]
  exact sum_put _ i _ _ List.nodup_range' (mem_pool h1 h2)

/-- Overwriting one pool entry. -/
theorem wf_put (W : WF E s) {s' : St} (I' : Inv E s') {i : Nat} (h1 : 1 ≤ i) (h2 : i ≤ E.n)
    (e : Entry) (he : s'.ent = put s.ent i e) (hd : e.used = false → e.pkts = [])
    (ht : ∀ p ∈ s'.timers, p ∈ s.timers ∨ p.2 = i)
    (hp : s'.pktFree + e.pkts.length = s.pktFree + (s.ent i).pkts.length) : WF E s' := by
  refine ⟨I', ?_, ?_, ?_⟩
  · intro p hpm
    rcases ht p hpm with h | h
    · exact W.tim p h
    · rw [h]; exact ⟨h1, h2⟩
  · intro j hj1 hj2 hu
    rw [he] at hu ⊢
    by_cases hj : j = i
    · subst hj; rw [put_same] at hu ⊢; exact hd hu
    · rw [put_ne _ _ hj] at hu ⊢; exact W.dead j hj1 hj2 hu
  · have h := waiting_put (E := E) h1 h2 e he
    have hb := W.bal
    omega

theorem wf_init (E : Env) : WF E (init E) := by
  refine ⟨inv_init E, ?_, ?_, ?_⟩
  · intro p hp; simp [init] at hp
  · intro i h1 h2 _
    have : i ≠ 0 := by omega
    simp [init, initEnt, this]
  · have h0 : ∀ i, ((init E).ent i).pkts.length = 0 := by
      intro i
      simp only [init, initEnt]
      split <;> rfl
    unfold waitingCount
    simp only [h0]
    have : ∀ l : List Nat, (l.map (fun _ => 0)).sum = 0 := by
      intro l; induction l with
      | nil => rfl
      | cons a l ih => simp [ih]
    rw [this]; rfl

theorem wf_remove (W : WF E s) {i : Nat} (h1 : 1 ≤ i) (h2 : i ≤ E.n) :
    WF E (remove E s (E.hash (s.ent i).key) i) := by
  cases hr : removable s i with
  | false => rw [remove_noop _ _ hr]; exact W
  | true =>
    refine wf_put W (inv_remove W.inv h1 h2) h1 h2 _ (remove_ent _ _ hr) (fun _ => rfl) ?_ ?_
    · intro p hp; rw [remove_timers] at hp; exact Or.inl hp
    · rw [remove_pktFree _ _ hr]; rfl

theorem wf_age1 (W : WF E s) (now : Nat) {i : Nat} (h1 : 1 ≤ i) (h2 : i ≤ E.n) :
    WF E (age1 E now (E.hash (s.ent i).key) s i) := by
  unfold age1
  split
  · exact wf_remove W h1 h2
  · exact W

theorem wf_ageList (now set : Nat) (l : List Nat) : ∀ {s : St}, WF E s →
    (∀ i ∈ l, 1 ≤ i ∧ i ≤ E.n ∧ E.hash (s.ent i).key = set) →
    WF E (l.foldl (age1 E now set) s) := by
  induction l with
  | nil => intro s W _; exact W
  | cons i l ih =>
    intro s W hl
    have hi := hl i List.mem_cons_self
    have h := wf_age1 W now hi.1 hi.2.1
    have hk := (age1_effect W.inv now hi.1 hi.2.1).2.1
    rw [hi.2.2] at h hk
    rw [List.foldl_cons]
    refine ih h ?_
    intro j hj
    have := hl j (List.mem_cons_of_mem _ hj)
    rw [hk j]; exact this

theorem wf_age (W : WF E s) (now : Nat) : WF E (age E s now) := by
  unfold age
  generalize List.range E.nsets = l
  induction l generalizing s with
  | nil => exact W
  | cons a l ih =>
    rw [List.foldl_cons]
    refine ih ?_
    exact wf_ageList now a (s.tab a) W (fun i hi =>
      ⟨(W.inv.tabR a i hi).1, (W.inv.tabR a i hi).2.1, (W.inv.tabR a i hi).2.2.2⟩)

theorem filter_sub {l : List (Nat × Nat)} {f : Nat × Nat → Bool} {p : Nat × Nat}
    (h : p ∈ l.filter f) : p ∈ l := (List.mem_filter.mp h).1

theorem wf_insertNew (W : WF E s) {k : K} {s1 : St} {i : Nat}
    (h : insertNew E s k = some (s1, i)) : WF E s1 := by
  rcases insertNew_spec W.inv k with ⟨j, hf, hn⟩ | ⟨hf, hfr, hn⟩ | ⟨j, rest, s', hf, hfr, hn, he,
    hfree, ht, hc, hp, hnt, htm⟩
  · rw [hn] at h; cases h; exact W
  · rw [hn] at h; cases h
  · rw [hn] at h
    cases h
    have hif : i ∈ s.free := by rw [hfr]; exact List.mem_cons_self
    have hR := W.inv.freeR i hif
    refine wf_put W (inv_alloc W.inv hf hfr he hfree ht hc) hR.1 hR.2.1 _ he ?_ ?_ ?_
    · intro h; cases h
    · intro p hpm; rw [htm] at hpm; exact Or.inl (filter_sub hpm)
    · rw [hp, W.dead i hR.1 hR.2.1 hR.2.2]; rfl

theorem insertNew_live (I : Inv E s) {k : K} {s1 : St} {i : Nat}
    (h : insertNew E s k = some (s1, i)) : Live E s1 i ∧ (s1.ent i).key = k := by
  rcases insertNew_effect I k with ⟨hn, _⟩ | ⟨s', j, hn, I1, hl, hk, _⟩
  · rw [hn] at h; cases h
  · rw [hn] at h; cases h; exact ⟨hl, hk⟩

theorem wf_insert (W : WF E s) (k : K) (mac : Nat) (m : Bool) (now : Nat) :
    WF E (insert E s k mac m now).1 := by
  have Iall := (insert_effect W.inv k mac m now).1
  unfold insert at Iall ⊢
  cases hn : insertNew E s k with
  | none => exact W
  | some q =>
    obtain ⟨s1, i⟩ := q
    rw [hn] at Iall
    dsimp only at Iall ⊢
    have W1 := wf_insertNew W hn
    have hl := insertNew_live W.inv hn
    have hr := W1.inv.live_range hl.1
    have hs2 : ∃ s2 : St, (if (s1.ent i).pkts = [] then s1 else cancel s1 (s1.ent i).pktTmo) = s2 ∧
        s2.ent = s1.ent ∧ s2.pktFree = s1.pktFree ∧ ∀ p ∈ s2.timers, p ∈ s1.timers := by
      refine ⟨_, rfl, ?_⟩
      split
      · exact ⟨rfl, rfl, fun p hp => hp⟩
      · exact ⟨rfl, rfl, fun p hp => filter_sub hp⟩
    obtain ⟨s2, hs2e, h1, h2, h3⟩ := hs2
    rw [hs2e] at Iall ⊢
    refine wf_put W1 Iall hr.1 hr.2.1 (completed (s1.ent i) mac m now) ?_ ?_ ?_ ?_
    · show put s2.ent _ _ = _; rw [h1]
    · intro _; rfl
    · intro p hp; exact Or.inl (h3 p hp)
    · show s2.pktFree + _ + 0 = _; rw [h2]; rfl

theorem wf_insertInc (W : WF E s) (k : K) : WF E (insertInc E s k).1 := by
  have Iall := (insertInc_effect W.inv k).1
  unfold insertInc at Iall ⊢
  cases hn : insertNew E s k with
  | none => exact W
  | some q =>
    obtain ⟨s1, i⟩ := q
    rw [hn] at Iall
    dsimp only at Iall ⊢
    have W1 := wf_insertNew W hn
    have hl := insertNew_live W.inv hn
    have hr := W1.inv.live_range hl.1
    refine wf_put W1 Iall hr.1 hr.2.1 { s1.ent i with
      mac := 0 } rfl ?_ (fun p hp => Or.inl hp) rfl
    intro h
    exact W1.dead i hr.1 hr.2.1 h

theorem wf_same (W : WF E s) {s' : St} (I' : Inv E s') {i : Nat} (h1 : 1 ≤ i) (h2 : i ≤ E.n)
    (e : Entry) (he : s'.ent = put s.ent i e) (hu : e.used = (s.ent i).used)
    (hp : e.pkts = (s.ent i).pkts) (ht : s'.timers = s.timers) (hf : s'.pktFree = s.pktFree) :
    WF E s' := by
  refine wf_put W I' h1 h2 e he ?_ (fun p hpm => Or.inl (by rw [← ht]; exact hpm)) (by rw [hf, hp])
  intro h
  rw [hp]; exact W.dead i h1 h2 (by rw [← hu]; exact h)

theorem wf_dec (W : WF E s) {i : Nat} (h1 : 1 ≤ i) (h2 : i ≤ E.n) : WF E (decRef E s i) := by
  unfold decRef
  dsimp only
  have W1 : WF E { s with
      ent := put s.ent i
        { s.ent i with
          ref := (s.ent i).ref - 1#32 } } :=
    wf_same W (inv_put W.inv i _ _ rfl rfl rfl rfl rfl rfl) h1 h2 _ rfl rfl rfl rfl rfl
  exact wf_remove W1 h1 h2

theorem wf_touch (W : WF E s) {i : Nat} (h1 : 1 ≤ i) (h2 : i ≤ E.n) (now : Nat) (tmr : Bool) :
    WF E (touch s i now tmr) := by
  have I' := (touch_effect W.inv i now tmr).1
  unfold touch at I' ⊢
  split
  · rename_i h
    rw [if_pos h] at I'
    exact wf_same W I' h1 h2 _ rfl rfl rfl rfl rfl
  · exact W

theorem wf_lookupIdx (W : WF E s) (a : Addr) (now : Nat) (tmr : Bool) :
    WF E (lookupIdx E s (keyOf a) now tmr).1 := by
  have I' := (lookupIdx_effect W.inv a now tmr).1
  have hcase : (lookupIdx E s (keyOf a) now tmr).1.timers = s.timers ∧
      (lookupIdx E s (keyOf a) now tmr).1.pktFree = s.pktFree ∧
      ∀ j, ((lookupIdx E s (keyOf a) now tmr).1.ent j).used = (s.ent j).used ∧
        ((lookupIdx E s (keyOf a) now tmr).1.ent j).pkts = (s.ent j).pkts := by
    have htouch : ∀ (t : St) (i : Nat), (touch t i now tmr).timers = t.timers ∧
        (touch t i now tmr).pktFree = t.pktFree ∧
        ∀ j, ((touch t i now tmr).ent j).used = (t.ent j).used ∧
          ((touch t i now tmr).ent j).pkts = (t.ent j).pkts := by
      intro t i
      unfold touch
      split
      · refine ⟨rfl, rfl, ?_⟩
        intro j
        dsimp only
        by_cases hj : j = i
        · subst hj; rw [put_same]; exact ⟨rfl, rfl⟩
        · rw [put_ne _ _ hj]; exact ⟨rfl, rfl⟩
      · exact ⟨rfl, rfl, fun j => ⟨rfl, rfl⟩⟩
    unfold lookupIdx
    dsimp only
    split
    · exact htouch _ _
    · split
      · exact ⟨rfl, rfl, fun j => ⟨rfl, rfl⟩⟩
      · split
        · exact ⟨rfl, rfl, fun j => ⟨rfl, rfl⟩⟩
        · exact htouch _ _
  refine ⟨I', ?_, ?_, ?_⟩
  · rw [hcase.1]; exact W.tim
  · intro i h1 h2 hu
    rw [(hcase.2.2 i).1] at hu
    rw [(hcase.2.2 i).2]; exact W.dead i h1 h2 hu
  · rw [hcase.2.1]
    have : waitingCount E (lookupIdx E s (keyOf a) now tmr).1 = waitingCount E s := by
      unfold waitingCount
      congr 1
      apply List.map_congr_left
      intro j _
      rw [(hcase.2.2 j).2]
    rw [this]; exact W.bal

theorem wf_saveTo (W : WF E s) {k : K} {i : Nat} (hl : Live E s i) (hk : (s.ent i).key = k)
    (p : Nat) (tmr : Bool) : WF E (saveTo E s (E.hash k) i p tmr).1 := by
  have hr := W.inv.live_range hl
  have Iall := (saveTo_effect W.inv hl hk p tmr).1
  subst hk
  have W0 : WF E { s with
      ent := put s.ent i
        { s.ent i with
          usetime := 0 } } :=
    wf_same W (inv_put W.inv i _ _ rfl rfl rfl rfl rfl rfl) hr.1 hr.2.1 _ rfl rfl rfl rfl rfl
  unfold saveTo at Iall ⊢
  dsimp only at Iall ⊢
  by_cases hp : s.pktFree = 0
  · rw [if_pos hp]
    dsimp only
    split
    · have := wf_remove W0 hr.1 hr.2.1
      dsimp only at this
      rw [put_same] at this
      exact this
    · exact W0
  · rw [if_neg hp] at Iall ⊢
    refine wf_put W Iall hr.1 hr.2.1 _ rfl ?_ ?_ ?_
    · intro h
      have hu := hr.2.2
      dsimp only at h
      rw [hu] at h; cases h
    · intro q hq
      dsimp only at hq
      split at hq
      · cases hq with
        | head => right; rfl
        | tail _ h => left; exact h
      · left; exact hq
    · dsimp only
      rw [List.length_cons]
      omega

theorem wf_saveLocal (W : WF E s) (k : K) (p : Nat) (tmr : Bool) :
    WF E (saveLocal E s k p tmr).1 := by
  unfold saveLocal
  cases hn : insertNew E s k with
  | none => exact W
  | some q =>
    obtain ⟨s1, i⟩ := q
    dsimp only
    have W1 := wf_insertNew W hn
    have hl := insertNew_live W.inv hn
    split
    · exact W1
    · exact wf_saveTo W1 hl.1 hl.2 p tmr

theorem wf_pktTimeout (W : WF E s) (t : Nat) : WF E (pktTimeout E s t) := by
  unfold pktTimeout
  cases hf : s.timers.find? (fun p => p.1 == t) with
  | none => exact W
  | some q =>
    obtain ⟨t', i⟩ := q
    dsimp only
    have hr := W.tim (t', i) (List.mem_of_find?_eq_some hf)
    have W1 : WF E { s with
        timers := s.timers.filter (fun p => p.1 != t) } := by
      refine ⟨inv_mod W.inv _ rfl rfl (fun j => ⟨rfl, rfl⟩) W.inv.cache, ?_, W.dead, W.bal⟩
      intro p hp; exact W.tim p (filter_sub hp)
    exact wf_remove W1 hr.1 hr.2

/-- Every valid operation keeps the invariant. -/
theorem wf_step (W : WF E s) (op : Op) (hv : Valid E s op) : WF E (step E s op).1 := by
  cases op with
  | insert a mac m now => exact wf_insert W _ mac m now
  | insertInc a => exact wf_insertInc W _
  | inc i => exact wf_same W (inc_effect W.inv i).1 hv.1 hv.2 _ rfl rfl rfl rfl rfl
  | dec i => exact wf_dec W hv.1 hv.2
  | removeIdx i => exact wf_remove W hv.1 hv.2
  | lookup a now tmr => exact wf_lookupIdx W a now tmr
  | lookupI a now tmr => exact wf_lookupIdx W a now tmr
  | getMac i => exact W
  | saveLocal a p tmr => exact wf_saveLocal W _ p tmr
  | saveIdx a i p tmr =>
    obtain ⟨e, he, hi⟩ := hv
    have := view_idx W.inv he
    rw [hi] at this
    exact wf_saveTo W this.1 this.2.1 p tmr
  | age now => exact wf_age W now
  | pktTimeout t => exact wf_pktTimeout W t
  | useTimeout i =>
    exact wf_same W (inv_put W.inv i _ _ rfl rfl rfl rfl rfl rfl) hv.1 hv.2 _ rfl rfl rfl rfl rfl

theorem Run.wf {h : History} {s : St} (r : Run E h s) : WF E s := by
  induction r with
  | nil => exact wf_init E
  | cons op _ hv ih => exact wf_step ih op hv

theorem FairRun.run {h : History} {s : St} (r : FairRun E h s) : Run E h s := by
  induction r with
  | nil => exact Run.nil
  | cons op _ hv _ ih => exact Run.cons op ih hv

theorem FairRun.wf {h : History} {s : St} (r : FairRun E h s) : WF E s := r.run.wf

end Verif.Arp

import Verif.Arp.Effects
/-! Effects of the whole operations; the invariant along runs. -/
namespace Verif.Arp

variable {E : Env} {s : St}

/-! ### Key preservation, needed by the ageing loop -/

theorem remove_key (set i j : Nat) : ((remove E s set i).ent j).key = (s.ent j).key := by
  cases hr : removable s i with
  | false => rw [remove_noop _ _ hr]
  | true =>
    rw [remove_ent _ _ hr]
    by_cases hj : j = i
    · subst hj; rw [put_same]; rfl
    · rw [put_ne _ _ hj]

/-- The ageing decision applied to the visible entries selected by `sel`. -/
def agedBy (A : K → Option Info) (sel : K → Info → Prop) (timeout now : Nat)
    [∀ k e, Decidable (sel k e)] : K → Option Info := fun k =>
  (A k).bind (fun e => if sel k e ∧ e.idle timeout now then none else some e)

theorem age1_effect (I : Inv E s) (now : Nat) {i : Nat} (h1 : 1 ≤ i) (h2 : i ≤ E.n) :
    Inv E (age1 E now (E.hash (s.ent i).key) s i) ∧
    (∀ j, ((age1 E now (E.hash (s.ent i).key) s i).ent j).key = (s.ent j).key) ∧
    view E (age1 E now (E.hash (s.ent i).key) s i) =
      agedBy (view E s) (fun _ e => e.idx = i) E.timeout now := by
  unfold age1
  by_cases ha : ageable E (s.ent i) now = true
  · rw [if_pos ha]
    refine ⟨inv_remove I h1 h2, fun j => remove_key _ _ _, ?_⟩
    rw [view_remove I h1 h2]
    funext k
    unfold dropIdx agedBy
    cases hv : view E s k with
    | none => rfl
    | some e =>
      obtain ⟨j, hl, hk, rfl⟩ := (view_some I).mp hv
      simp only [Option.bind_some, info]
      by_cases hj : j = i
      · subst hj
        simp only [ageable, isTimeout, Bool.and_eq_true, Bool.not_eq_true', List.isEmpty_iff,
          decide_eq_true_eq] at ha
        simp only [Info.idle, ha.1.1, ha.1.2, true_and]
        by_cases hr : (s.ent j).ref = 0#32
        · rw [if_pos hr, if_pos ⟨hr, ha.2⟩]
        · rw [if_neg hr, if_neg (fun h => hr h.1)]
      · rw [if_neg (fun h => hj h.1), if_neg (fun h => hj h.1)]
  · rw [if_neg ha]
    refine ⟨I, fun j => rfl, ?_⟩
    funext k
    unfold agedBy
    cases hv : view E s k with
    | none => rfl
    | some e =>
      obtain ⟨j, hl, hk, rfl⟩ := (view_some I).mp hv
      simp only [Option.bind_some, info]
      rw [if_neg]
      rintro ⟨rfl, h⟩
      apply ha
      simp only [Info.idle] at h
      simp only [ageable, isTimeout, Bool.and_eq_true, Bool.not_eq_true', List.isEmpty_iff,
        decide_eq_true_eq]
      exact ⟨⟨h.1, h.2.1⟩, h.2.2.2⟩

theorem agedBy_comp (A : K → Option Info) (p q : K → Info → Prop) (t now : Nat)
    [∀ k e, Decidable (p k e)] [∀ k e, Decidable (q k e)] [∀ k e, Decidable (p k e ∨ q k e)] :
    agedBy (agedBy A p t now) q t now = agedBy A (fun k e => p k e ∨ q k e) t now := by
  funext k
  unfold agedBy
  cases A k with
  | none => rfl
  | some e =>
    simp only [Option.bind_some]
    by_cases hp : p k e ∧ e.idle t now
    · rw [if_pos hp, if_pos ⟨Or.inl hp.1, hp.2⟩]; rfl
    · rw [if_neg hp, Option.bind_some]
      by_cases hq : q k e ∧ e.idle t now
      · rw [if_pos hq, if_pos ⟨Or.inr hq.1, hq.2⟩]
      · rw [if_neg hq, if_neg]
        rintro ⟨h | h, hi⟩
        · exact hp ⟨h, hi⟩
        · exact hq ⟨h, hi⟩

theorem ageList_effect (now set : Nat) (l : List Nat) : ∀ {s : St}, Inv E s →
    (∀ i ∈ l, 1 ≤ i ∧ i ≤ E.n ∧ E.hash (s.ent i).key = set) →
    Inv E (l.foldl (age1 E now set) s) ∧
    (∀ j, ((l.foldl (age1 E now set) s).ent j).key = (s.ent j).key) ∧
    view E (l.foldl (age1 E now set) s) =
      agedBy (view E s) (fun _ e => e.idx ∈ l) E.timeout now := by
  induction l with
  | nil =>
    intro s I _
    refine ⟨I, fun _ => rfl, ?_⟩
    funext k
    unfold agedBy
    cases hv : view E s k with
    | none => simp [hv]
    | some e => simp [hv]
  | cons i l ih =>
    intro s I hl
    have hi := hl i List.mem_cons_self
    have h := age1_effect I now hi.1 hi.2.1
    rw [hi.2.2] at h
    have h' := ih h.1 (by
      intro j hj
      have := hl j (List.mem_cons_of_mem _ hj)
      rw [h.2.1 j]; exact this)
    rw [List.foldl_cons]
    refine ⟨h'.1, fun j => by rw [h'.2.1, h.2.1], ?_⟩
    rw [h'.2.2, h.2.2, agedBy_comp]
    funext k
    unfold agedBy
    simp only [List.mem_cons]

theorem ageSet_effect (I : Inv E s) (now set : Nat) :
    Inv E (ageSet E now s set) ∧
    view E (ageSet E now s set) = agedBy (view E s) (fun k _ => E.hash k = set) E.timeout now := by
  have h := ageList_effect now set (s.tab set) I (fun i hi =>
    ⟨(I.tabR set i hi).1, (I.tabR set i hi).2.1, (I.tabR set i hi).2.2.2⟩)
  refine ⟨h.1, ?_⟩
  unfold ageSet
  rw [h.2.2]
  funext k
  unfold agedBy
  cases hv : view E s k with
  | none => rfl
  | some e =>
    obtain ⟨i, hl, hk, rfl⟩ := (view_some I).mp hv
    simp only [Option.bind_some]
    have : (info i (s.ent i)).idx ∈ s.tab set ↔ E.hash k = set := by
      show i ∈ s.tab set ↔ _
      constructor
      · intro hm; rw [← hk]; exact (I.tabR set i hm).2.2.2
      · intro hh; rw [← hh, ← hk]; exact hl
    simp only [this]

theorem ageSets_effect (now : Nat) (l : List Nat) : ∀ {s : St}, Inv E s →
    Inv E (l.foldl (ageSet E now) s) ∧
    view E (l.foldl (ageSet E now) s) =
      agedBy (view E s) (fun k _ => E.hash k ∈ l) E.timeout now := by
  induction l with
  | nil =>
    intro s I
    refine ⟨I, ?_⟩
    funext k
    unfold agedBy
    cases hv : view E s k with
    | none => simp [hv]
    | some e => simp [hv]
  | cons i l ih =>
    intro s I
    have h := ageSet_effect I now i
    have h' := ih h.1
    rw [List.foldl_cons]
    refine ⟨h'.1, ?_⟩
    rw [h'.2, h.2, agedBy_comp]
    funext k
    unfold agedBy
    simp only [List.mem_cons]

theorem age_effect (I : Inv E s) (now : Nat) :
    Inv E (age E s now) ∧
    view E (age E s now) = fun k =>
      (view E s k).bind (fun e => if e.idle E.timeout now then none else some e) := by
  have h := ageSets_effect now (List.range E.nsets) I
  refine ⟨h.1, ?_⟩
  unfold age
  rw [h.2]
  funext k
  unfold agedBy
  congr 1
  funext e
  have : E.hash k ∈ List.range E.nsets := List.mem_range.mpr (E.hash_lt k)
  simp only [this, true_and]

/-! ### Insertions -/

/-- `insertNew` succeeds unless the key is new and the free list is empty; afterwards the key has
entry `i`, either the old one untouched or a fresh one, nothing else is changed. -/
theorem insertNew_effect (I : Inv E s) (k : K) :
    (insertNew E s k = none ∧ view E s k = none ∧ s.free = []) ∨
    (∃ s' i, insertNew E s k = some (s', i) ∧ Inv E s' ∧ Live E s' i ∧ (s'.ent i).key = k ∧
      s'.pktFree = s.pktFree ∧ s'.cache = s.cache ∧ s'.nextT = s.nextT ∧
      ((s' = s ∧ view E s k = some (info i (s.ent i))) ∨
       (view E s k = none ∧ i ∈ s.free ∧ s'.ent = put s.ent i (freshEnt (s.ent i) k) ∧
        s'.timers = s.timers.filter (fun p => some p.1 != (s.ent i).pktTmo) ∧
        view E s' = setKey (view E s) k (some (info i (freshEnt (s.ent i) k)))))) := by
  rcases insertNew_spec I k with ⟨i, hf, hn⟩ | ⟨hf, hfr, hn⟩ | ⟨i, rest, s', hf, hfr, hn, he, hfree,
    ht, hc, hp, hnt, htm⟩
  · right
    have := (find_some_iff I k i).mp hf
    refine ⟨s, i, hn, I, this.1, this.2, rfl, rfl, rfl, Or.inl ⟨rfl, ?_⟩⟩
    unfold view; rw [hf]; rfl
  · left
    refine ⟨hn, ?_, hfr⟩
    unfold view; rw [hf]; rfl
  · right
    have I' := inv_alloc I hf hfr he hfree ht hc
    have hv := view_alloc I hf hfr he hfree ht hc
    have hfi : find E s' k = some i := by rw [hv.1, if_pos rfl]
    have := (find_some_iff I' k i).mp hfi
    refine ⟨s', i, hn, I', this.1, this.2, hp, hc, hnt, Or.inr ⟨?_, ?_, he, htm, hv.2⟩⟩
    · unfold view; rw [hf]; rfl
    · rw [hfr]; exact List.mem_cons_self

theorem setKey_setKey (A : K → Option Info) (k : K) (v w : Option Info) :
    setKey (setKey A k v) k w = setKey A k w := by
  funext k'; unfold setKey; by_cases h : k' = k <;> simp [h]

theorem setKey_self (A : K → Option Info) (k : K) (v : Option Info) : setKey A k v k = v := by
  simp [setKey]

theorem setKey_ne (A : K → Option Info) {k k' : K} (v : Option Info) (h : k' ≠ k) :
    setKey A k v k' = A k' := by simp [setKey, h]

/-- Overwriting the entry of `k`. -/
theorem view_put_key (I : Inv E s) {k : K} {i : Nat} (hl : Live E s i) (hk : (s.ent i).key = k)
    {s' : St} (e : Entry) (ht : s'.tab = s.tab) (he : s'.ent = put s.ent i e) (hek : e.key = k) :
    view E s' = setKey (view E s) k (some (info i e)) := by
  rw [view_put_mod i e (fun _ => info i e) ht he (by rw [hek, hk]) rfl]
  have hv : view E s k = some (info i (s.ent i)) := (view_some I).mpr ⟨i, hl, hk, rfl⟩
  exact modIdx_eq_setKey I hv _

/-- What `ofp_arp_ipv4_insert` does. -/
theorem insert_effect (I : Inv E s) (k : K) (mac : Nat) (m : Bool) (now : Nat) :
    Inv E (insert E s k mac m now).1 ∧
    (((insert E s k mac m now).2 = Out.fail ∧ (insert E s k mac m now).1 = s ∧
        view E s k = none ∧ s.free = []) ∨
     (∃ i, (∀ e, view E s k = some e → (insert E s k mac m now).2 = ⟨true, i, 0, e.pkts, []⟩ ∧
            e.idx = i ∧
            view E (insert E s k mac m now).1 = setKey (view E s) k
              (some ⟨i, mac, true, e.manual || m, e.ref, now, []⟩)) ∧
          (view E s k = none → i ∈ s.free ∧ (insert E s k mac m now).2 = ⟨true, i, 0, [], []⟩ ∧
            view E (insert E s k mac m now).1 = setKey (view E s) k
              (some ⟨i, mac, true, m, 0#32, now, []⟩)))) := by
  unfold insert
  rcases insertNew_effect I k with ⟨hn, hv, hfr⟩ | ⟨s1, i, hn, I1, hl, hk, hp, hc, hnt, hcase⟩
  · rw [hn]; exact ⟨I, Or.inl ⟨rfl, rfl, hv, hfr⟩⟩
  · rw [hn]
    dsimp only
    have hgen : ∀ s2 : St, s2.ent = s1.ent → s2.tab = s1.tab → s2.free = s1.free →
        s2.cache = s1.cache → ∀ p : Nat,
        Inv E { s2 with
          ent := put s2.ent i (completed (s1.ent i) mac m now)
          pktFree := p } ∧
        view E { s2 with
          ent := put s2.ent i (completed (s1.ent i) mac m now)
          pktFree := p } = setKey (view E s1) k (some (info i (completed (s1.ent i) mac m now))) := by
      intro s2 h1 h2 h3 h4 p
      constructor
      · refine inv_put I1 i (completed (s1.ent i) mac m now) _ ?_ h3 h2 h4 rfl rfl
        show put s2.ent _ _ = _
        rw [h1]
      · refine view_put_key I1 hl hk _ h2 ?_ hk
        show put s2.ent _ _ = _
        rw [h1]
    have hs2 : ∃ s2 : St, (if (s1.ent i).pkts = [] then s1 else cancel s1 (s1.ent i).pktTmo) = s2 ∧
        s2.ent = s1.ent ∧ s2.tab = s1.tab ∧ s2.free = s1.free ∧ s2.cache = s1.cache := by
      refine ⟨_, rfl, ?_⟩
      split
      · exact ⟨rfl, rfl, rfl, rfl⟩
      · exact ⟨rfl, rfl, rfl, rfl⟩
    obtain ⟨s2, hs2e, h1, h2, h3, h4⟩ := hs2
    rw [hs2e]
    have hg := hgen s2 h1 h2 h3 h4 (s2.pktFree + (s1.ent i).pkts.length)
    refine ⟨hg.1, Or.inr ⟨i, ?_, ?_⟩⟩
    · intro e he
      rcases hcase with ⟨rfl, hv⟩ | ⟨hv, _⟩
      · rw [hv] at he
        cases he
        exact ⟨rfl, rfl, hg.2⟩
      · rw [hv] at he; cases he
    · intro hnone
      rcases hcase with ⟨rfl, hv⟩ | ⟨hv, hif, hent, htm, hview⟩
      · rw [hv] at hnone; cases hnone
      · have hei : s1.ent i = freshEnt (s.ent i) k := by rw [hent, put_same]
        refine ⟨hif, ?_, ?_⟩
        · rw [hei]; rfl
        · rw [hg.2, hview, setKey_setKey, hei]; rfl

/-- What the incomplete insertion of `add_route` does. -/
theorem insertInc_effect (I : Inv E s) (k : K) :
    Inv E (insertInc E s k).1 ∧
    (((insertInc E s k).2 = Out.fail ∧ (insertInc E s k).1 = s ∧
        view E s k = none ∧ s.free = []) ∨
     (∃ i, (insertInc E s k).2 = Out.idxOk i ∧
          (∀ e, view E s k = some e → e.idx = i ∧
            view E (insertInc E s k).1 = setKey (view E s) k (some { e with
              mac := 0 })) ∧
          (view E s k = none → i ∈ s.free ∧ ∃ t,
            view E (insertInc E s k).1 = setKey (view E s) k
              (some ⟨i, 0, false, false, 0#32, t, []⟩)))) := by
  unfold insertInc
  rcases insertNew_effect I k with ⟨hn, hv, hfr⟩ | ⟨s1, i, hn, I1, hl, hk, hp, hc, hnt, hcase⟩
  · rw [hn]; exact ⟨I, Or.inl ⟨rfl, rfl, hv, hfr⟩⟩
  · rw [hn]
    dsimp only
    refine ⟨inv_put I1 i _ _ rfl rfl rfl rfl rfl rfl, Or.inr ⟨i, rfl, ?_, ?_⟩⟩
    · intro e he
      rcases hcase with ⟨rfl, hv⟩ | ⟨hv, _⟩
      · rw [hv] at he
        cases he
        refine ⟨rfl, ?_⟩
        exact view_put_key I1 hl hk { s1.ent i with
          mac := 0 } rfl rfl hk
      · rw [hv] at he; cases he
    · intro hnone
      rcases hcase with ⟨rfl, hv⟩ | ⟨hv, hif, hent, htm, hview⟩
      · rw [hv] at hnone; cases hnone
      · refine ⟨hif, (s.ent i).usetime, ?_⟩
        have hei : s1.ent i = freshEnt (s.ent i) k := by rw [hent, put_same]
        have := view_put_key I1 hl hk (s' := { s1 with
            ent := put s1.ent i
              { s1.ent i with
                mac := 0 } }) { s1.ent i with
          mac := 0 } rfl rfl hk
        rw [this, hview, setKey_setKey, hei]
        rfl

/-! ### References, removal -/

theorem inc_effect (I : Inv E s) (i : Nat) :
    Inv E (incRef s i) ∧ view E (incRef s i) = modIdx (view E s) i (fun e => { e with
      ref := e.ref + 1#32 }) :=
  ⟨inv_put I i _ _ rfl rfl rfl rfl rfl rfl, view_put_mod i _ _ rfl rfl rfl rfl⟩

theorem removeIdx_effect (I : Inv E s) {i : Nat} (h1 : 1 ≤ i) (h2 : i ≤ E.n) :
    Inv E (removeIdx E s i) ∧ view E (removeIdx E s i) = dropIdx (view E s) i :=
  ⟨inv_remove I h1 h2, view_remove I h1 h2⟩

theorem dec_effect (I : Inv E s) {i : Nat} (h1 : 1 ≤ i) (h2 : i ≤ E.n) :
    Inv E (decRef E s i) ∧ view E (decRef E s i) =
      dropIdx (modIdx (view E s) i (fun e => { e with
        ref := e.ref - 1#32 })) i := by
  unfold decRef
  dsimp only
  have I1 : Inv E { s with
      ent := put s.ent i
        { s.ent i with
          ref := (s.ent i).ref - 1#32 } } := inv_put I i _ _ rfl rfl rfl rfl rfl rfl
  have := removeIdx_effect I1 h1 h2
  refine ⟨this.1, ?_⟩
  rw [this.2]
  congr 1
  exact view_put_mod i _ _ rfl rfl rfl rfl

/-! ### Lookups -/

theorem touch_effect (I : Inv E s) (i now : Nat) (tmr : Bool) :
    Inv E (touch s i now tmr) ∧
    (view E (touch s i now tmr) = view E s ∨
     view E (touch s i now tmr) = modIdx (view E s) i (fun e => { e with
        usetime := now })) ∧
    (∀ j, ((touch s i now tmr).ent j).key = (s.ent j).key ∧
      ((touch s i now tmr).ent j).complete = (s.ent j).complete ∧
      ((touch s i now tmr).ent j).mac = (s.ent j).mac ∧
      ((touch s i now tmr).ent j).pkts = (s.ent j).pkts) ∧
    (touch s i now tmr).tab = s.tab := by
  unfold touch
  split
  · refine ⟨inv_put I i _ _ rfl rfl rfl rfl rfl rfl, Or.inr ?_, ?_, rfl⟩
    · exact view_put_mod i _ _ rfl rfl rfl rfl
    · intro j
      dsimp only
      by_cases hj : j = i
      · subst hj; rw [put_same]; exact ⟨rfl, rfl, rfl, rfl⟩
      · rw [put_ne _ _ hj]; exact ⟨rfl, rfl, rfl, rfl⟩
  · exact ⟨I, Or.inl rfl, fun j => ⟨rfl, rfl, rfl, rfl⟩, rfl⟩

theorem mkKey_ne_zero (a : Addr) : keyOf a ≠ (0x01010101#32, 0x01010101#32) := by
  intro h
  have h1 : a.1.setWidth 32 = 0x01010101#32 := congrArg Prod.fst h
  have h2 := congrArg BitVec.toNat h1
  simp at h2
  have := a.1.isLt
  omega

/-- What the index lookup does: it finds the entry of the key (through the cache or the table);
the only refusal is an uncached entry with packets waiting. -/
theorem lookupIdx_effect (I : Inv E s) (a : Addr) (now : Nat) (tmr : Bool) :
    Inv E (lookupIdx E s (keyOf a) now tmr).1 ∧
    (view E s (keyOf a) = none → lookupIdx E s (keyOf a) now tmr = (s, none)) ∧
    (∀ e, view E s (keyOf a) = some e →
      ((lookupIdx E s (keyOf a) now tmr).2 = some e.idx ∨
        ((lookupIdx E s (keyOf a) now tmr) = (s, none) ∧ e.pkts ≠ [])) ∧
      (view E (lookupIdx E s (keyOf a) now tmr).1 = view E s ∨
       view E (lookupIdx E s (keyOf a) now tmr).1 = setKey (view E s) (keyOf a) (some { e with
          usetime := now })) ∧
      (e.pkts = [] → (lookupIdx E s (keyOf a) now tmr).2 = some e.idx)) ∧
    (∀ j, ((lookupIdx E s (keyOf a) now tmr).1.ent j).complete = (s.ent j).complete ∧
      ((lookupIdx E s (keyOf a) now tmr).1.ent j).mac = (s.ent j).mac) := by
  unfold lookupIdx
  dsimp only
  by_cases hhit : (s.ent (s.cache (E.hash (keyOf a)))).key = keyOf a
  · have hb : ((s.ent (s.cache (E.hash (keyOf a)))).key == keyOf a) = true := by simpa using hhit
    rw [if_pos hb]
    generalize hcdef : s.cache (E.hash (keyOf a)) = c at hhit
    have hc : c ∈ s.tab (E.hash (keyOf a)) := by
      rcases I.cache (E.hash (keyOf a)) with h0 | hm
      · rw [hcdef] at h0
        rw [h0, I.zero] at hhit
        exact absurd hhit.symm (mkKey_ne_zero a)
      · rw [hcdef] at hm; exact hm
    have hl : Live E s c := I.live_of_mem hc
    have hv : view E s (keyOf a) = some (info c (s.ent c)) :=
      (view_some I).mpr ⟨c, hl, hhit, rfl⟩
    have ht := touch_effect I c now tmr
    refine ⟨ht.1, ?_, ?_, fun j => ⟨(ht.2.2.1 j).2.1, (ht.2.2.1 j).2.2.1⟩⟩
    · intro h; rw [hv] at h; cases h
    · intro e he
      rw [hv] at he
      cases he
      refine ⟨Or.inl rfl, ?_, fun _ => rfl⟩
      rcases ht.2.1 with h | h
      · exact Or.inl h
      · right
        rw [h]
        exact modIdx_eq_setKey I hv _
  · have hb : ¬ ((s.ent (s.cache (E.hash (keyOf a)))).key == keyOf a) = true := by simpa using hhit
    rw [if_neg hb]
    cases hf : find E s (keyOf a) with
    | none =>
      dsimp only
      refine ⟨I, fun _ => rfl, ?_, fun j => ⟨rfl, rfl⟩⟩
      intro e he
      unfold view at he; rw [hf] at he; cases he
    | some i =>
      dsimp only
      have hi := (find_some_iff I (keyOf a) i).mp hf
      have hv : view E s (keyOf a) = some (info i (s.ent i)) :=
        (view_some I).mpr ⟨i, hi.1, hi.2, rfl⟩
      by_cases hp : (s.ent i).pkts = []
      · have hnp : ¬ (s.ent i).pkts ≠ [] := fun h => h hp
        rw [if_neg hnp]
        have I1 : Inv E { s with
            cache := put s.cache (E.hash (keyOf a)) i } := by
          refine inv_mod I _ rfl rfl (fun j => ⟨rfl, rfl⟩) ?_
          intro h
          by_cases hh : h = E.hash (keyOf a)
          · right
            show put s.cache _ _ h ∈ _
            rw [hh, put_same]
            have := hi.1
            unfold Live at this
            rw [hi.2] at this; exact this
          · show put s.cache _ _ h = 0 ∨ put s.cache _ _ h ∈ _
            rw [put_ne _ _ hh]; exact I.cache h
        have ht := touch_effect I1 i now tmr
        have hvv : view E { s with
            cache := put s.cache (E.hash (keyOf a)) i } = view E s :=
          view_congr rfl (fun _ => rfl) (fun _ => rfl)
        refine ⟨ht.1, ?_, ?_, fun j => ⟨(ht.2.2.1 j).2.1, (ht.2.2.1 j).2.2.1⟩⟩
        · intro h; rw [hv] at h; cases h
        · intro e he
          rw [hv] at he
          cases he
          refine ⟨Or.inl rfl, ?_, fun _ => rfl⟩
          rcases ht.2.1 with h | h
          · left; rw [h, hvv]
          · right
            rw [h, hvv]
            exact modIdx_eq_setKey I hv _
      · rw [if_pos hp]
        refine ⟨I, fun _ => rfl, ?_, fun j => ⟨rfl, rfl⟩⟩
        · intro e he
          rw [hv] at he
          cases he
          exact ⟨Or.inr ⟨rfl, hp⟩, Or.inl rfl, fun h => absurd h hp⟩

/-! ### Saving packets -/

/-- What saving a packet on a known entry does. -/
theorem saveTo_effect (I : Inv E s) {k : K} {i : Nat} (hl : Live E s i) (hk : (s.ent i).key = k)
    (p : Nat) (tmr : Bool) :
    Inv E (saveTo E s (E.hash k) i p tmr).1 ∧
    ((s.pktFree ≠ 0 ∧ (saveTo E s (E.hash k) i p tmr).2 = Out.idxOk i ∧
      view E (saveTo E s (E.hash k) i p tmr).1 = setKey (view E s) k (some { info i (s.ent i) with
        usetime := 0
        pkts := p :: (s.ent i).pkts })) ∨
     (s.pktFree = 0 ∧ (saveTo E s (E.hash k) i p tmr).2 = ⟨false, 0, 0, [], [p]⟩ ∧
      view E (saveTo E s (E.hash k) i p tmr).1 = setKey (view E s) k
        (if (s.ent i).pkts = [] ∧ (s.ent i).ref = 0#32 then none else some { info i (s.ent i) with
          usetime := 0 }))) := by
  subst hk
  have hr := I.live_range hl
  have I0 : Inv E { s with
      ent := put s.ent i
        { s.ent i with
          usetime := 0 } } := inv_put I i _ _ rfl rfl rfl rfl rfl rfl
  have hv0 : view E { s with
      ent := put s.ent i
        { s.ent i with
          usetime := 0 } } = setKey (view E s) (s.ent i).key (some { info i (s.ent i) with
          usetime := 0 }) := view_put_key I hl rfl { s.ent i with
          usetime := 0 } rfl rfl rfl
  unfold saveTo
  dsimp only
  by_cases hp : s.pktFree = 0
  · rw [if_pos hp]
    dsimp only
    by_cases hq : (s.ent i).pkts = []
    · rw [if_pos hq]
      have hrem := removeIdx_effect I0 hr.1 hr.2.1
      unfold removeIdx at hrem
      dsimp only at hrem
      rw [put_same] at hrem
      dsimp only at hrem
      refine ⟨hrem.1, Or.inr ⟨hp, rfl, ?_⟩⟩
      rw [hrem.2]
      have hvk : view E { s with
          ent := put s.ent i
            { s.ent i with
              usetime := 0 } } (s.ent i).key = some { info i (s.ent i) with
          usetime := 0 } := by rw [hv0, setKey_self]
      have := dropIdx_eq_setKey I0 hvk
      refine Eq.trans this ?_
      rw [hv0, setKey_setKey]
      congr 1
      simp only [info, hq, true_and]
    · rw [if_neg hq]
      refine ⟨I0, Or.inr ⟨hp, rfl, ?_⟩⟩
      rw [hv0, if_neg (fun h => hq h.1)]
  · rw [if_neg hp]
    dsimp only
    refine ⟨?_, Or.inl ⟨hp, rfl, ?_⟩⟩
    · refine inv_put I i { s.ent i with
        usetime := 0
        pkts := p :: (s.ent i).pkts
        pktTmo := if decide ((s.ent i).pkts = []) then (if tmr then some s.nextT else none)
          else (s.ent i).pktTmo } _ rfl rfl rfl rfl rfl rfl
    · refine view_put_key I hl rfl { s.ent i with
        usetime := 0
        pkts := p :: (s.ent i).pkts
        pktTmo := if decide ((s.ent i).pkts = []) then (if tmr then some s.nextT else none)
          else (s.ent i).pktTmo } rfl rfl rfl

end Verif.Arp

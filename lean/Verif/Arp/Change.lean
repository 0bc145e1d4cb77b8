import Verif.Arp.Run
/-! One refinement lemma: how each operation may change what the table holds for an address. -/
namespace Verif.Arp

variable {E : Env} {s : St}

theorem keyOf_inj {a b : Addr} (h : keyOf a = keyOf b) : a = b := by
  obtain ⟨a1, a2⟩ := a
  obtain ⟨b1, b2⟩ := b
  have h1 : a1.setWidth 32 = b1.setWidth 32 := congrArg Prod.fst h
  have h2 : a2 = b2 := congrArg Prod.snd h
  have h3 := congrArg BitVec.toNat h1
  simp only [BitVec.toNat_setWidth] at h3
  have := a1.isLt
  have := b1.isLt
  have h4 : a1.toNat = b1.toNat := by omega
  rw [BitVec.eq_of_toNat_eq h4, h2]

/-- The operation, with this result, inserts nothing for `a`, accepts no packet for `a` and sends
no packet for `a`. -/
def Silent (op : Op) (o : Out) (a : Addr) : Prop :=
  ∀ h, lastMac ((op, o) :: h) a = lastMac h a ∧ savedFor ((op, o) :: h) a = savedFor h a ∧
    sentFor ((op, o) :: h) a = sentFor h a

/-- `op` tries to save packet `p` for address `a`. -/
def Saves (op : Op) (a : Addr) (p : Nat) : Prop :=
  ∃ t, op = .saveLocal a p t ∨ ∃ i, op = .saveIdx a i p t

/-- Packets waiting in the entry, if there is one. -/
def waitingOf : Option Info → List Nat
  | none => []
  | some e => e.pkts

/-- Reasons for an entry to disappear. -/
inductive Gone (E : Env) (s : St) (op : Op) (a : Addr) (e : Info) : Prop where
  | dec : op = .dec e.idx → e.ref - 1#32 = 0#32 → Gone E s op a e
  | rem : op = .removeIdx e.idx → e.ref = 0#32 → Gone E s op a e
  | tmo (t : Nat) : op = .pktTimeout t → (t, e.idx) ∈ s.timers → e.ref = 0#32 → Gone E s op a e
  | age (now : Nat) : op = .age now → e.idle E.timeout now → Gone E s op a e
  | full (p : Nat) : Saves op a p → s.pktFree = 0 → e.pkts = [] → e.ref = 0#32 → Gone E s op a e

/-- How an operation `op` with result `o` may change the information about `a`. -/
inductive Change (E : Env) (s : St) (op : Op) (o : Out) (a : Addr) :
    Option Info → Option Info → Prop where
  | same (v : Option Info) : Silent op o a → Change E s op o a v v
  | inserted (v : Option Info) (i mac : Nat) (m : Bool) (now : Nat) :
      op = .insert a mac m now → o = ⟨true, i, 0, waitingOf v, []⟩ →
      (∀ e, v = some e → e.idx = i) →
      Change E s op o a v (some ⟨i, mac, true, (v.map Info.manual).getD false || m,
        (v.map Info.ref).getD 0#32, now, []⟩)
  | fresh (i t : Nat) : op = .insertInc a → o = Out.idxOk i →
      Change E s op o a none (some ⟨i, 0, false, false, 0#32, t, []⟩)
  | zeroed (e : Info) : op = .insertInc a → o = Out.idxOk e.idx →
      Change E s op o a (some e) (some { e with
        mac := 0 })
  | ref (e : Info) (r : BitVec 32) : Silent op o a →
      (op = .inc e.idx ∧ r = e.ref + 1#32 ∨ op = .dec e.idx ∧ r = e.ref - 1#32 ∧ r ≠ 0#32) →
      Change E s op o a (some e) (some { e with
        ref := r })
  | use (e : Info) (now : Nat) : Silent op o a →
      ((∃ t, op = .lookup a now t) ∨ (∃ t, op = .lookupI a now t) ∨
        (now = 0 ∧ ∃ p, Saves op a p)) →
      Change E s op o a (some e) (some { e with
        usetime := now })
  | savedNew (i p : Nat) : Saves op a p → o = Out.idxOk i →
      Change E s op o a none (some ⟨i, 0, false, false, 0#32, 0, [p]⟩)
  | saved (e : Info) (p : Nat) : Saves op a p → o = Out.idxOk e.idx →
      (e.complete = true → ∃ i t, op = .saveIdx a i p t) →
      Change E s op o a (some e) (some { e with
        usetime := 0
        pkts := p :: e.pkts })
  | gone (e : Info) : Silent op o a → Gone E s op a e → Change E s op o a (some e) none

theorem silent_of_ne {op : Op} {o : Out} {a : Addr}
    (h1 : ∀ b m q n, op = .insert b m q n → b ≠ a)
    (h2 : ∀ b p t, op = .saveLocal b p t → b ≠ a)
    (h3 : ∀ b i p t, op = .saveIdx b i p t → b ≠ a) : Silent op o a := by
  intro h
  cases op with
  | insert b m q n => simp [lastMac, savedFor, sentFor, h1 b m q n rfl]
  | saveLocal b p t => simp [lastMac, savedFor, sentFor, h2 b p t rfl]
  | saveIdx b i p t => simp [lastMac, savedFor, sentFor, h3 b i p t rfl]
  | _ => simp [lastMac, savedFor, sentFor]

theorem silent_fail {op : Op} {o : Out} {a : Addr} (hok : o.ok = false) (hs : o.sent = []) :
    Silent op o a := by
  intro h
  cases op <;> simp [lastMac, savedFor, sentFor, hok, hs]

/-- Saving on entry `i`, seen from address `a`. -/
theorem saveTo_change (I : Inv E s) {op : Op} {b : Addr} {i p : Nat} {tmr : Bool}
    (hl : Live E s i) (hk : (s.ent i).key = keyOf b) (hs : Saves op b p)
    (hc : (s.ent i).complete = true → ∃ i t, op = .saveIdx b i p t) (a : Addr)
    (hop : ∀ c q, Saves op c q → c = b)
    (hins : ∀ c m q n, op ≠ .insert c m q n) :
    Change E s op (saveTo E s (E.hash (keyOf b)) i p tmr).2 a (view E s (keyOf a))
      (view E (saveTo E s (E.hash (keyOf b)) i p tmr).1 (keyOf a)) := by
  have hv : view E s (keyOf b) = some (info i (s.ent i)) := (view_some I).mpr ⟨i, hl, hk, rfl⟩
  obtain ⟨-, h⟩ := saveTo_effect I hl hk p tmr
  have hne : b ≠ a → Silent op (saveTo E s (E.hash (keyOf b)) i p tmr).2 a := by
    intro hba
    refine silent_of_ne (fun c m q n hh => absurd hh (hins c m q n)) ?_ ?_
    · intro c q t hh hca
      exact hba (by rw [← hop c q ⟨t, Or.inl hh⟩, hca])
    · intro c j q t hh hca
      exact hba (by rw [← hop c q ⟨t, Or.inr ⟨j, hh⟩⟩, hca])
  by_cases hba : b = a
  · subst hba
    rcases h with ⟨hp, ho, hview⟩ | ⟨hp, ho, hview⟩
    · rw [hview, ho, setKey_self, hv]
      exact Change.saved (info i (s.ent i)) p hs rfl hc
    · rw [hview, ho, setKey_self, hv]
      by_cases hq : (s.ent i).pkts = [] ∧ (s.ent i).ref = 0#32
      · rw [if_pos hq]
        exact Change.gone _ (silent_fail rfl rfl) (Gone.full p hs hp hq.1 hq.2)
      · rw [if_neg hq]
        exact Change.use (info i (s.ent i)) 0 (silent_fail rfl rfl) (Or.inr (Or.inr ⟨rfl, p, hs⟩))
  · have hkk : keyOf a ≠ keyOf b := fun h => hba (keyOf_inj h).symm
    rcases h with ⟨hp, ho, hview⟩ | ⟨hp, ho, hview⟩
    · rw [hview, setKey_ne _ _ hkk]
      exact Change.same _ (hne hba)
    · rw [hview, setKey_ne _ _ hkk]
      exact Change.same _ (hne hba)

/-- The refinement: every valid operation changes the information about every address in one of
the listed ways. -/
theorem step_change (W : WF E s) (op : Op) (hvalid : Valid E s op) (a : Addr) :
    Change E s op (step E s op).2 a (view E s (keyOf a)) (view E (step E s op).1 (keyOf a)) := by
  have I := W.inv
  cases op with
  | insert b mac m now =>
    have h := (insert_effect I (keyOf b) mac m now).2
    show Change E s _ (insert E s (keyOf b) mac m now).2 a _
      (view E (insert E s (keyOf b) mac m now).1 _)
    rcases h with ⟨ho, hs, hv, hfr⟩ | ⟨i, hsome, hnone⟩
    · rw [ho, hs]
      exact Change.same _ (silent_fail rfl rfl)
    · by_cases hba : b = a
      · subst hba
        cases hv : view E s (keyOf b) with
        | none =>
          obtain ⟨-, ho, hview⟩ := hnone hv
          rw [ho, hview, setKey_self]
          have := Change.inserted (E := E) (s := s) (o := ⟨true, i, 0, [], []⟩) (a := b) none i mac
            m now rfl rfl (by intro e he; cases he)
          simpa using this
        | some e =>
          obtain ⟨ho, hi, hview⟩ := hsome e hv
          rw [ho, hview, setKey_self]
          exact Change.inserted (some e) i mac m now rfl rfl (by intro e' he; cases he; exact hi)
      · have hkk : keyOf a ≠ keyOf b := fun h => hba (keyOf_inj h).symm
        have hsil : ∀ o : Out, Silent (.insert b mac m now) o a := by
          intro o
          refine silent_of_ne ?_ ?_ ?_
          · intro c _ _ _ hh; cases hh; exact hba
          · intro c _ _ hh; cases hh
          · intro c _ _ _ hh; cases hh
        cases hv : view E s (keyOf b) with
        | none =>
          obtain ⟨-, ho, hview⟩ := hnone hv
          rw [hview, setKey_ne _ _ hkk]
          exact Change.same _ (hsil _)
        | some e =>
          obtain ⟨ho, hi, hview⟩ := hsome e hv
          rw [hview, setKey_ne _ _ hkk]
          exact Change.same _ (hsil _)
  | insertInc b =>
    have h := (insertInc_effect I (keyOf b)).2
    show Change E s _ (insertInc E s (keyOf b)).2 a _ (view E (insertInc E s (keyOf b)).1 _)
    have hsil : ∀ o : Out, Silent (.insertInc b) o a := by
      intro o
      refine silent_of_ne ?_ ?_ ?_
      · intro c _ _ _ hh; cases hh
      · intro c _ _ hh; cases hh
      · intro c _ _ _ hh; cases hh
    rcases h with ⟨ho, hs, hv, hfr⟩ | ⟨i, ho, hsome, hnone⟩
    · rw [ho, hs]
      exact Change.same _ (hsil _)
    · rw [ho]
      by_cases hba : b = a
      · subst hba
        cases hv : view E s (keyOf b) with
        | none =>
          obtain ⟨-, t, hview⟩ := hnone hv
          rw [hview, setKey_self]
          exact Change.fresh i t rfl rfl
        | some e =>
          obtain ⟨hi, hview⟩ := hsome e hv
          rw [hview, setKey_self]
          exact Change.zeroed e rfl (by rw [hi])
      · have hkk : keyOf a ≠ keyOf b := fun h => hba (keyOf_inj h).symm
        cases hv : view E s (keyOf b) with
        | none =>
          obtain ⟨-, t, hview⟩ := hnone hv
          rw [hview, setKey_ne _ _ hkk]
          exact Change.same _ (hsil _)
        | some e =>
          obtain ⟨hi, hview⟩ := hsome e hv
          rw [hview, setKey_ne _ _ hkk]
          exact Change.same _ (hsil _)
  | inc i =>
    show Change E s _ (Out.idxOk i) a _ (view E (incRef s i) _)
    rw [(inc_effect I i).2]
    have hsil : Silent (.inc i) (Out.idxOk i) a := fun h => ⟨rfl, rfl, rfl⟩
    unfold modIdx
    cases hv : view E s (keyOf a) with
    | none => exact Change.same _ hsil
    | some e =>
      rw [Option.map_some]
      by_cases hi : e.idx = i
      · rw [if_pos hi]
        exact Change.ref e _ hsil (Or.inl ⟨by rw [hi], rfl⟩)
      · rw [if_neg hi]; exact Change.same _ hsil
  | dec i =>
    show Change E s _ (Out.idxOk i) a _ (view E (decRef E s i) _)
    rw [(dec_effect I hvalid.1 hvalid.2).2]
    have hsil : Silent (.dec i) (Out.idxOk i) a := fun h => ⟨rfl, rfl, rfl⟩
    unfold dropIdx modIdx
    cases hv : view E s (keyOf a) with
    | none => exact Change.same _ hsil
    | some e =>
      rw [Option.map_some, Option.bind_some]
      by_cases hi : e.idx = i
      · rw [if_pos hi]
        by_cases hr : e.ref - 1#32 = 0#32
        · rw [if_pos ⟨hi, hr⟩]
          exact Change.gone e hsil (Gone.dec (by rw [hi]) hr)
        · rw [if_neg (fun h => hr h.2)]
          exact Change.ref e _ hsil (Or.inr ⟨by rw [hi], rfl, hr⟩)
      · rw [if_neg hi, if_neg (fun h => hi h.1)]; exact Change.same _ hsil
  | removeIdx i =>
    show Change E s _ (Out.idxOk i) a _ (view E (removeIdx E s i) _)
    rw [(removeIdx_effect I hvalid.1 hvalid.2).2]
    have hsil : Silent (.removeIdx i) (Out.idxOk i) a := fun h => ⟨rfl, rfl, rfl⟩
    unfold dropIdx
    cases hv : view E s (keyOf a) with
    | none => exact Change.same _ hsil
    | some e =>
      rw [Option.bind_some]
      by_cases hi : e.idx = i ∧ e.ref = 0#32
      · rw [if_pos hi]
        exact Change.gone e hsil (Gone.rem (by rw [hi.1]) hi.2)
      · rw [if_neg hi]; exact Change.same _ hsil
  | lookup b now tmr =>
    have h := (lookupIdx_effect I b now tmr)
    show Change E s _ _ a _ (view E (lookupIdx E s (keyOf b) now tmr).1 _)
    have hsil : ∀ o, Silent (.lookup b now tmr) o a := fun o h => ⟨rfl, rfl, rfl⟩
    cases hv : view E s (keyOf b) with
    | none =>
      rw [h.2.1 hv]
      exact Change.same _ (hsil _)
    | some e =>
      rcases (h.2.2.1 e hv).2.1 with hh | hh
      · rw [hh]; exact Change.same _ (hsil _)
      · rw [hh]
        by_cases hba : b = a
        · subst hba
          rw [setKey_self, hv]
          exact Change.use e now (hsil _) (Or.inl ⟨tmr, rfl⟩)
        · have hkk : keyOf a ≠ keyOf b := fun h => hba (keyOf_inj h).symm
          rw [setKey_ne _ _ hkk]; exact Change.same _ (hsil _)
  | lookupI b now tmr =>
    have h := (lookupIdx_effect I b now tmr)
    show Change E s _ _ a _ (view E (lookupIdx E s (keyOf b) now tmr).1 _)
    have hsil : ∀ o, Silent (.lookupI b now tmr) o a := fun o h => ⟨rfl, rfl, rfl⟩
    cases hv : view E s (keyOf b) with
    | none =>
      rw [h.2.1 hv]
      exact Change.same _ (hsil _)
    | some e =>
      rcases (h.2.2.1 e hv).2.1 with hh | hh
      · rw [hh]; exact Change.same _ (hsil _)
      · rw [hh]
        by_cases hba : b = a
        · subst hba
          rw [setKey_self, hv]
          exact Change.use e now (hsil _) (Or.inr (Or.inl ⟨tmr, rfl⟩))
        · have hkk : keyOf a ≠ keyOf b := fun h => hba (keyOf_inj h).symm
          rw [setKey_ne _ _ hkk]; exact Change.same _ (hsil _)
  | getMac i => exact Change.same _ (fun h => ⟨rfl, rfl, rfl⟩)
  | saveLocal b p tmr =>
    show Change E s _ (saveLocal E s (keyOf b) p tmr).2 a _
      (view E (saveLocal E s (keyOf b) p tmr).1 _)
    unfold saveLocal
    rcases insertNew_effect I (keyOf b) with ⟨hn, hv, hfr⟩ | ⟨s1, i, hn, I1, hl, hk, hp, hc, hnt,
      hcase⟩
    · rw [hn]
      exact Change.same _ (silent_fail rfl rfl)
    · rw [hn]
      dsimp only
      rcases hcase with ⟨rfl, hv⟩ | ⟨hv, hif, hent, htm, hview⟩
      · by_cases hcomp : (s1.ent i).complete = true
        · rw [if_pos hcomp]; exact Change.same _ (silent_fail rfl rfl)
        · rw [if_neg hcomp]
          refine saveTo_change I1 hl hk ⟨tmr, Or.inl rfl⟩ (fun h => absurd h hcomp) a ?_ ?_
          · rintro c q ⟨t, h | ⟨j, h⟩⟩
            · cases h; rfl
            · cases h
          · intro c m q n h; cases h
      · have hei : s1.ent i = freshEnt (s.ent i) (keyOf b) := by rw [hent, put_same]
        have hcomp : ¬ (s1.ent i).complete = true := by rw [hei]; simp [freshEnt]
        rw [if_neg hcomp]
        obtain ⟨-, h⟩ := saveTo_effect I1 hl hk p tmr
        by_cases hba : b = a
        · subst hba
          rw [hv]
          rcases h with ⟨hp, ho, hview2⟩ | ⟨hp, ho, hview2⟩
          · rw [hview2, ho, setKey_self, hei]
            exact Change.savedNew i p ⟨tmr, Or.inl rfl⟩ rfl
          · rw [hview2, ho, setKey_self, hei, if_pos ⟨rfl, rfl⟩]
            exact Change.same _ (silent_fail rfl rfl)
        · have hkk : keyOf a ≠ keyOf b := fun h => hba (keyOf_inj h).symm
          have hsil : ∀ o : Out, Silent (.saveLocal b p tmr) o a := by
            intro o
            refine silent_of_ne ?_ ?_ ?_
            · intro c _ _ _ hh; cases hh
            · intro c _ _ hh; cases hh; exact hba
            · intro c _ _ _ hh; cases hh
          rcases h with ⟨hp, ho, hview2⟩ | ⟨hp, ho, hview2⟩
          · rw [hview2, setKey_ne _ _ hkk, hview, setKey_ne _ _ hkk]
            exact Change.same _ (hsil _)
          · rw [hview2, setKey_ne _ _ hkk, hview, setKey_ne _ _ hkk]
            exact Change.same _ (hsil _)
  | saveIdx b i p tmr =>
    obtain ⟨e, he, hi⟩ := hvalid
    have hx := view_idx I he
    rw [hi] at hx
    refine saveTo_change I hx.1 hx.2.1 ⟨tmr, Or.inr ⟨i, rfl⟩⟩ (fun _ => ⟨i, tmr, rfl⟩) a ?_ ?_
    · rintro c q ⟨t, h | ⟨j, h⟩⟩
      · cases h
      · cases h; rfl
    · intro c m q n h; cases h
  | age now =>
    show Change E s _ (Out.idxOk 0) a _ (view E (age E s now) _)
    rw [(age_effect I now).2]
    dsimp only
    have hsil : Silent (.age now) (Out.idxOk 0) a := fun h => ⟨rfl, rfl, rfl⟩
    cases hv : view E s (keyOf a) with
    | none => exact Change.same _ hsil
    | some e =>
      rw [Option.bind_some]
      by_cases hi : e.idle E.timeout now
      · rw [if_pos hi]
        exact Change.gone e hsil (Gone.age now rfl hi)
      · rw [if_neg hi]; exact Change.same _ hsil
  | pktTimeout t =>
    show Change E s _ (Out.idxOk 0) a _ (view E (pktTimeout E s t) _)
    have hsil : Silent (.pktTimeout t) (Out.idxOk 0) a := fun h => ⟨rfl, rfl, rfl⟩
    unfold pktTimeout
    cases hf : s.timers.find? (fun p => p.1 == t) with
    | none => exact Change.same _ hsil
    | some q =>
      obtain ⟨t', i⟩ := q
      dsimp only
      have hmem := List.mem_of_find?_eq_some hf
      have ht' : t' = t := by
        have := List.find?_some hf
        simpa using this
      subst ht'
      have hr := W.tim _ hmem
      have I1 : Inv E { s with
          timers := s.timers.filter (fun p => p.1 != t') } :=
        inv_mod I _ rfl rfl (fun j => ⟨rfl, rfl⟩) I.cache
      rw [(removeIdx_effect I1 hr.1 hr.2).2]
      have hvv : view E { s with
          timers := s.timers.filter (fun p => p.1 != t') } = view E s :=
        view_congr rfl (fun _ => rfl) (fun _ => rfl)
      rw [hvv]
      unfold dropIdx
      cases hv : view E s (keyOf a) with
      | none => exact Change.same _ hsil
      | some e =>
        rw [Option.bind_some]
        by_cases hi : e.idx = i ∧ e.ref = 0#32
        · rw [if_pos hi]
          exact Change.gone e hsil (Gone.tmo t' rfl (by rw [hi.1]; exact hmem) hi.2)
        · rw [if_neg hi]; exact Change.same _ hsil
  | useTimeout i =>
    show Change E s _ (Out.idxOk i) a _ (view E (useTimeout s i) _)
    have : view E (useTimeout s i) = view E s := by
      have := view_put_mod (E := E) (s := s) (s' := useTimeout s i) i { s.ent i with
        updTmo := false } id rfl rfl rfl rfl
      rw [this]
      funext k
      unfold modIdx
      cases view E s k <;> simp
    rw [this]
    exact Change.same _ (fun h => ⟨rfl, rfl, rfl⟩)

end Verif.Arp

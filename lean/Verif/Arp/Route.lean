import Verif.Arp.Props
/-! C51: a route keeps the ARP entry of its gateway (ARP side of `src/ofp_route.c`). -/
namespace Verif.Arp

variable {E : Env}

/-- ARP state plus the (gateway, arp_ent_idx) pairs of the installed routes, ofp_route.c:183-240,
and the references whose route entry was overwritten by adding the same prefix again
(`ofp_rtl_insert` replaces the data, nobody drops the old reference). -/
structure RSt where
  s : St
  routes : List (Addr × Nat)
  leaked : List (Addr × Nat)

/-- All references ever taken and not dropped. -/
def RSt.held (r : RSt) : List (Addr × Nat) := r.routes ++ r.leaked

/-- The ARP half of `add_route`, ofp_route.c:190-198: look the gateway up, else create an incomplete
entry. Modelled as one step (in C two critical sections, see `route_race_violated`). -/
def gwIdx (E : Env) (s : St) (a : Addr) (now : Nat) (tmr : Bool) : St × Option Nat :=
  let r := lookupIdx E s (keyOf a) now tmr
  match r.2 with
  | some i => (r.1, some i)
  | none =>
    let q := insertInc E r.1 (keyOf a)
    (q.1, if q.2.ok then some q.2.idx else none)

/-- Operations on routes; `arp` are the ARP operations that do not manage references. -/
inductive ROp where
  | add (a : Addr) (now : Nat) (tmr : Bool) (repl : Option (Addr × Nat))
  | addFail (a : Addr) (now : Nat) (tmr : Bool)
  | del (a : Addr) (i : Nat)
  | arp (op : Op)

/-- ARP operations other than the reference management done by routes. -/
def isBase : Op → Bool
  | .inc _ => false
  | .dec _ => false
  | .removeIdx _ => false
  | .insertInc _ => false
  | _ => true

/-- `add_route`, ofp_route.c:201-241, after the gateway step: take the reference and store the index
in the route (`repl`: the route of the same prefix that is overwritten). -/
def addDone (r : RSt) (a : Addr) (repl : Option (Addr × Nat)) (p : St × Option Nat) : RSt :=
  match p.2 with
  | none => ⟨p.1, r.routes, r.leaked⟩
  | some i =>
    match repl with
    | none => ⟨incRef p.1 i, (a, i) :: r.routes, r.leaked⟩
    | some q => ⟨incRef p.1 i, (a, i) :: r.routes.erase q, q :: r.leaked⟩

/-- `add_route` when `ofp_rtl_insert` fails, ofp_route.c:204-224. -/
def addUndo (E : Env) (r : RSt) (p : St × Option Nat) : RSt :=
  match p.2 with
  | none => ⟨p.1, r.routes, r.leaked⟩
  | some i => ⟨removeIdx E (decRef E (incRef p.1 i) i) i, r.routes, r.leaked⟩

/-- `add_route` (ofp_route.c:178-241), `del_route` (ofp_route.c:243-275). -/
def rstep (E : Env) (r : RSt) : ROp → RSt
  | .add a now tmr repl => addDone r a repl (gwIdx E r.s a now tmr)
  | .addFail a now tmr => addUndo E r (gwIdx E r.s a now tmr)
  | .del a i => ⟨decRef E r.s i, r.routes.erase (a, i), r.leaked⟩
  | .arp op => ⟨(step E r.s op).1, r.routes, r.leaked⟩

/-- Only installed routes are deleted or replaced; fewer than 2^32 references are held. -/
def RValid (E : Env) (r : RSt) : ROp → Prop
  | .add _ _ _ none => r.held.length + 1 < 2 ^ 32
  | .add _ _ _ (some q) => r.held.length + 1 < 2 ^ 32 ∧ q ∈ r.routes
  | .addFail _ _ _ => r.held.length + 1 < 2 ^ 32
  | .del a i => (a, i) ∈ r.routes
  | .arp op => isBase op = true ∧ Valid E r.s op

/-- States reachable with these operations. -/
inductive RReach (E : Env) : RSt → Prop where
  | init : RReach E ⟨init E, [], []⟩
  | step {r : RSt} (op : ROp) : RReach E r → RValid E r op → RReach E (rstep E r op)

/-- Number of references to index `i`. -/
def refs (l : List (Addr × Nat)) (i : Nat) : Nat := l.countP (fun p => p.2 == i)

/-- Invariant: references point to the entry of their gateway, and counters are exact. -/
structure RInv (E : Env) (s : St) (held : List (Addr × Nat)) : Prop where
  wf : WF E s
  own : ∀ a i, (a, i) ∈ held → ∃ e, view E s (keyOf a) = some e ∧ e.idx = i
  cnt : ∀ a e, view E s (keyOf a) = some e → e.ref.toNat = refs held e.idx
  len : held.length < 2 ^ 32

theorem refs_pos {l : List (Addr × Nat)} {a : Addr} {i : Nat} (h : (a, i) ∈ l) : 0 < refs l i := by
  unfold refs
  rw [List.countP_pos_iff]
  exact ⟨(a, i), h, by simp⟩

theorem refs_zero {l : List (Addr × Nat)} {i : Nat} (h : ∀ a, (a, i) ∉ l) : refs l i = 0 := by
  unfold refs
  rw [List.countP_eq_zero]
  rintro ⟨a, j⟩ hm
  intro hj
  have : j = i := by simpa using hj
  subst this
  exact h a hm

theorem refs_le (l : List (Addr × Nat)) (i : Nat) : refs l i ≤ l.length := List.countP_le_length

/-- Two addresses never share an index. -/
theorem idx_inj {s : St} (I : Inv E s) {a b : Addr} {e f : Info} (h1 : view E s (keyOf a) = some e)
    (h2 : view E s (keyOf b) = some f) (h : e.idx = f.idx) : a = b := by
  apply keyOf_inj
  rw [← (view_idx I h1).2.1, ← (view_idx I h2).2.1, h]

/-- Operations that do not touch references keep the invariant. -/
theorem rinv_base {s : St} {held : List (Addr × Nat)} (R : RInv E s held) (op : Op)
    (hb : isBase op = true ∨ ∃ b, op = .insertInc b) (hv : Valid E s op) :
    RInv E (step E s op).1 held := by
  have W' := wf_step R.wf op hv
  have nodec : ∀ i, op ≠ .dec i ∧ op ≠ .inc i ∧ op ≠ .removeIdx i := by
    intro i
    rcases hb with hb | ⟨b, rfl⟩
    · refine ⟨?_, ?_, ?_⟩ <;> (intro h; subst h; simp [isBase] at hb)
    · refine ⟨?_, ?_, ?_⟩ <;> (intro h; cases h)
  have own' : ∀ a i, (a, i) ∈ held → ∃ e, view E (step E s op).1 (keyOf a) = some e ∧ e.idx = i := by
    intro a i hm
    obtain ⟨e, he, hi⟩ := R.own a i hm
    have hr : e.ref ≠ 0#32 := by
      intro h0
      have h1 := R.cnt a e he
      have h2 := refs_pos hm
      rw [hi, h0] at h1
      simp at h1; omega
    have hch := step_change R.wf op hv a
    rw [he] at hch
    generalize ho : (step E s op).2 = o at hch
    generalize view E (step E s op).1 (keyOf a) = v' at hch ⊢
    cases hch with
    | same _ hs => exact ⟨e, rfl, hi⟩
    | inserted _ j mac m now hop _ hidx =>
      exact ⟨_, rfl, by rw [← hi]; exact (hidx e rfl).symm⟩
    | zeroed _ hop => exact ⟨_, rfl, hi⟩
    | ref _ rr hs hh => exact ⟨_, rfl, hi⟩
    | use _ now hs hh => exact ⟨_, rfl, hi⟩
    | saved _ p hs _ => exact ⟨_, rfl, hi⟩
    | gone _ hs hg =>
      exfalso
      cases hg with
      | dec h _ => exact (nodec _).1 h
      | rem h _ => exact (nodec _).2.2 h
      | tmo t _ _ h => exact hr h
      | age now _ h => exact hr h.2.2.1
      | full p _ _ _ h => exact hr h
  refine ⟨W', own', ?_, R.len⟩
  intro a e' he'
  have hch := step_change R.wf op hv a
  have hnew : view E s (keyOf a) = none → e'.ref = 0#32 → e'.ref.toNat = refs held e'.idx := by
    intro hn hr
    rw [hr, refs_zero]
    · rfl
    · intro b hm
      obtain ⟨f, hf, hfi⟩ := own' b e'.idx hm
      have hab := idx_inj W'.inv he' hf hfi.symm
      subst hab
      obtain ⟨g, hg, _⟩ := R.own a e'.idx hm
      rw [hn] at hg; cases hg
  rw [he'] at hch
  generalize ho : (step E s op).2 = o at hch
  generalize hview : view E s (keyOf a) = v at hch hnew
  cases hch with
  | same _ hs => exact R.cnt a e' hview
  | inserted _ j mac m now hop _ hidx =>
    cases v with
    | none => exact hnew rfl rfl
    | some e =>
      have h1 := R.cnt a e hview
      have h2 := hidx e rfl
      show e.ref.toNat = refs held j
      rw [← h2]; exact h1
  | fresh i t hop => exact hnew rfl rfl
  | zeroed e hop => exact R.cnt a e hview
  | ref e rr hs hh =>
    rcases hh with ⟨h, _⟩ | ⟨h, _⟩
    · exact absurd h (nodec _).2.1
    · exact absurd h (nodec _).1
  | use e now hs hh => exact R.cnt a e hview
  | savedNew i p hs _ => exact hnew rfl rfl
  | saved e p hs _ => exact R.cnt a e hview

theorem refs_cons (a : Addr) (i j : Nat) (l : List (Addr × Nat)) :
    refs ((a, i) :: l) j = refs l j + if i = j then 1 else 0 := by
  unfold refs
  rw [List.countP_cons]
  simp

/-- Taking a reference. -/
theorem rinv_inc {s : St} {held : List (Addr × Nat)} (R : RInv E s held) {a : Addr} {e : Info}
    (hv : view E s (keyOf a) = some e) (hlen : held.length + 1 < 2 ^ 32) :
    RInv E (incRef s e.idx) ((a, e.idx) :: held) := by
  have hx := view_idx R.wf.inv hv
  have heff := (inc_effect R.wf.inv e.idx).2
  have hview : ∀ b f, view E s (keyOf b) = some f → view E (incRef s e.idx) (keyOf b) =
      some (if f.idx = e.idx then { f with
        ref := f.ref + 1#32 } else f) := by
    intro b f hf
    rw [heff]; unfold modIdx; rw [hf]; rfl
  refine ⟨wf_step R.wf (.inc e.idx) ⟨hx.2.2.2.1, hx.2.2.2.2⟩, ?_, ?_, by simpa using hlen⟩
  · intro b i hm
    rcases List.mem_cons.mp hm with hh | hh
    · cases hh
      refine ⟨_, hview a e hv, ?_⟩
      simp
    · obtain ⟨f, hf, hfi⟩ := R.own b i hh
      refine ⟨_, hview b f hf, ?_⟩
      split <;> exact hfi
  · intro b f' hf'
    cases hvb : view E s (keyOf b) with
    | none =>
      rw [heff] at hf'
      unfold modIdx at hf'
      rw [hvb] at hf'; cases hf'
    | some f =>
      rw [hview b f hvb] at hf'
      have hf'' := Option.some.inj hf'
      have hc := R.cnt b f hvb
      have hle := refs_le held f.idx
      by_cases hfe : f.idx = e.idx
      · rw [if_pos hfe] at hf''
        rw [← hf'']
        show (f.ref + 1#32).toNat = refs ((a, e.idx) :: held) f.idx
        rw [refs_cons, if_pos hfe.symm, ← hc, BitVec.toNat_add]
        have : (1#32).toNat = 1 := rfl
        rw [this]
        apply Nat.mod_eq_of_lt
        omega
      · rw [if_neg hfe] at hf''
        rw [← hf'', refs_cons, if_neg (fun h => hfe h.symm)]
        exact hc

theorem refs_erase {l : List (Addr × Nat)} {a : Addr} {i : Nat} (h : (a, i) ∈ l) (j : Nat) :
    refs l j = refs (l.erase (a, i)) j + if i = j then 1 else 0 := by
  have hp := List.perm_cons_erase h
  have : refs l j = refs ((a, i) :: l.erase (a, i)) j := hp.countP_eq _
  rw [this, refs_cons]

/-- Dropping a reference. -/
theorem rinv_dec {s : St} {held : List (Addr × Nat)} (R : RInv E s held) {a : Addr} {i : Nat}
    (hm : (a, i) ∈ held) : RInv E (decRef E s i) (held.erase (a, i)) := by
  obtain ⟨e, he, hi⟩ := R.own a i hm
  subst hi
  have hx := view_idx R.wf.inv he
  have heff := (dec_effect R.wf.inv hx.2.2.2.1 hx.2.2.2.2).2
  have hce := R.cnt a e he
  have hre := refs_erase hm e.idx
  rw [if_pos rfl] at hre
  have hle := refs_le held e.idx
  have hlen := R.len
  have hsub : (e.ref - 1#32).toNat = refs (held.erase (a, e.idx)) e.idx := by
    rw [BitVec.toNat_sub]
    have : (1#32).toNat = 1 := rfl
    rw [this]
    omega
  have hview : ∀ b f, view E s (keyOf b) = some f → view E (decRef E s e.idx) (keyOf b) =
      (if b = a then (if e.ref - 1#32 = 0#32 then none else some { e with
        ref := e.ref - 1#32 }) else some f) := by
    intro b f hf
    rw [heff]; unfold dropIdx modIdx; rw [hf]
    by_cases hba : b = a
    · subst hba
      rw [he] at hf; cases hf
      rw [if_pos rfl]
      simp only [Option.map_some, Option.bind_some, if_true, true_and]
    · rw [if_neg hba]
      have hne : f.idx ≠ e.idx := fun h => hba (idx_inj R.wf.inv hf he h)
      simp only [Option.map_some, Option.bind_some, hne, false_and, if_false]
  refine ⟨wf_step R.wf (.dec e.idx) ⟨hx.2.2.2.1, hx.2.2.2.2⟩, ?_, ?_, ?_⟩
  · intro b j hb
    obtain ⟨f, hf, hfj⟩ := R.own b j (List.mem_of_mem_erase hb)
    rw [hview b f hf]
    by_cases hba : b = a
    · subst hba
      rw [he] at hf; cases hf
      rw [if_pos rfl]
      have hpos := refs_pos hb
      rw [← hfj] at hpos
      have : e.ref - 1#32 ≠ 0#32 := by
        intro h0
        rw [h0] at hsub
        simp at hsub; omega
      rw [if_neg this]
      exact ⟨_, rfl, hfj⟩
    · rw [if_neg hba]; exact ⟨f, rfl, hfj⟩
  · intro b f' hf'
    cases hvb : view E s (keyOf b) with
    | none =>
      rw [heff] at hf'
      unfold dropIdx modIdx at hf'
      rw [hvb] at hf'; cases hf'
    | some f =>
      rw [hview b f hvb] at hf'
      by_cases hba : b = a
      · subst hba
        rw [if_pos rfl] at hf'
        by_cases h0 : e.ref - 1#32 = 0#32
        · rw [if_pos h0] at hf'; cases hf'
        · rw [if_neg h0] at hf'
          cases hf'
          exact hsub
      · rw [if_neg hba] at hf'
        have hff := Option.some.inj hf'
        subst hff
        have hne : e.idx ≠ f.idx := fun h => hba (idx_inj R.wf.inv hvb he h.symm)
        have := refs_erase hm f.idx
        rw [if_neg hne] at this
        rw [R.cnt b f hvb, this]; rfl
  · exact Nat.lt_of_le_of_lt (List.length_erase_le) hlen

/-- The gateway step of `add_route`: afterwards the gateway has an entry, with the index returned. -/
theorem gwIdx_spec {s : St} {held : List (Addr × Nat)} (R : RInv E s held) (a : Addr) (now : Nat)
    (tmr : Bool) :
    RInv E (gwIdx E s a now tmr).1 held ∧
    ∀ i, (gwIdx E s a now tmr).2 = some i →
      ∃ e, view E (gwIdx E s a now tmr).1 (keyOf a) = some e ∧ e.idx = i := by
  have h1 : RInv E (lookupIdx E s (keyOf a) now tmr).1 held :=
    rinv_base R (.lookupI a now tmr) (Or.inl rfl) trivial
  have heff := lookupIdx_effect R.wf.inv a now tmr
  unfold gwIdx
  dsimp only
  cases hr : (lookupIdx E s (keyOf a) now tmr).2 with
  | some i =>
    dsimp only
    refine ⟨h1, ?_⟩
    intro j hj
    cases hj
    cases hv : view E s (keyOf a) with
    | none =>
      rw [heff.2.1 hv] at hr; cases hr
    | some e =>
      have he := heff.2.2.1 e hv
      have hi : e.idx = i := by
        rcases he.1 with h | ⟨h, _⟩
        · rw [hr] at h; exact (Option.some.inj h).symm
        · rw [h] at hr; cases hr
      rcases he.2.1 with h | h
      · exact ⟨e, by rw [h]; exact hv, hi⟩
      · exact ⟨_, by rw [h, setKey_self], by exact hi⟩
  | none =>
    dsimp only
    have h2 : RInv E (insertInc E (lookupIdx E s (keyOf a) now tmr).1 (keyOf a)).1 held :=
      rinv_base h1 (.insertInc a) (Or.inr ⟨a, rfl⟩) trivial
    refine ⟨h2, ?_⟩
    intro j hj
    rcases (insertInc_effect h1.wf.inv (keyOf a)).2 with ⟨ho, _⟩ | ⟨i, ho, hsome, hnone⟩
    · rw [ho] at hj; cases hj
    · rw [ho] at hj
      have hij : i = j := Option.some.inj hj
      subst hij
      cases hv : view E (lookupIdx E s (keyOf a) now tmr).1 (keyOf a) with
      | none =>
        obtain ⟨_, t, hview⟩ := hnone hv
        exact ⟨_, by rw [hview, setKey_self], rfl⟩
      | some e =>
        obtain ⟨hi, hview⟩ := hsome e hv
        exact ⟨_, by rw [hview, setKey_self], by exact hi⟩

theorem rinv_perm {s : St} {l l' : List (Addr × Nat)} (R : RInv E s l) (h : l.Perm l') :
    RInv E s l' := by
  refine ⟨R.wf, fun a i hm => R.own a i (h.mem_iff.mpr hm), ?_, by rw [← h.length_eq]; exact R.len⟩
  intro a e he
  rw [R.cnt a e he]
  exact h.countP_eq _

theorem rinv_reach {r : RSt} (h : RReach E r) : RInv E r.s r.held := by
  induction h with
  | init =>
    refine ⟨wf_init E, ?_, ?_, by simp [RSt.held]⟩
    · intro a i hm; simp [RSt.held] at hm
    · intro a e he; simp [view, find, init] at he
  | @step r op hr hv ih =>
    cases op with
    | add a now tmr repl =>
      have hg := gwIdx_spec ih a now tmr
      show RInv E (addDone r a repl (gwIdx E r.s a now tmr)).s
        (addDone r a repl (gwIdx E r.s a now tmr)).held
      generalize gwIdx E r.s a now tmr = p at hg
      unfold addDone
      cases hp : p.2 with
      | none => exact hg.1
      | some i =>
        obtain ⟨e, he, hi⟩ := hg.2 i hp
        subst hi
        cases repl with
        | none => exact rinv_inc hg.1 he hv
        | some q =>
          refine rinv_perm (rinv_inc hg.1 he hv.1) ?_
          show ((a, e.idx) :: (r.routes ++ r.leaked)).Perm
            (((a, e.idx) :: r.routes.erase q) ++ q :: r.leaked)
          rw [List.cons_append]
          refine List.Perm.cons _ ?_
          refine List.Perm.trans ?_ (List.perm_middle).symm
          rw [← List.cons_append]
          exact List.Perm.append_right _ (List.perm_cons_erase hv.2)
    | addFail a now tmr =>
      have hg := gwIdx_spec ih a now tmr
      show RInv E (addUndo E r (gwIdx E r.s a now tmr)).s
        (addUndo E r (gwIdx E r.s a now tmr)).held
      generalize gwIdx E r.s a now tmr = p at hg
      unfold addUndo
      cases hp : p.2 with
      | none => exact hg.1
      | some i =>
        obtain ⟨e, he, hi⟩ := hg.2 i hp
        subst hi
        dsimp only
        have h1 := rinv_inc hg.1 he hv
        have h2 := rinv_dec h1 (List.mem_cons_self (a := (a, e.idx)))
        rw [List.erase_cons_head] at h2
        have hx := view_idx hg.1.wf.inv he
        have heff := (removeIdx_effect h2.wf.inv hx.2.2.2.1 hx.2.2.2.2).2
        refine ⟨wf_step h2.wf (.removeIdx e.idx) ⟨hx.2.2.2.1, hx.2.2.2.2⟩, ?_, ?_, h2.len⟩
        · intro b j hm
          obtain ⟨f, hf, hfj⟩ := h2.own b j hm
          refine ⟨f, ?_, hfj⟩
          rw [heff]; unfold dropIdx
          rw [hf, Option.bind_some, if_neg]
          rintro ⟨_, h0⟩
          have h1 := h2.cnt b f hf
          have h4 : 0 < refs r.held j := refs_pos hm
          rw [hfj, h0] at h1
          have h3 : (0#32).toNat = 0 := rfl
          rw [h3] at h1
          omega
        · intro b f hf
          rw [heff] at hf
          unfold dropIdx at hf
          cases hvb : view E (decRef E (incRef p.1 e.idx) e.idx) (keyOf b) with
          | none => rw [hvb] at hf; cases hf
          | some g =>
            rw [hvb, Option.bind_some] at hf
            split at hf
            · cases hf
            · have hgf := Option.some.inj hf
              subst hgf
              exact h2.cnt b _ hvb
    | del a i =>
      have hm : (a, i) ∈ r.held := by
        unfold RSt.held; exact List.mem_append_left _ hv
      have := rinv_dec ih hm
      show RInv E (decRef E r.s i) (r.routes.erase (a, i) ++ r.leaked)
      unfold RSt.held at this
      rw [List.erase_append_left _ hv] at this
      exact this
    | arp op => exact rinv_base ih op (Or.inl hv.1) hv.2

/-- C51 (if the ARP half of `add_route` is not interleaved with other threads). After any history of
route additions, failed additions, replacements and deletions mixed with ARP learning, packet saving,
timeouts and ageing, the ARP index stored in every installed route is the entry of that route's
gateway: sending through the route uses the gateway's MAC or finds none, never another host's. -/
theorem route_gateway_partial {r : RSt} (h : RReach E r) (a : Addr) (i : Nat)
    (hm : (a, i) ∈ r.routes) :
    ∃ e, view E r.s (keyOf a) = some e ∧ e.idx = i ∧ e.ref ≠ 0#32 ∧
      getMac r.s i = (if e.complete then some e.mac else none) := by
  have R := rinv_reach h
  have hh : (a, i) ∈ r.held := List.mem_append_left _ hm
  obtain ⟨e, he, hi⟩ := R.own a i hh
  have hx := view_idx R.wf.inv he
  refine ⟨e, he, hi, ?_, ?_⟩
  · intro h0
    have h1 := R.cnt a e he
    have h2 := refs_pos hh
    rw [hi, h0] at h1
    simp at h1; omega
  · have hc : e.complete = (r.s.ent i).complete := by
      rw [← hi]; exact congrArg Info.complete hx.2.2.1
    have hmm : e.mac = (r.s.ent i).mac := by
      rw [← hi]; exact congrArg Info.mac hx.2.2.1
    unfold getMac
    rw [hc, hmm]

/-- Reference counters are exact: the number of routes through the gateway plus the references
leaked by re-adding prefixes. -/
theorem route_refcount {r : RSt} (h : RReach E r) (a : Addr) (e : Info)
    (hv : view E r.s (keyOf a) = some e) :
    e.ref.toNat = refs r.routes e.idx + refs r.leaked e.idx := by
  rw [(rinv_reach h).cnt a e hv]
  unfold refs RSt.held
  exact List.countP_append

/-- Non-vacuity: two routes through one gateway, one through another; ageing and a deletion. -/
def demoRoutes : RSt :=
  rstep tiny (rstep tiny (rstep tiny (rstep tiny (rstep tiny ⟨init tiny, [], []⟩
    (.add (0#16, 1#32) 0 true none)) (.add (0#16, 1#32) 0 true none))
    (.add (0#16, 2#32) 0 true none)) (.arp (.insert (0#16, 2#32) 55 false 3)))
    (.del (0#16, 1#32) 1)

example : RReach tiny demoRoutes := by
  refine RReach.step _ (RReach.step _ (RReach.step _ (RReach.step _ (RReach.step _ RReach.init ?_) ?_)
    ?_) ?_) ?_
  · show _ < _; decide +kernel
  · show _ < _; decide +kernel
  · show _ < _; decide +kernel
  · exact ⟨rfl, trivial⟩
  · show _ ∈ _; decide +kernel
example : demoRoutes.routes = [((0#16, 2#32), 2), ((0#16, 1#32), 1)] ∧
    getMac demoRoutes.s 2 = some 55 := by decide +kernel

/-- C51 is false when the ARP half of `add_route` is interleaved: the ageing timer runs between the
creation of the incomplete entry and the increment of its counter (the new entry's use time is stale),
the entry is freed and reused for another host, and the route - gateway 10.0.0.1 (here 1) - sends to
that host's MAC 66. -/
def routeRaceOps : List Op :=
  [.lookupI (0#16, 1#32) 500 true, .insertInc (0#16, 1#32), .age 501, .inc 1,
   .insert (0#16, 7#32) 8 false 502, .insert (0#16, 9#32) 66 false 503]

theorem route_race_violated :
    Run tiny (exec tiny routeRaceOps (start tiny)).1 (exec tiny routeRaceOps (start tiny)).2 ∧
    -- the index `add_route` stored in the route for gateway 1 is 1
    ((exec tiny (routeRaceOps.take 2) (start tiny)).1.head?.map (fun p => p.2.idx)) = some 1 ∧
    -- sending through it uses the MAC of host 9; the gateway itself has no entry
    getMac (exec tiny routeRaceOps (start tiny)).2 1 = some 66 ∧
    find tiny (exec tiny routeRaceOps (start tiny)).2 (keyOf (0#16, 1#32)) = none ∧
    find tiny (exec tiny routeRaceOps (start tiny)).2 (keyOf (0#16, 9#32)) = some 1 :=
  ⟨exec_run routeRaceOps Run.nil (by decide +kernel), by decide +kernel, by decide +kernel,
    by decide +kernel, by decide +kernel⟩

end Verif.Arp

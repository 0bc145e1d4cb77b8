import Verif.Arp.Change
import Mathlib.Data.List.Perm.Basic
import Mathlib.Data.List.Nodup
/-! ARP properties C15, C16, C17, C18, C52. -/
namespace Verif.Arp

variable {E : Env} {s : St}

/-! ### Running concrete operation lists (for examples and witnesses) -/

/-- Boolean form of `Valid`. -/
def validB (E : Env) (s : St) : Op → Bool
  | .inc i => decide (1 ≤ i ∧ i ≤ E.n)
  | .dec i => decide (1 ≤ i ∧ i ≤ E.n)
  | .removeIdx i => decide (1 ≤ i ∧ i ≤ E.n)
  | .useTimeout i => decide (1 ≤ i ∧ i ≤ E.n)
  | .saveIdx a i _ _ => match view E s (keyOf a) with
    | some e => decide (e.idx = i)
    | none => false
  | _ => true

theorem validB_valid {op : Op} (h : validB E s op = true) : Valid E s op := by
  cases op with
  | inc i => simpa [validB, Valid] using h
  | dec i => simpa [validB, Valid] using h
  | removeIdx i => simpa [validB, Valid] using h
  | useTimeout i => simpa [validB, Valid] using h
  | saveIdx a i p t =>
    simp only [validB] at h
    split at h
    · rename_i e he
      exact ⟨e, he, by simpa using h⟩
    · cases h
  | _ => trivial

/-- Boolean sufficient condition for `Fair`. -/
def fairB (E : Env) (s : St) : Op → Bool
  | .insertInc a => (lookupIdx E s (keyOf a) 0 false).2.isNone
  | .saveIdx _ i _ _ => (getMac s i).isNone
  | _ => true

theorem lookupIdx_res (k : K) (n1 n2 : Nat) (t1 t2 : Bool) :
    (lookupIdx E s k n1 t1).2 = (lookupIdx E s k n2 t2).2 := by
  unfold lookupIdx
  dsimp only
  split
  · rfl
  · split
    · rfl
    · split
      · rfl
      · rfl

theorem fairB_fair {op : Op} (h : fairB E s op = true) : Fair E s op := by
  cases op with
  | insertInc a =>
    intro now tmr
    rw [lookupIdx_res (n2 := 0) (t2 := false)]
    simpa [fairB] using h
  | saveIdx a i p t => simpa [fairB, Fair] using h
  | _ => trivial

/-- Execute operations (oldest first) from a state with a history. -/
def exec (E : Env) : List Op → History × St → History × St
  | [], c => c
  | op :: ops, c => exec E ops ((op, (step E c.2 op).2) :: c.1, (step E c.2 op).1)

/-- All operations valid. -/
def allValid (E : Env) : List Op → St → Bool
  | [], _ => true
  | op :: ops, s => validB E s op && allValid E ops (step E s op).1

/-- All operations valid and fair. -/
def allFair (E : Env) : List Op → St → Bool
  | [], _ => true
  | op :: ops, s => validB E s op && fairB E s op && allFair E ops (step E s op).1

theorem exec_run (ops : List Op) : ∀ {h : History} {s : St}, Run E h s → allValid E ops s = true →
    Run E (exec E ops (h, s)).1 (exec E ops (h, s)).2 := by
  induction ops with
  | nil => intro h s r _; exact r
  | cons op ops ih =>
    intro h s r hv
    simp only [allValid, Bool.and_eq_true] at hv
    exact ih (Run.cons op r (validB_valid hv.1)) hv.2

theorem exec_fair (ops : List Op) : ∀ {h : History} {s : St}, FairRun E h s →
    allFair E ops s = true → FairRun E (exec E ops (h, s)).1 (exec E ops (h, s)).2 := by
  induction ops with
  | nil => intro h s r _; exact r
  | cons op ops ih =>
    intro h s r hv
    simp only [allFair, Bool.and_eq_true] at hv
    exact ih (FairRun.cons op r (validB_valid hv.1.1) (fairB_fair hv.1.2)) hv.2

/-- A small configuration: two entries, one hash set (every key collides), timeout 100. -/
def tiny : Env := ⟨2, 1, fun _ => 0, fun _ => Nat.zero_lt_one, 100⟩

/-- Start of a witness. -/
def start (E : Env) : History × St := ([], init E)

/-! ### C16: conservation -/

/-- C16. After every history: each pool entry is on the free list or in exactly one set, never
both and never twice; no key is present twice; entries are never lost (free + used = pool size),
and neither are packet buffers. -/
theorem arp_conserved {h : History} (r : Run E h s) :
    (∀ i, 1 ≤ i → i ≤ E.n →
      (i ∈ s.free ∧ ∀ t, i ∉ s.tab t) ∨ (i ∉ s.free ∧ ∃ t, i ∈ s.tab t ∧ ∀ t', i ∈ s.tab t' → t' = t)) ∧
    (∀ i ∈ s.free, 1 ≤ i ∧ i ≤ E.n) ∧ (∀ t, ∀ i ∈ s.tab t, 1 ≤ i ∧ i ≤ E.n) ∧
    s.free.Nodup ∧ (∀ t, (s.tab t).Nodup) ∧
    (∀ t t' i j, i ∈ s.tab t → j ∈ s.tab t' → (s.ent i).key = (s.ent j).key → i = j) ∧
    s.free.length + liveCount E s = E.n ∧
    s.pktFree + waitingCount E s = pktPool := by
  have W := r.wf
  have I := W.inv
  refine ⟨?_, fun i hi => ⟨(I.freeR i hi).1, (I.freeR i hi).2.1⟩,
    fun t i hi => ⟨(I.tabR t i hi).1, (I.tabR t i hi).2.1⟩, I.freeN, I.tabN, ?_, ?_, W.bal⟩
  · intro i h1 h2
    rcases I.pool i h1 h2 with hf | hl
    · left
      refine ⟨hf, fun t ht => I.not_free_of_live (I.live_of_mem ht) hf⟩
    · right
      refine ⟨I.not_free_of_live hl, _, hl, ?_⟩
      intro t' ht'
      exact (I.tabR t' i ht').2.2.2.symm
  · intro t t' i j hi hj hk
    exact I.uniq_live (I.live_of_mem hi) (I.live_of_mem hj) hk
  · have hperm : (s.free ++ (List.range E.nsets).flatMap s.tab).Perm (List.range' 1 E.n) := by
      rw [List.perm_ext_iff_of_nodup]
      · intro i
        rw [List.mem_append, List.mem_flatMap, List.mem_range']
        constructor
        · rintro (hf | ⟨t, _, ht⟩)
          · have := I.freeR i hf
            exact ⟨i - 1, by omega, by omega⟩
          · have := I.tabR t i ht
            exact ⟨i - 1, by omega, by omega⟩
        · rintro ⟨j, hj, rfl⟩
          rcases I.pool (1 + 1 * j) (by omega) (by omega) with hf | hl
          · left; exact hf
          · right
            exact ⟨_, List.mem_range.mpr (E.hash_lt _), hl⟩
      · rw [List.nodup_append]
        refine ⟨I.freeN, ?_, ?_⟩
        · rw [List.nodup_flatMap]
          refine ⟨fun t _ => I.tabN t, ?_⟩
          have hnd : (List.range E.nsets).Nodup := List.nodup_range
          refine List.Pairwise.imp ?_ hnd
          intro t t' hne
          intro i hi hi'
          exact hne (by rw [← (I.tabR t i hi).2.2.2, ← (I.tabR t' i hi').2.2.2])
        · intro i hi j hj hij
          subst hij
          obtain ⟨t, _, ht⟩ := List.mem_flatMap.mp hj
          exact I.not_free_of_live (I.live_of_mem ht) hi
      · exact List.nodup_range'
    have hlen := hperm.length_eq
    rw [List.length_append, List.length_range', List.length_flatMap] at hlen
    exact hlen

/-- C16, as a user sees it: an insertion is refused exactly when the address is new and all
entries are in use. -/
theorem arp_insert_refused_iff {h : History} (r : Run E h s) (a : Addr) (mac : Nat) (m : Bool)
    (now : Nat) :
    (step E s (.insert a mac m now)).2.ok = false ↔
      view E s (keyOf a) = none ∧ liveCount E s = E.n := by
  have I := r.wf.inv
  have hc := (arp_conserved r).2.2.2.2.2.2.1
  have hfree : s.free = [] ↔ liveCount E s = E.n := by
    constructor
    · intro hf; rw [hf] at hc; simpa using hc
    · intro hl; exact List.eq_nil_of_length_eq_zero (by omega)
  rw [← hfree]
  show (insert E s (keyOf a) mac m now).2.ok = false ↔ _
  rcases (insert_effect I (keyOf a) mac m now).2 with ⟨ho, _, hv, hfr⟩ | ⟨i, hsome, hnone⟩
  · rw [ho]; exact ⟨fun _ => ⟨hv, hfr⟩, fun _ => rfl⟩
  · cases hv : view E s (keyOf a) with
    | none =>
      obtain ⟨hif, ho, _⟩ := hnone hv
      rw [ho]
      constructor
      · intro h; cases h
      · rintro ⟨_, hf⟩; rw [hf] at hif; cases hif
    | some e =>
      obtain ⟨ho, _, _⟩ := hsome e hv
      rw [ho]
      constructor
      · intro h; cases h
      · rintro ⟨hh, _⟩; cases hh

/-- Non-vacuity: a run with colliding keys that uses up the pool. -/
def fullOps : List Op :=
  [.insert (0#16, 1#32) 11 false 5, .insert (1#16, 1#32) 12 true 6, .insert (0#16, 3#32) 13 false 7]

example : Run tiny (exec tiny fullOps (start tiny)).1 (exec tiny fullOps (start tiny)).2 :=
  exec_run fullOps Run.nil (by decide +kernel)
example : (exec tiny fullOps (start tiny)).1.map (fun p => p.2.ok) = [false, true, true] := by
  decide +kernel

/-! ### C15: lookups -/

/-- Along fair histories: complete entries have nothing waiting and hold the MAC inserted last. -/
theorem fair_complete {h : History} {s : St} (r : FairRun E h s) :
    ∀ a e, view E s (keyOf a) = some e → e.complete = true →
      e.pkts = [] ∧ lastMac h a = some e.mac := by
  induction r with
  | nil =>
    intro a e he
    simp [view, find, init] at he
  | @cons h s op r hv hf ih =>
    intro a e' he' hc'
    have hch := step_change r.wf op hv a
    generalize ho : (step E s op).2 = o at hch ⊢
    rw [he'] at hch
    generalize hview : view E s (keyOf a) = v at hch
    cases hch with
    | same _ hs =>
      have := ih a e' hview hc'
      exact ⟨this.1, by rw [(hs h).1]; exact this.2⟩
    | inserted _ i mac m now hop hout hidx =>
      refine ⟨rfl, ?_⟩
      rw [hop, hout]
      simp [lastMac]
    | fresh i t hop hout => cases hc'
    | zeroed e hop hout =>
      exfalso
      have hfe := hf
      rw [hop] at hfe
      have hnone := hfe 0 false
      have heff := (lookupIdx_effect r.wf.inv a 0 false).2.2.1 e hview
      have hp := (ih a e hview hc').1
      rw [heff.2.2 hp] at hnone
      cases hnone
    | ref e rr hs _ =>
      have := ih a e hview hc'
      exact ⟨this.1, by rw [(hs h).1]; exact this.2⟩
    | use e now hs _ =>
      have := ih a e hview hc'
      exact ⟨this.1, by rw [(hs h).1]; exact this.2⟩
    | savedNew i p _ _ => cases hc'
    | saved e p hs hout hcomp =>
      exfalso
      obtain ⟨i, t, hop⟩ := hcomp hc'
      have hfe := hf
      rw [hop] at hfe
      have hva := hv
      rw [hop] at hva
      obtain ⟨e2, he2, hi2⟩ := hva
      rw [hview] at he2
      cases he2
      have hx := view_idx r.wf.inv hview
      have hce : (s.ent i).complete = true := by
        have : e.complete = (s.ent e.idx).complete := congrArg Info.complete hx.2.2.1
        rw [hi2] at this
        rw [← this]; exact hc'
      simp [Fair, getMac, hce] at hfe

/-- The answer of the MAC lookup in terms of the visible entry, if complete entries never have
waiting packets. -/
theorem lookupMac_answer (I : Inv E s) (a : Addr)
    (hcp : ∀ e, view E s (keyOf a) = some e → e.complete = true → e.pkts = []) (now : Nat)
    (tmr : Bool) :
    (lookupMac E s (keyOf a) now tmr).2 =
      (view E s (keyOf a)).bind (fun e => if e.complete then some e.mac else none) := by
  have h := lookupIdx_effect I a now tmr
  unfold lookupMac
  dsimp only
  cases hv : view E s (keyOf a) with
  | none => rw [h.2.1 hv]; rfl
  | some e =>
    have he := h.2.2.1 e hv
    have hx := view_idx I hv
    rw [Option.bind_some]
    have hce : e.complete = (s.ent e.idx).complete := congrArg Info.complete hx.2.2.1
    have hme : e.mac = (s.ent e.idx).mac := congrArg Info.mac hx.2.2.1
    rcases he.1 with hr | ⟨hr, hp⟩
    · rw [hr, Option.bind_some]
      unfold getMac
      rw [(h.2.2.2 e.idx).1, (h.2.2.2 e.idx).2, hce, hme]
    · rw [hr]
      have : ¬ e.complete = true := fun hc => hp (hcp e hv hc)
      rw [if_neg this]; rfl

theorem inv_nocache (I : Inv E s) : Inv E { s with
    cache := fun _ => 0 } := inv_mod I _ rfl rfl (fun _ => ⟨rfl, rfl⟩) (fun _ => Or.inl rfl)

/-- C15 (race-free histories). A lookup answers exactly when the address has a complete entry, with
that entry's MAC, which is the one inserted last for exactly this address; emptying every cache would
not change the answer. -/
theorem arp_lookup_partial {h : History} (r : FairRun E h s) (a : Addr) (now : Nat) (tmr : Bool) :
    (∀ m, (lookupMac E s (keyOf a) now tmr).2 = some m ↔
      ∃ e, view E s (keyOf a) = some e ∧ e.complete = true ∧ e.mac = m) ∧
    (∀ m, (lookupMac E s (keyOf a) now tmr).2 = some m → lastMac h a = some m) ∧
    (lookupMac E { s with
      cache := fun _ => 0 } (keyOf a) now tmr).2 = (lookupMac E s (keyOf a) now tmr).2 := by
  have I := r.wf.inv
  have hcp : ∀ e, view E s (keyOf a) = some e → e.complete = true → e.pkts = [] :=
    fun e he hc => (fair_complete r a e he hc).1
  have hans := lookupMac_answer I a hcp now tmr
  have hiff : ∀ m, (lookupMac E s (keyOf a) now tmr).2 = some m ↔
      ∃ e, view E s (keyOf a) = some e ∧ e.complete = true ∧ e.mac = m := by
    intro m
    rw [hans]
    cases hv : view E s (keyOf a) with
    | none => simp
    | some e => simp
  refine ⟨hiff, ?_, ?_⟩
  · intro m hm
    obtain ⟨e, he, hc, rfl⟩ := (hiff m).mp hm
    exact (fair_complete r a e he hc).2
  · have hv : view E { s with
        cache := fun _ => 0 } = view E s := view_congr rfl (fun _ => rfl) (fun _ => rfl)
    rw [hans, lookupMac_answer (inv_nocache I) a (by rw [hv]; exact hcp) now tmr, hv]

/-- C15: a successful insertion is what the next lookup returns, and an answer stays until the
address is re-inserted or its entry is removed for one of the reasons of `Gone`. -/
theorem arp_lookup_stable {h : History} (r : FairRun E h s) (op : Op) (hv : Valid E s op)
    (hf : Fair E s op) (a : Addr) (now : Nat) (tmr : Bool) :
    (∀ mac m n, op = .insert a mac m n → (step E s op).2.ok = true →
      (lookupMac E (step E s op).1 (keyOf a) now tmr).2 = some mac) ∧
    (∀ x, (lookupMac E s (keyOf a) now tmr).2 = some x →
      (lookupMac E (step E s op).1 (keyOf a) now tmr).2 = some x ∨
      (∃ mac m n, op = .insert a mac m n ∧
        (lookupMac E (step E s op).1 (keyOf a) now tmr).2 = some mac) ∨
      (∃ e, view E s (keyOf a) = some e ∧ Gone E s op a e)) := by
  have r' := FairRun.cons op r hv hf
  have A := (arp_lookup_partial r a now tmr).1
  have A' := (arp_lookup_partial r' a now tmr).1
  have hch := step_change r.wf op hv a
  generalize ho : (step E s op).2 = o at hch
  constructor
  · intro mac m n hop hok
    rw [A']
    generalize hview : view E s (keyOf a) = v at hch
    generalize hview' : view E (step E s op).1 (keyOf a) = v' at hch
    cases hch with
    | inserted _ i mac' m' now' hop' hout hidx =>
      rw [hop] at hop'
      cases hop'
      exact ⟨_, rfl, rfl, rfl⟩
    | same _ hs =>
      have := (hs []).1
      subst hop
      simp [lastMac, hok] at this
    | fresh i t hop' => rw [hop] at hop'; cases hop'
    | zeroed e hop' => rw [hop] at hop'; cases hop'
    | ref e rr hs hh => rw [hop] at hh; rcases hh with ⟨h, _⟩ | ⟨h, _⟩ <;> cases h
    | use e now hs hh =>
      rw [hop] at hh
      rcases hh with ⟨_, h⟩ | ⟨_, h⟩ | ⟨_, _, t, h | ⟨_, h⟩⟩ <;> cases h
    | savedNew i p hs => obtain ⟨t, h | ⟨_, h⟩⟩ := hs <;> (rw [hop] at h; cases h)
    | saved e p hs => obtain ⟨t, h | ⟨_, h⟩⟩ := hs <;> (rw [hop] at h; cases h)
    | gone e hs =>
      have := (hs []).1
      subst hop
      simp [lastMac, hok] at this
  · intro x hx
    obtain ⟨e, hview, hc, hm⟩ := (A x).mp hx
    have hfc := fair_complete r a e hview hc
    rw [hview] at hch
    generalize hview' : view E (step E s op).1 (keyOf a) = v' at hch
    cases hch with
    | same _ hs => exact Or.inl ((A' x).mpr ⟨e, hview', hc, hm⟩)
    | inserted _ i mac m n hop hout hidx =>
      exact Or.inr (Or.inl ⟨mac, m, n, hop, (A' mac).mpr ⟨_, hview', rfl, rfl⟩⟩)
    | zeroed _ hop =>
      exfalso
      have hfe := hf
      rw [hop] at hfe
      have hnone := hfe 0 false
      have heff := (lookupIdx_effect r.wf.inv a 0 false).2.2.1 e hview
      rw [heff.2.2 hfc.1] at hnone
      cases hnone
    | ref _ rr hs hh => exact Or.inl ((A' x).mpr ⟨_, hview', hc, hm⟩)
    | use _ now hs hh => exact Or.inl ((A' x).mpr ⟨_, hview', hc, hm⟩)
    | saved _ p hs hout hcomp =>
      have := (fair_complete r' a _ hview' hc).1
      cases this
    | gone _ hs hg => exact Or.inr (Or.inr ⟨e, hview, hg⟩)

/-- Non-vacuity: a fair history with a collision, a resolved waiting packet, a route reference and a
lookup that answers. -/
def fairOps : List Op :=
  [.saveLocal (0#16, 1#32) 71 true, .insertInc (0#16, 9#32), .inc 2, .saveIdx (0#16, 9#32) 2 72 true,
   .insert (0#16, 1#32) 11 false 5, .insert (0#16, 9#32) 12 false 6, .lookup (0#16, 1#32) 8 true,
   .age 50]

example : FairRun tiny (exec tiny fairOps (start tiny)).1 (exec tiny fairOps (start tiny)).2 :=
  exec_fair fairOps FairRun.nil (by decide +kernel)
example : (lookupMac tiny (exec tiny fairOps (start tiny)).2 (keyOf (0#16, 1#32)) 60 true).2 =
    some 11 := by decide +kernel

/-- C15 is false in general, first race: `add_route` looks the gateway up (nothing), another thread
learns MAC 5 for it, then `add_route` creates "its" entry and overwrites the MAC with zeros: lookups
now succeed with MAC 0, although 5 was the last MAC inserted. -/
def raceOps : List Op :=
  [.lookupI (0#16, 1#32) 1 true, .insert (0#16, 1#32) 5 false 2, .insertInc (0#16, 1#32)]

theorem arp_lookup_race_violated :
    Run tiny (exec tiny raceOps (start tiny)).1 (exec tiny raceOps (start tiny)).2 ∧
    (exec tiny raceOps (start tiny)).1.map (fun p => p.2.ok) = [true, true, false] ∧
    lastMac (exec tiny raceOps (start tiny)).1 (0#16, 1#32) = some 5 ∧
    (lookupMac tiny (exec tiny raceOps (start tiny)).2 (keyOf (0#16, 1#32)) 3 true).2 = some 0 :=
  ⟨exec_run raceOps Run.nil (by decide +kernel), by decide +kernel, by decide +kernel,
    by decide +kernel⟩

/-- C15 is false in general, second race: the output path finds no MAC for a route's gateway, the
ARP reply arrives, then the packet is saved. The entry is complete, but lookups by address are
refused for as long as the packet waits - unless the cache happens to hold the entry. -/
def stuckOps : List Op :=
  [.insertInc (0#16, 1#32), .inc 1, .getMac 1, .insert (0#16, 1#32) 5 false 2,
   .saveIdx (0#16, 1#32) 1 77 true]

/-- The same with a lookup just before the save, which fills the cache. -/
def stuckCachedOps : List Op :=
  [.insertInc (0#16, 1#32), .inc 1, .getMac 1, .insert (0#16, 1#32) 5 false 2,
   .lookup (0#16, 1#32) 2 true, .saveIdx (0#16, 1#32) 1 77 true]

theorem arp_lookup_stuck_violated :
    Run tiny (exec tiny stuckOps (start tiny)).1 (exec tiny stuckOps (start tiny)).2 ∧
    (∃ e, view tiny (exec tiny stuckOps (start tiny)).2 (keyOf (0#16, 1#32)) = some e ∧
      e.complete = true ∧ e.mac = 5) ∧
    (lookupMac tiny (exec tiny stuckOps (start tiny)).2 (keyOf (0#16, 1#32)) 3 true).2 = none ∧
    Run tiny (exec tiny stuckCachedOps (start tiny)).1 (exec tiny stuckCachedOps (start tiny)).2 ∧
    (lookupMac tiny (exec tiny stuckCachedOps (start tiny)).2 (keyOf (0#16, 1#32)) 3 true).2 =
      some 5 :=
  ⟨exec_run stuckOps Run.nil (by decide +kernel), ⟨_, rfl, rfl, rfl⟩, by decide +kernel,
    exec_run stuckCachedOps Run.nil (by decide +kernel), by decide +kernel⟩

/-! ### C17: waiting packets -/

/-- C17, part: whatever happens, the packets waiting for an address together with those already
sent to it form a sublist of those accepted for it (all newest first): nothing is sent twice, nothing
is sent that was not saved for this very address, nothing is both sent and still waiting. -/
theorem waiting_sent_once {h : History} (r : Run E h s) (a : Addr) :
    List.Sublist (waitingOf (view E s (keyOf a)) ++ sentFor h a) (savedFor h a) := by
  induction r with
  | nil => simp [view, find, init, waitingOf, sentFor, savedFor]
  | @cons h s op r hv ih =>
    have hch := step_change r.wf op hv a
    generalize ho : (step E s op).2 = o at hch ⊢
    generalize hview : view E s (keyOf a) = v at hch ih
    generalize hview' : view E (step E s op).1 (keyOf a) = v' at hch ⊢
    have hsv : ∀ p, Saves op a p → o.ok = true →
        savedFor ((op, o) :: h) a = p :: savedFor h a ∧ sentFor ((op, o) :: h) a = sentFor h a := by
      rintro p ⟨t, hop | ⟨i, hop⟩⟩ hok
      · subst hop; simp [savedFor, sentFor, hok]
      · subst hop; simp [savedFor, sentFor, hok]
    cases hch with
    | same _ hs => rw [(hs h).2.1, (hs h).2.2]; exact ih
    | inserted _ i mac m now hop hout hidx =>
      subst hop
      rw [hout]
      simp only [sentFor, if_true, savedFor, waitingOf, List.nil_append]
      exact ih
    | fresh i t hop hout => subst hop; exact ih
    | zeroed e hop hout => subst hop; exact ih
    | ref e rr hs hh => rw [(hs h).2.1, (hs h).2.2]; exact ih
    | use e now hs hh => rw [(hs h).2.1, (hs h).2.2]; exact ih
    | savedNew i p hs hout =>
      have := hsv p hs (by rw [hout]; rfl)
      rw [this.1, this.2]
      exact List.Sublist.cons_cons p ih
    | saved e p hs hout hc =>
      have := hsv p hs (by rw [hout]; rfl)
      rw [this.1, this.2]
      exact List.Sublist.cons_cons p ih
    | gone e hs hg =>
      rw [(hs h).2.1, (hs h).2.2]
      exact List.Sublist.trans (List.sublist_append_right _ _) ih

/-- Operations that may throw waiting packets away: saved-packet timeouts, removals, and dropping
a route's reference. -/
def Drops : Op → Prop
  | .dec _ => True
  | .removeIdx _ => True
  | .pktTimeout _ => True
  | _ => False

/-- C17, part: as long as no timeout, removal or reference drop occurs, every accepted packet is
sent or still waiting (ageing, lookups, buffer shortage and other addresses lose nothing). -/
theorem waiting_sent_all_partial {h : History} (r : Run E h s) (hd : ∀ p ∈ h, ¬ Drops p.1)
    (a : Addr) : waitingOf (view E s (keyOf a)) ++ sentFor h a = savedFor h a := by
  induction r with
  | nil => simp [view, find, init, waitingOf, sentFor, savedFor]
  | @cons h s op r hv ih =>
    have ih := ih (fun p hp => hd p (List.mem_cons_of_mem _ hp))
    have hdo : ¬ Drops op := hd _ List.mem_cons_self
    have hch := step_change r.wf op hv a
    generalize ho : (step E s op).2 = o at hch ⊢
    generalize hview : view E s (keyOf a) = v at hch ih
    generalize hview' : view E (step E s op).1 (keyOf a) = v' at hch ⊢
    have hsv : ∀ p, Saves op a p → o.ok = true →
        savedFor ((op, o) :: h) a = p :: savedFor h a ∧ sentFor ((op, o) :: h) a = sentFor h a := by
      rintro p ⟨t, hop | ⟨i, hop⟩⟩ hok
      · subst hop; simp [savedFor, sentFor, hok]
      · subst hop; simp [savedFor, sentFor, hok]
    cases hch with
    | same _ hs => rw [(hs h).2.1, (hs h).2.2]; exact ih
    | inserted _ i mac m now hop hout hidx =>
      subst hop
      rw [hout]
      simp only [sentFor, if_true, savedFor, waitingOf, List.nil_append]
      exact ih
    | fresh i t hop hout => subst hop; exact ih
    | zeroed e hop hout => subst hop; exact ih
    | ref e rr hs hh => rw [(hs h).2.1, (hs h).2.2]; exact ih
    | use e now hs hh => rw [(hs h).2.1, (hs h).2.2]; exact ih
    | savedNew i p hs hout =>
      have := hsv p hs (by rw [hout]; rfl)
      rw [this.1, this.2, ← ih]
      rfl
    | saved e p hs hout hc =>
      have := hsv p hs (by rw [hout]; rfl)
      rw [this.1, this.2, ← ih]
      rfl
    | gone e hs hg =>
      rw [(hs h).2.1, (hs h).2.2]
      have hp : e.pkts = [] := by
        cases hg with
        | dec hop _ => rw [hop] at hdo; exact absurd trivial hdo
        | rem hop _ => rw [hop] at hdo; exact absurd trivial hdo
        | tmo t hop _ _ => rw [hop] at hdo; exact absurd trivial hdo
        | age now hop hi => exact hi.2.1
        | full p hs _ hp _ => exact hp
      rw [← ih]
      show [] ++ _ = e.pkts ++ _
      rw [hp]

/-- C17, part: resolving an address sends exactly the packets waiting for it, and none keeps
waiting. -/
theorem resolution_sends {h : History} (r : Run E h s) (a : Addr) (mac : Nat) (m : Bool) (now : Nat)
    (hok : (step E s (.insert a mac m now)).2.ok = true) :
    (step E s (.insert a mac m now)).2.sent = waitingOf (view E s (keyOf a)) ∧
    waitingOf (view E (step E s (.insert a mac m now)).1 (keyOf a)) = [] := by
  have I := r.wf.inv
  show (insert E s (keyOf a) mac m now).2.sent = _ ∧
    waitingOf (view E (insert E s (keyOf a) mac m now).1 _) = []
  replace hok : (insert E s (keyOf a) mac m now).2.ok = true := hok
  rcases (insert_effect I (keyOf a) mac m now).2 with ⟨ho, _, _, _⟩ | ⟨i, hsome, hnone⟩
  · rw [ho] at hok; cases hok
  · cases hv : view E s (keyOf a) with
    | none =>
      obtain ⟨_, ho, hview⟩ := hnone hv
      rw [ho, hview, setKey_self]; exact ⟨rfl, rfl⟩
    | some e =>
      obtain ⟨ho, _, hview⟩ := hsome e hv
      rw [ho, hview, setKey_self]; exact ⟨rfl, rfl⟩

/-- C17 is false, first: packets are sent in the reverse of the order in which they were saved.
For every race-free first resolution the batch is the whole list, newest packet first. -/
def orderOps : List Op :=
  [.saveLocal (0#16, 1#32) 71 true, .saveLocal (0#16, 1#32) 72 true, .saveLocal (0#16, 1#32) 73 true,
   .insert (0#16, 1#32) 5 false 9]

theorem waiting_order_violated :
    Run tiny (exec tiny orderOps (start tiny)).1 (exec tiny orderOps (start tiny)).2 ∧
    ((exec tiny orderOps (start tiny)).1.head?.map (fun p => p.2.sent)) = some [73, 72, 71] :=
  ⟨exec_run orderOps Run.nil (by decide +kernel), by decide +kernel⟩

/-- The reversal is not an accident of the witness: a batch is always sent newest first. -/
theorem waiting_order_reversed {h : History} (r : Run E h s) (hd : ∀ p ∈ h, ¬ Drops p.1) (a : Addr)
    (hnone : sentFor h a = []) (mac : Nat) (m : Bool) (now : Nat)
    (hok : (step E s (.insert a mac m now)).2.ok = true) :
    (step E s (.insert a mac m now)).2.sent = savedFor h a := by
  have h1 := waiting_sent_all_partial r hd a
  rw [hnone, List.append_nil] at h1
  rw [(resolution_sends r a mac m now hok).1, h1]

/-- C17 is false, second: when the saved-packet timer of an unreferenced entry fires, its packets
are neither sent nor freed, and are no longer waiting: they leak (in every such state). -/
theorem waiting_timeout_leak_violated :
    (∀ {E : Env} {h : History} {s : St} (_ : Run E h s) (a : Addr) (e : Info) (t : Nat),
      view E s (keyOf a) = some e → e.ref = 0#32 →
      s.timers.find? (fun p => p.1 == t) = some (t, e.idx) →
      view E (step E s (.pktTimeout t)).1 (keyOf a) = none ∧
      (step E s (.pktTimeout t)).2.sent = [] ∧ (step E s (.pktTimeout t)).2.freed = []) ∧
    (∃ ops, Run tiny (exec tiny ops (start tiny)).1 (exec tiny ops (start tiny)).2 ∧
      ∃ e, view tiny (exec tiny ops (start tiny)).2 (keyOf (0#16, 1#32)) = some e ∧
        e.pkts = [72, 71] ∧ e.ref = 0#32 ∧
        (exec tiny ops (start tiny)).2.timers.find? (fun p => p.1 == 0) = some (0, e.idx)) := by
  constructor
  · intro E h s r a e t hv href hft
    refine ⟨?_, rfl, rfl⟩
    show view E (pktTimeout E s t) (keyOf a) = none
    have W := r.wf
    unfold pktTimeout
    rw [hft]
    dsimp only
    have hr := W.tim _ (List.mem_of_find?_eq_some hft)
    have I1 : Inv E { s with
        timers := s.timers.filter (fun p => p.1 != t) } :=
      inv_mod W.inv _ rfl rfl (fun j => ⟨rfl, rfl⟩) W.inv.cache
    rw [(removeIdx_effect I1 hr.1 hr.2).2]
    have hvv : view E { s with
        timers := s.timers.filter (fun p => p.1 != t) } = view E s :=
      view_congr rfl (fun _ => rfl) (fun _ => rfl)
    rw [hvv]
    unfold dropIdx
    rw [hv, Option.bind_some, if_pos ⟨rfl, href⟩]
  · exact ⟨[.saveLocal (0#16, 1#32) 71 true, .saveLocal (0#16, 1#32) 72 true],
      exec_run _ Run.nil (by decide +kernel), _, rfl, by decide +kernel, by decide +kernel,
      by decide +kernel⟩

/-- C17 is false, third: with a route referring to the entry the timeout does nothing at all, and no
further timer is armed: the packets wait for ever unless the gateway answers. -/
def heldOps : List Op :=
  [.insertInc (0#16, 1#32), .inc 1, .saveIdx (0#16, 1#32) 1 71 true, .pktTimeout 0,
   .saveIdx (0#16, 1#32) 1 72 true, .age 1000]

theorem waiting_timeout_held_violated :
    Run tiny (exec tiny heldOps (start tiny)).1 (exec tiny heldOps (start tiny)).2 ∧
    (∃ e, view tiny (exec tiny heldOps (start tiny)).2 (keyOf (0#16, 1#32)) = some e ∧
      e.pkts = [72, 71]) ∧
    (exec tiny heldOps (start tiny)).2.timers = [] :=
  ⟨exec_run heldOps Run.nil (by decide +kernel), ⟨_, rfl, by decide +kernel⟩, by decide +kernel⟩

/-! ### C18: references, manual entries, ageing -/

/-- C18. While an entry is referenced, ageing, saved-packet timeouts and removals by index leave it
completely unchanged. -/
theorem referenced_stays {h : History} (r : Run E h s) (a : Addr) (e : Info)
    (hv : view E s (keyOf a) = some e) (href : e.ref ≠ 0#32) :
    (∀ now, view E (step E s (.age now)).1 (keyOf a) = some e) ∧
    (∀ t, view E (step E s (.pktTimeout t)).1 (keyOf a) = some e) ∧
    (∀ i, 1 ≤ i → i ≤ E.n → view E (step E s (.removeIdx i)).1 (keyOf a) = some e) := by
  have key : ∀ op, Valid E s op → (∀ m q n, op ≠ .insert a m q n) → ¬ op = .insertInc a →
      (¬ ∃ p, Saves op a p) → (∀ i, op ≠ .inc i) → (∀ i, op ≠ .dec i) → (∀ n t, op ≠ .lookup a n t) →
      (∀ n t, op ≠ .lookupI a n t) → view E (step E s op).1 (keyOf a) = some e := by
    intro op hval n1 n2 n3 n4 n5 n6 n7
    have hch := step_change r.wf op hval a
    rw [hv] at hch
    generalize ho : (step E s op).2 = o at hch
    generalize view E (step E s op).1 (keyOf a) = v' at hch ⊢
    cases hch with
    | same _ hs => rfl
    | inserted _ i mac m now hop _ _ => exact absurd hop (n1 mac m now)
    | zeroed _ hop => exact absurd hop n2
    | ref _ rr hs hh =>
      rcases hh with ⟨h, _⟩ | ⟨h, _⟩
      · exact absurd h (n4 _)
      · exact absurd h (n5 _)
    | use _ now hs hh =>
      rcases hh with ⟨t, h⟩ | ⟨t, h⟩ | ⟨_, h⟩
      · exact absurd h (n6 _ _)
      · exact absurd h (n7 _ _)
      · exact absurd h n3
    | saved _ p hs _ => exact absurd ⟨p, hs⟩ n3
    | gone _ hs hg =>
      cases hg with
      | dec h _ => exact absurd h (n5 _)
      | rem _ h => exact absurd h href
      | tmo t _ _ h => exact absurd h href
      | age now _ h => exact absurd h.2.2.1 href
      | full p _ _ _ h => exact absurd h href
  refine ⟨fun now => key _ trivial ?_ ?_ ?_ ?_ ?_ ?_ ?_, fun t => key _ trivial ?_ ?_ ?_ ?_ ?_ ?_ ?_,
    fun i h1 h2 => key _ ⟨h1, h2⟩ ?_ ?_ ?_ ?_ ?_ ?_ ?_⟩ <;>
  first
  | (intros; intro h; cases h; done)
  | (rintro ⟨p, t, h | ⟨i, h⟩⟩ <;> cases h)

/-- C18. The ageing pass removes exactly the learned entries with nothing waiting, no reference and
a last use more than the timeout ago, and changes no other; so manual entries are never aged out. -/
theorem ageing_exact {h : History} (r : Run E h s) (now : Nat) (a : Addr) :
    view E (step E s (.age now)).1 (keyOf a) =
      (view E s (keyOf a)).bind (fun e =>
        if e.manual = false ∧ e.pkts = [] ∧ e.ref = 0#32 ∧ now > e.usetime + E.timeout
        then none else some e) := by
  show view E (age E s now) (keyOf a) = _
  rw [(age_effect r.wf.inv now).2]
  rfl

/-- C18: manual entries survive every ageing pass. -/
theorem manual_not_aged {h : History} (r : Run E h s) (now : Nat) (a : Addr) (e : Info)
    (hv : view E s (keyOf a) = some e) (hm : e.manual = true) :
    view E (step E s (.age now)).1 (keyOf a) = some e := by
  rw [ageing_exact r, hv, Option.bind_some, if_neg]
  rintro ⟨h, _⟩
  rw [hm] at h; cases h

/-- C18: the use time is the time of the last insertion or of a lookup: a lookup that finds the
entry while no update timer is running refreshes it. -/
theorem lookup_refreshes {h : History} (r : Run E h s) (a : Addr) (e : Info) (now : Nat) (tmr : Bool)
    (hv : view E s (keyOf a) = some e) (hp : e.pkts = []) (hm : e.manual = false)
    (hu : (s.ent e.idx).updTmo = false) :
    view E (step E s (.lookup a now tmr)).1 (keyOf a) = some { e with
      usetime := now } := by
  have I := r.wf.inv
  have hx := view_idx I hv
  have hman : (s.ent e.idx).manual = false := by
    have : e.manual = (s.ent e.idx).manual := congrArg Info.manual hx.2.2.1
    rw [← this]; exact hm
  have hpk : (s.ent e.idx).pkts = [] := by
    have : e.pkts = (s.ent e.idx).pkts := congrArg Info.pkts hx.2.2.1
    rw [← this]; exact hp
  show view E (lookupIdx E s (keyOf a) now tmr).1 (keyOf a) = _
  have htouch : ∀ s1 : St, s1.ent = s.ent → s1.tab = s.tab →
      view E (touch s1 e.idx now tmr) (keyOf a) = some { e with
        usetime := now } := by
    intro s1 h1 h2
    unfold touch
    rw [h1, hman, hu]
    simp only [Bool.not_false, Bool.and_self, if_true]
    have := view_put_key I hx.1 hx.2.1 (s' := { s1 with
      ent := put s.ent e.idx
        { s.ent e.idx with
          usetime := now
          updTmo := tmr } }) { s.ent e.idx with
          usetime := now
          updTmo := tmr } h2 rfl hx.2.1
    rw [this, setKey_self]
    congr 1
    rw [hx.2.2.1]
    rfl
  unfold lookupIdx
  dsimp only
  by_cases hhit : ((s.ent (s.cache (E.hash (keyOf a)))).key == keyOf a) = true
  · rw [if_pos hhit]
    have hc : s.cache (E.hash (keyOf a)) = e.idx := by
      have hh : (s.ent (s.cache (E.hash (keyOf a)))).key = keyOf a := by simpa using hhit
      rcases I.cache (E.hash (keyOf a)) with h0 | hmem
      · rw [h0, I.zero] at hh
        exact absurd hh.symm (mkKey_ne_zero a)
      · exact I.uniq_live (I.live_of_mem hmem) hx.1 (by rw [hh, hx.2.1])
    rw [hc]
    exact htouch s rfl rfl
  · rw [if_neg hhit]
    have hf : find E s (keyOf a) = some e.idx := (find_some_iff I _ _).mpr ⟨hx.1, hx.2.1⟩
    rw [hf]
    dsimp only
    rw [if_neg (fun h => h hpk)]
    exact htouch _ rfl rfl

/-- Non-vacuity for C18: an idle learned entry goes, a manual one and a referenced one stay. -/
def ageOps : List Op :=
  [.insert (0#16, 1#32) 11 false 5, .insert (0#16, 2#32) 12 true 5, .age 106,
   .insertInc (0#16, 3#32), .inc 1, .age 1000]

example : Run tiny (exec tiny ageOps (start tiny)).1 (exec tiny ageOps (start tiny)).2 :=
  exec_run ageOps Run.nil (by decide +kernel)
example : (find tiny (exec tiny ageOps (start tiny)).2 (keyOf (0#16, 1#32))) = none ∧
    (find tiny (exec tiny ageOps (start tiny)).2 (keyOf (0#16, 2#32))) = some 2 ∧
    (find tiny (exec tiny ageOps (start tiny)).2 (keyOf (0#16, 3#32))) = some 1 := by decide +kernel

/-! ### C52: manual entries stay -/

/-- C52, the part that holds: a manual entry can only disappear when the last reference of a route
to it is dropped, or through a removal by index or a saved-packet timer carrying its index. -/
theorem manual_stays_partial {h : History} (r : Run E h s) (op : Op) (hv : Valid E s op) (a : Addr)
    (e : Info) (hview : view E s (keyOf a) = some e) (hm : e.manual = true)
    (h1 : op ≠ .dec e.idx) (h2 : op ≠ .removeIdx e.idx)
    (h3 : ∀ t, op = .pktTimeout t → (t, e.idx) ∉ s.timers)
    (h4 : (∃ p, Saves op a p) → s.pktFree ≠ 0 ∨ e.ref ≠ 0#32 ∨ e.pkts ≠ []) :
    ∃ e', view E (step E s op).1 (keyOf a) = some e' ∧ e'.manual = true := by
  have hch := step_change r.wf op hv a
  rw [hview] at hch
  generalize ho : (step E s op).2 = o at hch
  generalize view E (step E s op).1 (keyOf a) = v' at hch ⊢
  cases hch with
  | same _ hs => exact ⟨e, rfl, hm⟩
  | inserted _ i mac m now hop _ _ => exact ⟨_, rfl, by simp [hm]⟩
  | zeroed _ hop => exact ⟨_, rfl, hm⟩
  | ref _ rr hs hh => exact ⟨_, rfl, hm⟩
  | use _ now hs hh => exact ⟨_, rfl, hm⟩
  | saved _ p hs _ => exact ⟨_, rfl, hm⟩
  | gone _ hs hg =>
    exfalso
    cases hg with
    | dec h _ => exact h1 h
    | rem h _ => exact h2 h
    | tmo t h h' _ => exact h3 t h h'
    | age now _ h => rw [h.1] at hm; cases hm
    | full p hs hp hk hr =>
      rcases h4 ⟨p, hs⟩ with h | h | h
      · exact h hp
      · exact h hr
      · exact h hk

/-- C52 is false, first: adding and deleting a route through a gateway with a manual entry removes
the manual entry. -/
def manualRouteOps : List Op :=
  [.insert (0#16, 1#32) 5 true 2, .lookupI (0#16, 1#32) 3 true, .inc 1, .dec 1]

theorem manual_route_violated :
    Run tiny (exec tiny manualRouteOps (start tiny)).1 (exec tiny manualRouteOps (start tiny)).2 ∧
    (lookupMac tiny (exec tiny manualRouteOps (start tiny)).2 (keyOf (0#16, 1#32)) 9 true).2 = none :=
  ⟨exec_run manualRouteOps Run.nil (by decide +kernel), by decide +kernel⟩

/-- C52 is false, second: a route with a packet waiting is deleted (its ARP entry is freed, the
saved-packet timer is not cancelled), the entry is reused for a manual entry of another address, and
then the stale timer removes that one. -/
def staleTimerOps : List Op :=
  [.insertInc (0#16, 1#32), .inc 1, .saveIdx (0#16, 1#32) 1 71 true, .dec 1,
   .insert (0#16, 7#32) 8 true 3, .insert (0#16, 9#32) 5 true 4, .pktTimeout 0]

theorem manual_stale_timer_violated :
    Run tiny (exec tiny staleTimerOps (start tiny)).1 (exec tiny staleTimerOps (start tiny)).2 ∧
    lastMac (exec tiny staleTimerOps (start tiny)).1 (0#16, 9#32) = some 5 ∧
    (lookupMac tiny (exec tiny staleTimerOps (start tiny)).2 (keyOf (0#16, 9#32)) 9 true).2 = none ∧
    (lookupMac tiny (exec tiny (staleTimerOps.take 6) (start tiny)).2 (keyOf (0#16, 9#32)) 9 true).2 =
      some 5 :=
  ⟨exec_run staleTimerOps Run.nil (by decide +kernel), by decide +kernel, by decide +kernel,
    by decide +kernel⟩

end Verif.Arp

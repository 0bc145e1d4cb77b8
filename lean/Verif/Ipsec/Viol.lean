import Verif.Ipsec.Props
/-!
# Where the code departs from its documentation, and executable histories
-/
namespace Verif.Ipsec

/-! ## Running histories -/

/-- `Allowed`, computed, without the bound on the number of references. -/
def allowedB (A : Abs) : Op → Bool
  | .add _ => true
  | .publish h => A.db.any fun q => q.h = h ∧ q.phase = .fresh
  | .unpublish h => A.db.any fun q => q.h = h ∧ q.phase = .pub
  | .del h => A.db.any fun q => q.h = h ∧ q.phase = .unpub
  | .find _ => true
  | .first => true
  | .next h => decide (0 < A.held h) && ((A.db.any fun q => q.h = h) ||
      (match A.lastDel with | none => false | some p => decide (p.1 = h)))
  | .ref h => decide (0 < A.held h)
  | .unref h => decide (0 < A.held h)
  | .bind h _ _ _ => decide (0 < A.held h) && A.db.any fun q => q.h = h

/-- `Legal`, computed, without the bound on the number of references. -/
def legalB (A : Abs) : Op → Bool
  | .next h => decide (0 < A.held h)
  | op => allowedB A op

theorem allowedB_sound {A : Abs} {op : Op} (hb : ∀ h, A.held h + 2 < 2 ^ 32)
    (h : allowedB A op = true) : Allowed A op := by
  cases op with
  | add => trivial
  | publish a =>
    obtain ⟨q, hq, e⟩ := List.any_eq_true.mp h
    exact ⟨q, hq, of_decide_eq_true e⟩
  | unpublish a =>
    obtain ⟨q, hq, e⟩ := List.any_eq_true.mp h
    exact ⟨q, hq, of_decide_eq_true e⟩
  | del a =>
    obtain ⟨q, hq, e⟩ := List.any_eq_true.mp h
    exact ⟨q, hq, of_decide_eq_true e⟩
  | find => exact hb
  | first => exact hb
  | next a =>
    obtain ⟨h1, h2⟩ := Bool.and_eq_true_iff.mp h
    refine ⟨hb, of_decide_eq_true h1, ?_⟩
    rcases Bool.or_eq_true_iff.mp h2 with h2 | h2
    · obtain ⟨q, hq, e⟩ := List.any_eq_true.mp h2
      exact Or.inl ⟨q, hq, of_decide_eq_true e⟩
    · refine Or.inr ?_
      cases hl : A.lastDel with
      | none => rw [hl] at h2; exact absurd h2 (by simp)
      | some p =>
        rw [hl] at h2
        exact ⟨p.2, by rw [← of_decide_eq_true h2]⟩
  | ref a => exact ⟨of_decide_eq_true h, hb a⟩
  | unref a =>
    have h' : decide (0 < A.held a) = true := h
    exact (decide_eq_true_iff.mp h' : 0 < A.held a)
  | bind a _ _ _ =>
    obtain ⟨h1, h2⟩ := Bool.and_eq_true_iff.mp h
    obtain ⟨q, hq, e⟩ := List.any_eq_true.mp h2
    exact ⟨of_decide_eq_true h1, q, hq, of_decide_eq_true e⟩

theorem legalB_sound {A : Abs} {op : Op} (hb : ∀ h, A.held h + 2 < 2 ^ 32)
    (h : legalB A op = true) : Legal A op := by
  cases op with
  | next a => exact ⟨hb, of_decide_eq_true h⟩
  | add p => exact allowedB_sound (op := .add p) hb h
  | publish a => exact allowedB_sound (op := .publish a) hb h
  | unpublish a => exact allowedB_sound (op := .unpublish a) hb h
  | del a => exact allowedB_sound (op := .del a) hb h
  | find a => exact allowedB_sound (op := .find a) hb h
  | first => exact allowedB_sound (op := .first) hb h
  | ref a => exact allowedB_sound (op := .ref a) hb h
  | unref a => exact allowedB_sound (op := .unref a) hb h
  | bind a b c d => exact allowedB_sound (op := .bind a b c d) hb h

theorem held_step (A : Abs) (op : Op) (r : Ret) (h : Nat) :
    (absStep A op r).held h ≤ A.held h + 1 := by
  have hg : ∀ x, gain A.held x h ≤ A.held h + 1 := by
    intro x; cases x with
    | none => simp [gain]
    | some x => simp only [gain, bump]; split <;> omega
  have hd : ∀ (f : Nat → Nat) x, drop1 f x h ≤ f h := by
    intro f x; simp only [drop1]; split <;> omega
  have hb : ∀ x, bump A.held x h ≤ A.held h + 1 := by
    intro x; simp only [bump]; split <;> omega
  cases op <;> rcases r with (_ | x) | c <;> simp only [absStep] <;>
    first
    | omega
    | exact hg _
    | exact hb _
    | exact Nat.le_succ_of_le (hd _ _)
    | exact Nat.le_trans (hd _ _) (hg _)
    | (split <;> simp)

/-- Histories the documentation allows. -/
inductive LegalReach (n : Nat) : St → Abs → Prop
  | start (junk : Nat → Cell) (par : Nat → Param) : LegalReach n (init junk n) (abs0 par)
  | call {s s' : St} {A : Abs} {op : Op} {r : Ret} :
      LegalReach n s A → Legal A op → step s op = some (s', r) → LegalReach n s' (absStep A op r)

/-- Run a list of calls, checking each. -/
def exec (ok : Abs → Op → Bool) : List Op → St × Abs → Option (St × Abs)
  | [], x => some x
  | op :: l, x =>
    if ok x.2 op then
      match step x.1 op with
      | none => none
      | some y => exec ok l (y.1, absStep x.2 op y.2)
    else none

theorem exec_reach {n : Nat} : ∀ (l : List Op) (x y : St × Abs) (k : Nat), Reach n x.1 x.2 →
    (∀ h, x.2.held h ≤ k) → k + l.length + 2 < 2 ^ 32 → exec allowedB l x = some y → Reach n y.1 y.2
  | [], x, y, k, hr, _, _, he => by
    simp only [exec, Option.some.injEq] at he
    exact he ▸ hr
  | op :: l, x, y, k, hr, hk, hb, he => by
    simp only [exec] at he
    by_cases ho : allowedB x.2 op = true
    · rw [if_pos ho] at he
      cases hs : step x.1 op with
      | none => rw [hs] at he; exact absurd he (by simp)
      | some z =>
        rw [hs] at he
        rw [List.length_cons] at hb
        refine exec_reach l _ y (k + 1) (.call hr (allowedB_sound ?_ ho) hs) ?_
          (by rw [Nat.add_assoc k 1, Nat.add_comm 1]; exact hb) he
        · intro h
          have := hk h
          generalize (2 : Nat) ^ 32 = M at hb ⊢
          omega
        · intro h
          have h1 := held_step x.2 op z.2 h
          have h2 := hk h
          exact Nat.le_trans h1 (Nat.succ_le_succ h2)
    · rw [if_neg ho] at he; exact absurd he (by simp)

theorem exec_legal {n : Nat} : ∀ (l : List Op) (x y : St × Abs) (k : Nat), LegalReach n x.1 x.2 →
    (∀ h, x.2.held h ≤ k) → k + l.length + 2 < 2 ^ 32 → exec legalB l x = some y →
    LegalReach n y.1 y.2
  | [], x, y, k, hr, _, _, he => by
    simp only [exec, Option.some.injEq] at he
    exact he ▸ hr
  | op :: l, x, y, k, hr, hk, hb, he => by
    simp only [exec] at he
    by_cases ho : legalB x.2 op = true
    · rw [if_pos ho] at he
      cases hs : step x.1 op with
      | none => rw [hs] at he; exact absurd he (by simp)
      | some z =>
        rw [hs] at he
        rw [List.length_cons] at hb
        refine exec_legal l _ y (k + 1) (.call hr (legalB_sound ?_ ho) hs) ?_
          (by rw [Nat.add_assoc k 1, Nat.add_comm 1]; exact hb) he
        · intro h
          have := hk h
          generalize (2 : Nat) ^ 32 = M at hb ⊢
          omega
        · intro h
          have h1 := held_step x.2 op z.2 h
          have h2 := hk h
          exact Nat.le_trans h1 (Nat.succ_le_succ h2)
    · rw [if_neg ho] at he; exact absurd he (by simp)

/-! ## Sample data -/

/-- Selectors: everything. -/
def selAll : Sel := ⟨true, 0, 0xffffffff, 0, 0xffffffff, [0, 0, 0, 0], 0⟩

/-- Selectors: destination 10.0.0.0/24, UDP. -/
def selUdp : Sel := ⟨true, 0, 0xffffffff, 0x0a000000, 0x0a0000ff, [0, 0, 0, 0], 17⟩

/-- A policy. -/
def pol (id prio : Nat) (a : Act) (d : Dir) (s : Sel) : Param := ⟨prio, a, none, d, s, 0, id⟩

/-- Uninitialised memory. -/
def junk0 : Nat → Cell := fun _ => ⟨pol 99 99 .protect .inb selAll, some 77, some 5, 3, true, some 66⟩

/-- Start with room for `n` policies. -/
def start (n : Nat) : St × Abs := (init junk0 n, abs0 fun _ => pol 0 0 .bypass .inb selAll)

theorem start_reach (n : Nat) {l : List Op} {y : St × Abs} (hl : l.length + 2 < 2 ^ 32)
    (h : exec allowedB l (start n) = some y) : Reach n y.1 y.2 :=
  exec_reach l (start n) y 0 (.start _ _) (fun _ => Nat.le_refl _) (by simpa using hl) h

theorem start_legal (n : Nat) {l : List Op} {y : St × Abs} (hl : l.length + 2 < 2 ^ 32)
    (h : exec legalB l (start n) = some y) : LegalReach n y.1 y.2 :=
  exec_legal l (start n) y 0 (.start _ _) (fun _ => Nat.le_refl _) (by simpa using hl) h

/-- UDP packet 192.168.0.1 -> 10.0.0.7. -/
def udpPkt : List Nat :=
  [0x45, 0, 0, 28, 0, 9, 0, 0, 64, 17, 0, 0, 192, 168, 0, 1, 10, 0, 0, 7, 0, 53, 0, 53, 0, 8, 0, 0]

/-- Three outbound policies created in another order than their priorities, one of them destroyed
again, with iteration in between. -/
def busy : List Op :=
  [.add (pol 1 30 .bypass .outb selAll), .publish 3,
   .add (pol 2 10 .discard .outb selUdp), .publish 2,
   .add (pol 3 10 .protect .outb selUdp), .publish 1,
   .add (pol 3 5 .protect .outb selUdp),
   .find 2, .first, .bind 1 40 .outb 0,
   .next 1, .ref 2, .unref 2,
   .unpublish 2, .del 2, .next 2, .unref 2, .unref 2]

/-- The hypotheses of the theorems of `Props.lean` are met by a busy history ... -/
example : ∃ y, exec allowedB busy (start 4) = some y ∧ Reach 4 y.1 y.2 := by
  have h : (exec allowedB busy (start 4)).isSome = true := by decide +kernel
  obtain ⟨y, hy⟩ := Option.isSome_iff_exists.mp h
  exact ⟨y, hy, start_reach 4 (by decide) hy⟩

/-- ... after which the PROTECT policy of priority 10 decides about the UDP packet, with its SA. -/
example : (exec allowedB busy (start 4)).bind
    (fun y => outLookup (fun _ => false) y.1 5 0 (some udpPkt)) = some ⟨true, some 40, true⟩ := by
  decide +kernel

/-- The same, with the SA disabled: dropped, no lock. -/
example : (exec allowedB busy (start 4)).bind
    (fun y => outLookup (fun _ => true) y.1 5 0 (some udpPkt)) = some ⟨false, none, false⟩ := by
  decide +kernel

/-! ## C36: iteration past a destroyed policy -/

/-- Two policies; an iteration reaches the first, both are destroyed, the iteration goes on and
hands out the second one, which is already in the free pool; a new policy is then created in the
same object, and releasing the handles frees it while it is in the database. -/
def stale : List Op :=
  [.add (pol 1 1 .bypass .outb selAll), .publish 1,
   .add (pol 2 2 .bypass .outb selAll), .publish 0,
   .first,
   .unpublish 0, .del 0,
   .unpublish 1, .del 1, .unref 1,
   .next 0,
   .add (pol 3 3 .bypass .outb selAll), .publish 1,
   .unref 1, .unref 1]

/-- C36 is violated: within the documented rules a policy of the database can be in the free pool
(its object will be handed out again by the next creation). -/
theorem policy_lifetime_violated : ∃ s A, LegalReach 2 s A ∧ ∃ q ∈ A.db, InPool s q.h := by
  have h : (exec legalB stale (start 2)).isSome = true := by decide +kernel
  obtain ⟨y, hy⟩ := Option.isSome_iff_exists.mp h
  refine ⟨y.1, y.2, start_legal 2 (by decide) hy, ?_⟩
  have h2 : (exec legalB stale (start 2)).map
      (fun y => (y.2.db.map Pol.h, y.1.free, y.1.nx 1)) = some ([1], some 1, none) := by
    decide +kernel
  rw [hy] at h2
  simp only [Option.map_some, Option.some.injEq, Prod.mk.injEq] at h2
  obtain ⟨e1, e2, e3⟩ := h2
  obtain ⟨q, l, e4, e5, e6⟩ := List.map_eq_cons_iff.mp e1
  refine ⟨q, by rw [e4]; simp, [1], ?_, by rw [e5]; simp⟩
  rw [e2]
  exact ⟨rfl, e3⟩

/-! ## C53: destroying a policy twice -/

theorem walk_loop {nxt : Nat → Option Nat} {p : Nat → Bool} {a : Nat} (h1 : nxt a = some a)
    (h2 : p a = false) : ∀ f prev, walk nxt p f prev (some a) = none
  | 0, _ => rfl
  | f + 1, prev => by
    simp only [walk, h2, Bool.false_eq_true, if_false, h1]
    exact walk_loop h1 h2 f (some a)

/-- Two policies, the first one destroyed. -/
def twice : List Op :=
  [.add (pol 1 1 .bypass .outb selUdp), .publish 1,
   .add (pol 2 2 .bypass .outb selUdp), .publish 0,
   .unpublish 1, .del 1]

/-- A packet none of the two policies covers. -/
def tcpPkt : List Nat :=
  [0x45, 0, 0, 20, 0, 9, 0, 0, 64, 6, 0, 0, 192, 168, 0, 1, 10, 0, 0, 7]

/-- C53 is violated: destroying, through a handle that is still held, a policy that was already
destroyed is not refused; it turns the lookup list into a cycle, and from then on the outbound
lookup of a packet that matches no policy never returns. -/
theorem destroy_twice_violated : ∃ s A h s', Reach 2 s A ∧ 0 < A.held h ∧ (∀ q ∈ A.db, q.h ≠ h) ∧
    spLookup s 3 .outb 0 (some tcpPkt) = some none ∧
    unpublish s h = some s' ∧ ∀ fuel, spLookup s' fuel .outb 0 (some tcpPkt) = none := by
  have h : ((exec allowedB twice (start 2)).bind fun y => unpublish y.1 1).isSome = true := by
    decide +kernel
  obtain ⟨s', hs'⟩ := Option.isSome_iff_exists.mp h
  obtain ⟨y, hy, hu⟩ := Option.bind_eq_some_iff.mp hs'
  have h2 : (exec allowedB twice (start 2)).map (fun y => (y.2.held 1, y.2.db.map Pol.h,
      spLookup y.1 3 .outb 0 (some tcpPkt))) = some (1, [0], some none) := by decide +kernel
  have h3 : ((exec allowedB twice (start 2)).bind fun y => unpublish y.1 1).map (fun s =>
      (s.lk 0, s.outL, (s.cell 0).param.sel)) = some (some 0, some 0, selUdp) := by decide +kernel
  rw [hy] at h2
  rw [hs'] at h3
  simp only [Option.map_some, Option.some.injEq, Prod.mk.injEq] at h2 h3
  refine ⟨y.1, y.2, 1, s', start_reach 2 (by decide) hy, by rw [h2.1]; decide, ?_, h2.2.2, hu, ?_⟩
  · intro q hq e
    have : q.h ∈ y.2.db.map Pol.h := List.mem_map_of_mem hq
    rw [h2.2.1, e] at this
    exact absurd this (by decide)
  · intro fuel
    unfold spLookup
    have hh : s'.head .outb = some 0 := h3.2.1
    rw [hh, walk_loop h3.1]
    · rfl
    · simp only [h3.2.2]
      have : selMatch selUdp (selVals (some tcpPkt)) = false := by decide +kernel
      rw [this, Bool.and_false]

/-- C53, restricted: destroying a policy that is in use succeeds, and it then takes no part in any
decision. -/
theorem destroy_once_partial {n : Nat} {s : St} {A : Abs} (h : Reach n s A) {q : Pol}
    (hq : q ∈ A.db) (hp : q.phase = .pub) :
    ∃ s1 s2, step s (.unpublish q.h) = some (s1, .code 0) ∧
      step s1 (.del q.h) = some (s2, .code 0) ∧
      ∃ A2, Reach n s2 A2 ∧ A2.db = A.db.filter (fun r => r.h ≠ q.h) ∧ A2.held = A.held := by
  obtain ⟨s1, r1, e1, k1, R1⟩ := policy_calls_exact h (op := .unpublish q.h) ⟨q, hq, rfl, hp⟩
  have e1' : r1 = .code 0 := k1
  subst e1'
  obtain ⟨s2, r2, e2, k2, R2⟩ := policy_calls_exact R1 (op := .del q.h)
    ⟨{ q with phase := .unpub, sa := none }, mem_change.mpr ⟨q, hq, by simp⟩, rfl, rfl⟩
  have e2' : r2 = .code 0 := k2
  subst e2'
  refine ⟨s1, s2, e1, e2, _, R2, ?_, rfl⟩
  show (change _ q.h A.db).filter _ = _
  unfold change
  induction A.db with
  | nil => rfl
  | cons r l ih =>
    rw [List.map_cons, List.filter_cons, List.filter_cons, ih]
    by_cases e : r.h = q.h
    · simp [e]
    · simp [e]

/-! ## C54: the documented "ANY address" selector -/

/-- C54 is violated: selectors "ANY" as documented do not cover ordinary packets. -/
theorem any_address_violated : ∃ s v, CoversDoc s v ∧ selMatch s v = false :=
  ⟨⟨true, 0, 0, 0, 0, [0, 0, 0, 0], 0⟩, ⟨0x0a000001, 0x0a000002, 17⟩,
    ⟨rfl, Or.inl ⟨rfl, rfl⟩, Or.inl ⟨rfl, rfl⟩, Or.inl rfl⟩, by decide⟩

/-- C54, restricted: selectors without the range 0..0 mean what the documentation says. -/
theorem any_address_partial (s : Sel) (v : Vals) (h1 : ¬ (s.srcLo = 0 ∧ s.srcHi = 0))
    (h2 : ¬ (s.dstLo = 0 ∧ s.dstHi = 0)) : selMatch s v = true ↔ CoversDoc s v := by
  rw [selMatch_iff]
  unfold Covers CoversDoc InRangeDoc
  simp only [h1, h2, false_or, and_assoc]

/-! ## C55: ICMP errors -/

/-- ICMP "unreachable" from 10.0.0.1 about a packet 192.168.0.1 -> 10.9.9.9. -/
def icmpErr : List Nat :=
  [0x45, 0, 0, 56, 0, 0, 0, 0, 64, 1, 0, 0, 10, 0, 0, 1, 192, 168, 0, 1] ++
  [3, 1, 0, 0, 0, 0, 0, 0] ++
  [0x45, 0, 0, 40, 0, 0, 0, 0, 64, 17, 0, 0, 192, 168, 0, 1, 10, 9, 9, 9]

/-- Policy: from 10.9.9.9 to 192.168.0.1. -/
def selBack : Sel := ⟨true, 0x0a090909, 0x0a090909, 0xc0a80001, 0xc0a80001, [0, 0, 0, 0], 0⟩

/-- An ICMP echo request with identification field 3 whose payload is chosen by the sender. -/
def icmpForged : List Nat :=
  [0x45, 0, 0, 56, 0, 3, 0, 0, 64, 1, 0, 0, 6, 6, 6, 6, 192, 168, 0, 1] ++
  [8, 0, 0, 0, 0] ++ [192, 168, 0, 1] ++ [10, 9, 9, 9] ++ List.replicate 30 0

/-- C55 is violated in both directions: an ICMP error about a packet of the policy is rejected, and
an ICMP packet that is no error and that the selectors do not cover is accepted. -/
theorem icmp_match_violated :
    (20 ≤ icmpErr.length ∧ IcmpAbout icmpErr selBack ∧ selectorMatch (some icmpErr) selBack = false) ∧
    (20 ≤ icmpForged.length ∧ ¬ IcmpAbout icmpForged selBack ∧ ¬ Covers selBack (header icmpForged) ∧
      selectorMatch (some icmpForged) selBack = true) := by
  refine ⟨⟨by decide, ?_, by decide +kernel⟩, by decide, ?_, ?_, by decide +kernel⟩
  · unfold IcmpAbout Covers; decide +kernel
  · unfold IcmpAbout Covers; decide +kernel
  · unfold Covers; decide +kernel

/-! ## C56: SAs bound to policies that do not protect -/

/-- C56 is violated: an SA may be bound to a DISCARD policy; a packet it concerns is dropped with
the processing lock left held (both callers, src/ofp_pkt_processing.c:411 and 1149, drop without
releasing it).  With a BYPASS policy the packet is sent through the SA instead of in clear. -/
theorem outbound_decision_violated :
    (∃ s A, Reach 1 s A ∧ outLookup (fun _ => false) s 2 0 (some udpPkt) = some ⟨false, some 7, true⟩) ∧
    (∃ s A, Reach 1 s A ∧ (∃ q ∈ A.db, q.p.act = .bypass) ∧
      outLookup (fun _ => false) s 2 0 (some udpPkt) = some ⟨true, some 7, true⟩) := by
  constructor
  · have h : (exec allowedB [.add (pol 1 1 .discard .outb selAll), .publish 0, .bind 0 7 .outb 0]
        (start 1)).bind (fun y => outLookup (fun _ => false) y.1 2 0 (some udpPkt)) =
        some ⟨false, some 7, true⟩ := by decide +kernel
    obtain ⟨y, hy, ho⟩ := Option.bind_eq_some_iff.mp h
    exact ⟨y.1, y.2, start_reach 1 (by decide) hy, ho⟩
  · have h : (exec allowedB [.add (pol 1 1 .bypass .outb selAll), .publish 0, .bind 0 7 .outb 0]
        (start 1)).bind (fun y => outLookup (fun _ => false) y.1 2 0 (some udpPkt)) =
        some ⟨true, some 7, true⟩ := by decide +kernel
    obtain ⟨y, hy, ho⟩ := Option.bind_eq_some_iff.mp h
    have h2 : (exec allowedB [.add (pol 1 1 .bypass .outb selAll), .publish 0, .bind 0 7 .outb 0]
        (start 1)).map (fun y => y.2.db.any fun q => decide (q.p.act = .bypass)) = some true := by
      decide +kernel
    rw [hy] at h2
    simp only [Option.map_some, Option.some.injEq] at h2
    obtain ⟨q, hq, e⟩ := List.any_eq_true.mp h2
    exact ⟨y.1, y.2, start_reach 1 (by decide) hy, ⟨q, hq, of_decide_eq_true e⟩, ho⟩

end Verif.Ipsec

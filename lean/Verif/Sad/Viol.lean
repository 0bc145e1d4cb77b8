import Verif.Sad.Flush
/-!
# Where the code departs from its documentation, and executable histories
-/
namespace Verif.Sad
open Verif.Ipsec (put walk Chain)

/-! ## Running histories -/

/-- `Allowed`, computed, without the bound on the number of references. -/
def allowedB (m : Nat) (A : Abs) : Op → Bool
  | .create _ _ => true
  | .destroy h => decide (0 < A.held h)
  | .adv h _ => A.db.any fun q => q.h = h ∧ (q.phase = .dying .odp ∨ q.phase = .dying .evt ∨
      q.phase = .dying .fin)
  | .find _ => true
  | .first => true
  | .next h => decide (0 < A.held h) && ((A.db.any fun q => q.h = h) ||
      (match A.lastDel with | none => false | some p => decide (p.1 = h)))
  | .ref h => decide (0 < A.held h)
  | .unref h => decide (0 < A.held h)
  | .select h _ => decide (0 < A.held h) && A.db.any fun q => q.h = h
  | .bind k h => decide (k < m) && decide (0 < A.held h)
  | .unbind k => decide (k < m)

/-- `Legal`, computed, without the bound on the number of references. -/
def legalB (m : Nat) (A : Abs) : Op → Bool
  | .next h => decide (0 < A.held h)
  | op => allowedB m A op

theorem allowedB_sound {m : Nat} {A : Abs} {op : Op} (hb : Room A m)
    (h : allowedB m A op = true) : Allowed m A op := by
  cases op with
  | create => trivial
  | destroy a => exact (decide_eq_true_iff.mp h : 0 < A.held a)
  | adv a ok =>
    obtain ⟨q, hq, e⟩ := List.any_eq_true.mp h
    obtain ⟨e1, e2⟩ := of_decide_eq_true e
    exact ⟨q, hq, e1, by rcases e2 with e | e | e <;> exact ⟨_, e⟩⟩
  | find => exact hb
  | first => exact hb
  | next a =>
    obtain ⟨h1, h2⟩ := Bool.and_eq_true_iff.mp h
    refine ⟨hb, of_decide_eq_true h1, ?_⟩
    rcases Bool.or_eq_true_iff.mp h2 with h2 | h2
    · obtain ⟨q, hq, e⟩ := List.any_eq_true.mp h2
      exact Or.inl (List.mem_map.mpr ⟨q, hq, of_decide_eq_true e⟩)
    · refine Or.inr ?_
      cases hl : A.lastDel with
      | none => rw [hl] at h2; exact absurd h2 (by simp)
      | some p =>
        rw [hl] at h2
        exact ⟨p.2, by rw [← of_decide_eq_true h2]⟩
  | ref a => exact ⟨hb, of_decide_eq_true h⟩
  | unref a => exact (decide_eq_true_iff.mp h : 0 < A.held a)
  | select a _ =>
    obtain ⟨h1, h2⟩ := Bool.and_eq_true_iff.mp h
    obtain ⟨q, hq, e⟩ := List.any_eq_true.mp h2
    exact ⟨of_decide_eq_true h1, List.mem_map.mpr ⟨q, hq, of_decide_eq_true e⟩⟩
  | bind k a =>
    obtain ⟨h1, h2⟩ := Bool.and_eq_true_iff.mp h
    exact ⟨hb, of_decide_eq_true h1, of_decide_eq_true h2⟩
  | unbind k => exact (decide_eq_true_iff.mp h : k < m)

theorem legalB_sound {m : Nat} {A : Abs} {op : Op} (hb : Room A m)
    (h : legalB m A op = true) : Legal m A op := by
  cases op with
  | next a => exact ⟨hb, of_decide_eq_true h⟩
  | create p o => exact allowedB_sound (op := .create p o) hb h
  | destroy a => exact allowedB_sound (op := .destroy a) hb h
  | adv a ok => exact allowedB_sound (op := .adv a ok) hb h
  | find a => exact allowedB_sound (op := .find a) hb h
  | first => exact allowedB_sound (op := .first) hb h
  | ref a => exact allowedB_sound (op := .ref a) hb h
  | unref a => exact allowedB_sound (op := .unref a) hb h
  | select a x => exact allowedB_sound (op := .select a x) hb h
  | bind k a => exact allowedB_sound (op := .bind k a) hb h
  | unbind k => exact allowedB_sound (op := .unbind k) hb h

theorem held_step (sy : Dir → Bool) (A : Abs) (op : Op) (r : Ret) (h : Nat) :
    (absStep sy A op r).held h ≤ A.held h + 1 := by
  have hg : ∀ x, gain A.held x h ≤ A.held h + 1 := fun x => gain_le _ _ _
  have hd : ∀ (f : Nat → Nat) x, drop1 f x h ≤ f h := by
    intro f x; simp only [drop1]; split <;> omega
  have hb : ∀ x, bump A.held x h ≤ A.held h + 1 := by
    intro x; simp only [bump]; split <;> omega
  cases op with
  | create p o =>
    cases o with
    | none => cases r <;> exact Nat.le_succ _
    | some o =>
      rcases r with (_ | x) | c
      · exact Nat.le_succ _
      · exact hb _
      · exact Nat.le_succ _
  | destroy a =>
    cases r with
    | handle x => exact Nat.le_succ _
    | code c => simp only [absStep]; split <;> exact Nat.le_succ _
  | adv a ok =>
    simp only [absStep]
    split
    · split <;> exact Nat.le_succ _
    · exact Nat.le_succ _
  | find a => cases r with
    | handle x => exact hg x
    | code c => exact Nat.le_succ _
  | first => cases r with
    | handle x => exact hg x
    | code c => exact Nat.le_succ _
  | next a => cases r with
    | handle x => exact Nat.le_trans (hd _ _) (hg x)
    | code c => exact Nat.le_succ _
  | ref a => cases r <;> exact hb a
  | unref a => cases r <;> exact Nat.le_succ_of_le (hd _ a)
  | select a x =>
    cases r with
    | handle x => exact Nat.le_succ _
    | code c => simp only [absStep]; split <;> exact Nat.le_succ _
  | bind k a => cases r <;> exact Nat.le_succ _
  | unbind k => cases r <;> exact Nat.le_succ _

/-- Histories the documentation allows. -/
inductive LegalReach (n m : Nat) : St → Abs → Prop
  | start (junk : St) (par : Nat → Param) : junk.num = n → junk.nsp = m →
      LegalReach n m (init junk) (abs0 par)
  | call {s s' : St} {A : Abs} {op : Op} {r : Ret} :
      LegalReach n m s A → Legal m A op → step s op = some (s', r) →
      LegalReach n m s' (absStep s.sync A op r)

/-- Run a list of calls, checking each. -/
def exec (ok : Abs → Op → Bool) : List Op → St × Abs → Option (St × Abs)
  | [], x => some x
  | op :: l, x =>
    if ok x.2 op then
      match step x.1 op with
      | none => none
      | some y => exec ok l (y.1, absStep x.1.sync x.2 op y.2)
    else none

theorem room_of {A : Abs} {m k l : Nat} (hk : ∀ h, A.held h ≤ k) (hb : k + (l + 1) + m + 2 < 2 ^ 32) :
    Room A m := by
  intro h
  have h1 := hk h
  have h2 : A.bound m h ≤ m := by
    unfold Abs.bound
    exact Nat.le_trans List.countP_le_length (by simp)
  unfold Abs.users
  generalize (2 : Nat) ^ 32 = M at hb ⊢
  omega

theorem exec_reach {n m : Nat} : ∀ (l : List Op) (x y : St × Abs) (k : Nat), Reach n m x.1 x.2 →
    (∀ h, x.2.held h ≤ k) → k + l.length + m + 2 < 2 ^ 32 → exec (allowedB m) l x = some y →
    Reach n m y.1 y.2
  | [], x, y, k, hr, _, _, he => by
    simp only [exec, Option.some.injEq] at he
    exact he ▸ hr
  | op :: l, x, y, k, hr, hk, hb, he => by
    simp only [exec] at he
    by_cases ho : allowedB m x.2 op = true
    · rw [if_pos ho] at he
      cases hs : step x.1 op with
      | none => rw [hs] at he; exact absurd he (by simp)
      | some z =>
        rw [hs] at he
        rw [List.length_cons] at hb
        refine exec_reach l _ y (k + 1) (.call hr (allowedB_sound (room_of hk hb) ho) hs) ?_
          (by rw [Nat.add_assoc k 1, Nat.add_comm 1]; exact hb) he
        intro h
        exact Nat.le_trans (held_step x.1.sync x.2 op z.2 h) (Nat.succ_le_succ (hk h))
    · rw [if_neg ho] at he; exact absurd he (by simp)

theorem exec_legal {n m : Nat} : ∀ (l : List Op) (x y : St × Abs) (k : Nat), LegalReach n m x.1 x.2 →
    (∀ h, x.2.held h ≤ k) → k + l.length + m + 2 < 2 ^ 32 → exec (legalB m) l x = some y →
    LegalReach n m y.1 y.2
  | [], x, y, k, hr, _, _, he => by
    simp only [exec, Option.some.injEq] at he
    exact he ▸ hr
  | op :: l, x, y, k, hr, hk, hb, he => by
    simp only [exec] at he
    by_cases ho : legalB m x.2 op = true
    · rw [if_pos ho] at he
      cases hs : step x.1 op with
      | none => rw [hs] at he; exact absurd he (by simp)
      | some z =>
        rw [hs] at he
        rw [List.length_cons] at hb
        refine exec_legal l _ y (k + 1) (.call hr (legalB_sound (room_of hk hb) ho) hs) ?_
          (by rw [Nat.add_assoc k 1, Nat.add_comm 1]; exact hb) he
        intro h
        exact Nat.le_trans (held_step x.1.sync x.2 op z.2 h) (Nat.succ_le_succ (hk h))
    · rw [if_neg ho] at he; exact absurd he (by simp)

/-! ## Sample data -/

/-- Parameters of an SA. -/
def sa (id : Nat) (d : Dir) (spi vrf : Nat) : Param := ⟨id, d, spi, vrf, true, 7⟩

/-- Uninitialised memory, room for `n` SAs and `m` policies, both directions in one mode. -/
def junk0 (n m : Nat) (sy : Bool) : St :=
  { odp := fun _ => 55, dis := fun _ => true, par := fun _ => sa 1 .inb 1 1, sel := fun _ => some 3
    ref := fun _ => 9, gone := fun _ => true, next := fun _ => some 66, num := n, list := some 2
    free := some 1, slot := fun _ => some 4, nsp := m, sync := fun _ => sy, job := fun _ => some .fin
    log := [.create 5] }

/-- Start with room for `n` SAs and `m` policies. -/
def start (n m : Nat) (sy : Bool) : St × Abs := (init (junk0 n m sy), abs0 fun _ => sa 0 .inb 0 0)

theorem start_reach (n m : Nat) (sy : Bool) {l : List Op} {y : St × Abs}
    (hl : l.length + m + 2 < 2 ^ 32)
    (h : exec (allowedB m) l (start n m sy) = some y) : Reach n m y.1 y.2 :=
  exec_reach l (start n m sy) y 0 (.start _ _ rfl rfl) (fun _ => Nat.le_refl _) (by simpa using hl) h

theorem start_legal (n m : Nat) (sy : Bool) {l : List Op} {y : St × Abs}
    (hl : l.length + m + 2 < 2 ^ 32)
    (h : exec (legalB m) l (start n m sy) = some y) : LegalReach n m y.1 y.2 :=
  exec_legal l (start n m sy) y 0 (.start _ _ rfl rfl) (fun _ => Nat.le_refl _) (by simpa using hl) h

/-- Four creations (one refused: same SPI), bindings, iteration past a removed SA, a destruction that
ODP refused to finish, one that it refused to begin. -/
def busy : List Op :=
  [.create (sa 1 .inb 100 0) (some 11), .create (sa 2 .outb 100 0) (some 12),
   .create (sa 3 .inb 100 0) (some 13), .create (sa 3 .inb 101 1) (some 13),
   .create (sa 4 .outb 7 0) none, .create (sa 4 .outb 7 0) (some 14),
   .select 3 40, .select 3 41, .bind 0 2, .bind 0 0, .bind 1 2,
   .find 2, .first, .destroy 0, .adv 0 true, .adv 0 true, .next 0,
   .destroy 1, .adv 1 true, .adv 1 false,
   .destroy 3, .destroy 3, .adv 3 false, .unbind 0, .unref 0]

/-- The hypotheses of the theorems of `Props.lean` and `Flush.lean` are met by a busy history ... -/
example : ∃ y, exec (allowedB 2) busy (start 4 2 true) = some y ∧ Reach 4 2 y.1 y.2 := by
  have h : (exec (allowedB 2) busy (start 4 2 true)).isSome = true := by decide +kernel
  obtain ⟨y, hy⟩ := Option.isSome_iff_exists.mp h
  exact ⟨y, hy, start_reach 4 2 true (by decide) hy⟩

/-- ... which ends with an active SA bound to a policy, a broken one, a stuck one and a free one. -/
example : (exec (allowedB 2) busy (start 4 2 true)).map
    (fun y => (y.2.db.map fun q => (q.h, q.p.id, q.phase), y.2.stuck, y.1.free, y.2.bnd 1, y.2.held 2)) =
    some ([(2, 2, .active), (3, 1, .broken)], [1], some 0, some 2, 2) := by decide +kernel

/-- Same calls about fresh ODP handles: what ODP was told. -/
example : (exec (allowedB 2) busy (start 4 2 true)).map (fun y => y.1.log) =
    some [.create 11, .create 12, .create 13, .create 14, .disable 14, .destroy 14, .disable 13,
      .destroy 13, .disable 11] := by decide +kernel

/-- C113 on a database with SAs of two VRFs, synchronous mode ... -/
example : (exec (allowedB 2) [.create (sa 1 .inb 5 0) (some 1), .create (sa 2 .outb 6 1) (some 2),
      .create (sa 3 .inb 7 0) (some 3)] (start 4 2 true)).bind (fun y =>
      (flush (fun _ => (true, true)) y.1 0).map fun z =>
        (z.2, [z.1.list, z.1.next 2, z.1.free], [z.1.ref 3, z.1.ref 2])) =
    some (true, [some 2, none, some 0], [1, 2]) := by decide +kernel

/-- ... and asynchronous mode: all stay, two disabled. -/
example : (exec (allowedB 2) [.create (sa 1 .inb 5 0) (some 1), .create (sa 2 .outb 6 1) (some 2),
      .create (sa 3 .inb 7 0) (some 3)] (start 4 2 false)).bind (fun y =>
      (flush (fun _ => (true, true)) y.1 0).map fun z =>
        (z.2, [z.1.list, z.1.next 1, z.1.next 2], [z.1.dis 1, z.1.dis 2, z.1.dis 3])) =
    some (true, [some 1, some 2, some 3], [true, false, true]) := by decide +kernel

/-- An asynchronous destruction and its completion (hypotheses of `completion_ok_partial`). -/
example : (exec (allowedB 0) [.create (sa 1 .inb 5 0) (some 1), .destroy 1, .adv 1 true]
    (start 2 0 false)).map (fun y => y.2.db.map fun q => q.phase) = some [.dying .evt] := by
  decide +kernel

/-! ## C110: iteration past a destroyed SA -/

/-- Three SAs; an iteration stands on the newest; it and its successor are destroyed, and the
successor's last handle released; the iteration goes on and hands out the freed successor; releasing
that handle frees the object a second time.  Two more SAs are created. -/
def stale : List Op :=
  [.create (sa 1 .inb 101 0) (some 1), .create (sa 2 .inb 102 0) (some 2),
   .create (sa 3 .inb 103 0) (some 3), .unref 1,
   .find 2, .first, .destroy 0, .adv 0 true, .adv 0 true,
   .destroy 1, .adv 1 true, .adv 1 true, .unref 1,
   .next 0, .unref 1,
   .create (sa 4 .inb 104 0) (some 4), .create (sa 5 .inb 105 0) (some 5)]

/-- C110 is violated: within the documented rules two SAs of the database can share one object, so
that one of them shows the parameters of the other. -/
theorem sa_lifetime_violated : ∃ s A, LegalReach 3 0 s A ∧ ∃ q ∈ A.db, ∃ r ∈ A.db,
    q.p.id ≠ r.p.id ∧ q.h = r.h ∧ 0 < A.held q.h ∧ info s q.h ≠ (.active, q.p) := by
  have h : (exec (legalB 0) stale (start 3 0 true)).isSome = true := by decide +kernel
  obtain ⟨y, hy⟩ := Option.isSome_iff_exists.mp h
  refine ⟨y.1, y.2, start_legal 3 0 true (by decide) hy, ?_⟩
  have h2 : (exec (legalB 0) stale (start 3 0 true)).map
      (fun y => (y.2.db.map fun q => (q.h, q.p), y.2.held 1, info y.1 1)) =
      some ([(1, sa 5 .inb 105 0), (1, sa 4 .inb 104 0), (2, sa 1 .inb 101 0)], 2,
        (.active, sa 5 .inb 105 0)) := by
    decide +kernel
  rw [hy] at h2
  simp only [Option.map_some, Option.some.injEq, Prod.mk.injEq] at h2
  obtain ⟨e1, e2, e3⟩ := h2
  obtain ⟨r, l, e4, e5, e6⟩ := List.map_eq_cons_iff.mp e1
  obtain ⟨q, l', e7, e8, e9⟩ := List.map_eq_cons_iff.mp e6
  simp only [Prod.mk.injEq] at e5 e8
  refine ⟨q, by rw [e4, e7]; simp, r, by rw [e4]; simp, ?_, by rw [e8.1, e5.1], ?_, ?_⟩
  · rw [e8.2, e5.2]; decide
  · rw [e8.1, e2]; decide
  · rw [e8.1, e3, e8.2]; decide

/-! ## C114: binding while another thread destroys -/

/-- First critical section of `ofp_ipsec_sp_bind` for an outbound policy without an SA
(src/ofp_ipsec.c:717-721): the policy refers to the SA, but no reference was taken yet. -/
def bindSwap (s : St) (k a : Nat) : St :=
  { s with
    slot := put s.slot k (some a) }

/-- The rest of `ofp_ipsec_sp_bind` (src/ofp_ipsec.c:722-723), `old`: what the policy referred to. -/
def bindRest (s : St) (old : Option Nat) (a : Nat) : St := saRef (saUnref s old) (some a)

/-- `bind` is its critical sections, one after the other. -/
theorem bind_parts (s : St) (k a : Nat) : bind s k a = bindRest (bindSwap s k a) (s.slot k) a := rfl

/-- The other threads, between the two parts: the SA is looked up, destroyed and released, and the
policy is destroyed. -/
def others : List Op := [.find 2, .destroy 0, .adv 0 true, .adv 0 true, .unref 0, .unbind 0]

/-- C114 is violated: while a thread that holds a reference on an SA is binding it to a policy, other
threads destroy the SA and the policy, all within the rules; the SA's object becomes free although
the first thread holds its handle, the next creation reuses it, and the handle then shows another
SA's parameters. -/
theorem bind_race_violated : ∃ s A, Reach 2 1 s A ∧ Allowed 1 A (.bind 0 0) ∧ s.slot 0 = none ∧
    ∃ y, exec (allowedB 1) others
        (bindSwap s 0 0, absStep s.sync A (.bind 0 0) (.code 0)) = some y ∧
      0 < y.2.held 0 ∧ InPool y.1 0 ∧
      ∃ s', step (bindRest y.1 none 0) (.create (sa 3 .outb 9 0) (some 3)) =
          some (s', .handle (some 0)) ∧
        (info s 0).2 = sa 2 .outb 8 0 ∧ (info s' 0).2 = sa 3 .outb 9 0 := by
  have h : (exec (allowedB 1) [.create (sa 1 .inb 5 0) (some 1), .create (sa 2 .outb 8 0) (some 2)]
      (start 2 1 true)).isSome = true := by decide +kernel
  obtain ⟨x, hx⟩ := Option.isSome_iff_exists.mp h
  have hR := start_reach 2 1 true (by decide) hx
  refine ⟨x.1, x.2, hR, ?_⟩
  have h1 : (exec (allowedB 1) [.create (sa 1 .inb 5 0) (some 1), .create (sa 2 .outb 8 0) (some 2)]
      (start 2 1 true)).map (fun x => (allowedB 1 x.2 (.bind 0 0), x.1.slot 0, (info x.1 0).2)) =
      some (true, none, sa 2 .outb 8 0) := by decide +kernel
  have hh : ∀ a, x.2.held a ≤ 2 := by
    have : ∃ H : Nat → Nat, (exec (allowedB 1)
        [.create (sa 1 .inb 5 0) (some 1), .create (sa 2 .outb 8 0) (some 2)]
        (start 2 1 true)).map (fun x => x.2.held) = some H ∧ ∀ a, H a ≤ 2 := by
      refine ⟨bump (bump (fun _ => 0) 1) 0, rfl, ?_⟩
      intro a; simp only [bump]; split <;> split <;> omega
    obtain ⟨H, e, hH⟩ := this
    rw [hx] at e
    simp only [Option.map_some, Option.some.injEq] at e
    rw [e]; exact hH
  rw [hx] at h1
  simp only [Option.map_some, Option.some.injEq, Prod.mk.injEq] at h1
  refine ⟨allowedB_sound (room_of (l := 0) hh (by decide)) h1.1, h1.2.1, ?_⟩
  have h2 : (exec (allowedB 1) [.create (sa 1 .inb 5 0) (some 1), .create (sa 2 .outb 8 0) (some 2)]
      (start 2 1 true)).bind (fun x => (exec (allowedB 1) others
        (bindSwap x.1 0 0, absStep x.1.sync x.2 (.bind 0 0) (.code 0))).bind fun y =>
        (step (bindRest y.1 none 0) (.create (sa 3 .outb 9 0) (some 3))).map fun z =>
          (y.2.held 0, y.1.free, y.1.next 0, z.2, (info z.1 0).2)) =
      some (1, some 0, none, .handle (some 0), sa 3 .outb 9 0) := by decide +kernel
  rw [hx] at h2
  simp only [Option.bind_some, Option.bind_eq_some_iff, Option.map_eq_some_iff, Prod.mk.injEq] at h2
  obtain ⟨y, hy, ⟨s', r⟩, hz, e1, e2, e3, e4, e5⟩ := h2
  refine ⟨y, hy, by rw [e1]; decide, ⟨[0], ?_, by simp⟩, s', ?_, h1.2.2, e5⟩
  · rw [e2]; exact ⟨rfl, e3⟩
  · rw [hz]; simp only at e4; rw [e4]

end Verif.Sad

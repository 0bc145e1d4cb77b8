/-!
# Specification: the IPsec SA database as its users see it

Nothing here mentions linked lists, free lists or reference counters.
-/
namespace Verif.Sad

/-- SA direction. -/
inductive Dir | inb | outb
deriving DecidableEq, Repr

/-- Creation parameters (`ofp_ipsec_sa_param_t`).  `ok`: only supported options (no UDP
encapsulation, no flow label copying, tunnels over IPv4).  `rest`: everything else. -/
structure Param where
  id : Nat
  dir : Dir
  spi : Nat
  vrf : Nat
  ok : Bool
  rest : Nat
deriving DecidableEq, Repr

/-- SA status (`ofp_ipsec_sa_status_t`). -/
inductive Status | active | disabled | destroyed
deriving DecidableEq, Repr

/-- What a destruction still has to do: disable the ODP SA, wait for ODP's completion event, remove
the SA. -/
inductive Stage | odp | evt | fin
deriving DecidableEq, Repr

/-- How far the destruction of an SA went.  `broken`: given up after a failure. -/
inductive Phase | active | dying (st : Stage) | broken
deriving DecidableEq, Repr

/-- An SA in the database: handle, parameters, ODP handle, phase, selectors bound to it. -/
structure Sa where
  h : Nat
  p : Param
  odp : Nat
  phase : Phase
  sel : Option Nat
deriving DecidableEq, Repr

/-- The database as a user sees it: the SAs (newest first), the SAs that ODP refused to destroy,
how many references the callers hold on every handle, the SA bound to every policy, the parameters
every handle was last created with, and the most recent removal (handle, and the SA that
followed it). -/
structure Abs where
  db : List Sa
  stuck : List Nat
  held : Nat → Nat
  bnd : Nat → Option Nat
  par : Nat → Param
  lastDel : Option (Nat × Option Nat)

/-- Calls, and progress of a destruction that was begun.  The ODP layer's answers are inputs.
`bind k h`: `ofp_ipsec_sp_bind` of an outbound policy `k`; `unbind k`: the policy is destroyed. -/
inductive Op
  | create (p : Param) (odp : Option Nat)
  | destroy (h : Nat)
  | adv (h : Nat) (ok : Bool)
  | find (id : Nat)
  | first
  | next (h : Nat)
  | ref (h : Nat)
  | unref (h : Nat)
  | select (h sel : Nat)
  | bind (k h : Nat)
  | unbind (k : Nat)
deriving DecidableEq, Repr

/-- Results of calls. -/
inductive Ret
  | handle (h : Option Nat)
  | code (c : Int)
deriving DecidableEq, Repr

/-- Calls made to the ODP layer. -/
inductive OdpCall
  | create (o : Nat)
  | disable (o : Nat)
  | destroy (o : Nat)
deriving DecidableEq, Repr

/-- Handles of the SAs in the database. -/
def Abs.hs (A : Abs) : List Nat := A.db.map Sa.h

/-- The handle that follows `h` in a list. -/
def follower (h : Nat) : List Nat → Option Nat
  | [] => none
  | a :: l => if a = h then l.head? else follower h l

/-- Change one SA. -/
def change (f : Sa → Sa) (h : Nat) (l : List Sa) : List Sa :=
  l.map fun q => if q.h = h then f q else q

/-- Add to a count. -/
def bump (f : Nat → Nat) (h : Nat) : Nat → Nat := fun x => if x = h then f x + 1 else f x

/-- Take from a count. -/
def drop1 (f : Nat → Nat) (h : Nat) : Nat → Nat := fun x => if x = h then f x - 1 else f x

/-- A call that returned a handle gives one reference to the caller. -/
def gain (f : Nat → Nat) : Option Nat → (Nat → Nat)
  | none => f
  | some h => bump f h

/-- Number of policies (of `m`) an SA is bound to. -/
def Abs.bound (A : Abs) (m h : Nat) : Nat := (List.range m).countP fun k => A.bnd k == some h

/-- References that users hold on an SA: handles and bindings. -/
def Abs.users (A : Abs) (m h : Nat) : Nat := A.held h + A.bound m h

/-- The SA with a handle. -/
def Abs.sa? (A : Abs) (h : Nat) : Option Sa := A.db.find? fun q => q.h = h

/-- Next stage after ODP was told to disable the SA; `sync`: the operation mode of its direction. -/
def after (sync : Dir → Bool) (d : Dir) : Stage := if sync d then .fin else .evt

/-- Effect of a call, given its result. -/
def absStep (sync : Dir → Bool) (A : Abs) : Op → Ret → Abs
  | .create p (some o), .handle (some h) =>
      { A with
        db := ⟨h, p, o, .active, none⟩ :: A.db
        held := bump A.held h
        par := fun x => if x = h then p else A.par x }
  | .destroy h, .code c =>
      if c = 0 then { A with db := change (fun q => { q with phase := .dying .odp }) h A.db } else A
  | .adv h ok, _ =>
      match A.sa? h with
      | some q =>
        match q.phase, ok with
        | .dying .odp, true =>
          { A with db := change (fun q => { q with phase := .dying (after sync q.p.dir) }) h A.db }
        | .dying .evt, true =>
          { A with db := change (fun q => { q with phase := .dying .fin }) h A.db }
        | .dying .fin, ok =>
          { A with
            db := A.db.filter (fun q => q.h ≠ h)
            stuck := if ok then A.stuck else h :: A.stuck
            lastDel := some (h, follower h A.hs) }
        | _, _ => { A with db := change (fun q => { q with phase := .broken }) h A.db }
      | none => A
  | .find _, .handle r => { A with held := gain A.held r }
  | .first, .handle r => { A with held := gain A.held r }
  | .next h, .handle r => { A with held := drop1 (gain A.held r) h }
  | .ref h, _ => { A with held := bump A.held h }
  | .unref h, _ => { A with held := drop1 A.held h }
  | .select h sel, .code c =>
      if c = 0 then { A with db := change (fun q => { q with sel := some sel }) h A.db } else A
  | .bind k h, _ => { A with bnd := fun x => if x = k then some h else A.bnd x }
  | .unbind k, _ => { A with bnd := fun x => if x = k then none else A.bnd x }
  | _, _ => A

/-- Room for one more reference on every SA. -/
def Room (A : Abs) (m : Nat) : Prop := ∀ h, A.users m h + 2 < 2 ^ 32

/-- What the callers may do: use only handles they hold a reference on, bind to existing policies,
and step past an SA that was removed meanwhile only if no other SA was removed since.  A
destruction advances while it has something to do.  ODP handles are not given out twice.
Fewer than 2^32 - 2 references. -/
def Allowed (m : Nat) (A : Abs) : Op → Prop
  | .create _ _ => True
  | .destroy h => 0 < A.held h
  | .adv h _ => ∃ q ∈ A.db, q.h = h ∧ ∃ st, q.phase = .dying st
  | .find _ => Room A m
  | .first => Room A m
  | .next h => Room A m ∧ 0 < A.held h ∧ (h ∈ A.hs ∨ ∃ y, A.lastDel = some (h, y))
  | .ref h => Room A m ∧ 0 < A.held h
  | .unref h => 0 < A.held h
  | .select h _ => 0 < A.held h ∧ h ∈ A.hs
  | .bind k h => Room A m ∧ k < m ∧ 0 < A.held h
  | .unbind k => k < m

/-- What the documentation asks of callers: like `Allowed`, but iteration may step past any SA the
caller holds a reference on ("stays valid (even through SA destruction)"). -/
def Legal (m : Nat) (A : Abs) : Op → Prop
  | .next h => Room A m ∧ 0 < A.held h
  | op => Allowed m A op

/-- Is the SA still untouched by a destruction? -/
def Live (A : Abs) (h : Nat) : Prop := ∃ q ∈ A.db, q.h = h ∧ q.phase = .active

/-- Parameters collide with an SA in the database. -/
def Clash (A : Abs) (p : Param) : Prop :=
  ∃ q ∈ A.db, q.p.id = p.id ∨ (p.dir = .inb ∧ q.p.dir = .inb ∧ q.p.spi = p.spi)

/-- What each call must return, for a database with room for `n` SAs and `m` policies. -/
def RetOk (n m : Nat) (A : Abs) : Op → Ret → Prop
  | .create p o, .handle (some h) =>
      p.ok = true ∧ ¬ Clash A p ∧ o.isSome ∧ h < n ∧ h ∉ A.hs ∧ h ∉ A.stuck ∧ A.users m h = 0
  | .create p o, .handle none =>
      p.ok = false ∨ Clash A p ∨ o = none ∨
        ∀ h < n, h ∈ A.hs ∨ h ∈ A.stuck ∨ 0 < A.users m h
  | .create _ _, .code _ => False
  | .destroy h, r => (r = .code 0 ∧ Live A h) ∨ (r = .code (-1) ∧ ¬ Live A h)
  | .adv h ok, r =>
      r = .code (if ok ∨ ∃ q ∈ A.db, q.h = h ∧ q.phase = .dying .evt then 0 else -1)
  | .find id, r => r = .handle ((A.db.find? fun q => q.p.id = id).map Sa.h)
  | .first, r => r = .handle (A.db.head?.map Sa.h)
  | .next h, .handle r =>
      if h ∈ A.hs then r = follower h A.hs else A.lastDel = some (h, r)
  | .next _, .code _ => False
  | .select h _, r =>
      ∀ q ∈ A.db, q.h = h → r = .code (if q.sel = none then 0 else -1)
  | _, r => r = .code 0

/-- Status of an SA. -/
def statusOf (A : Abs) (h : Nat) : Status :=
  match A.sa? h with
  | some q => if q.phase = .active then .active else .disabled
  | none => if h ∈ A.stuck then .disabled else .destroyed

/-- The right order of calls about each ODP SA: created, then disabled, then destroyed, each at
most once. -/
def InOrder (log : List OdpCall) (o : Nat) : Prop :=
  ∃ n, log.filter (fun c => c = .create o ∨ c = .disable o ∨ c = .destroy o) =
    [OdpCall.create o, .disable o, .destroy o].take n

end Verif.Sad

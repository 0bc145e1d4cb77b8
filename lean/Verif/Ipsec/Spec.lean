/-!
# What the IPsec policy API promises (independent of the implementation)

A policy database, as a user of `include/api/ofp_ipsec.h` sees it, and the rule that picks the
policy for a packet.  Nothing here mentions linked lists, reference counters or free lists.
-/
namespace Verif.Ipsec

/-- Direction of a policy (include/api/ofp_ipsec.h:31-36). -/
inductive Dir | inb | outb
deriving DecidableEq, Repr

/-- Policy action (include/api/ofp_ipsec.h:403-410). -/
inductive Act | discard | bypass | protect
deriving DecidableEq, Repr

/-- Selectors (include/api/ofp_ipsec.h:422-494).  Addresses are the numbers denoted by the
network-order bytes; the port selectors are the four numbers of the two ranges. -/
structure Sel where
  v4 : Bool
  srcLo : Nat
  srcHi : Nat
  dstLo : Nat
  dstHi : Nat
  ports : List Nat
  proto : Nat
deriving DecidableEq, Repr

/-- Policy parameters (include/api/ofp_ipsec.h:499-514).  `sa` is the (unsupported) SA field. -/
structure Param where
  prio : Nat
  act : Act
  sa : Option Nat
  dir : Dir
  sel : Sel
  vrf : Nat
  id : Nat
deriving DecidableEq, Repr

/-- Values of a packet the selectors look at. -/
structure Vals where
  src : Nat
  dst : Nat
  proto : Nat
deriving DecidableEq, Repr

/-- A selector covers the packet: addresses inside the ranges, protocol equal or "any". -/
def Covers (s : Sel) (v : Vals) : Prop :=
  s.v4 = true ∧ s.srcLo ≤ v.src ∧ v.src ≤ s.srcHi ∧ s.dstLo ≤ v.dst ∧ v.dst ≤ s.dstHi ∧
    (s.proto = 0 ∨ v.proto = s.proto)

/-- Life of a policy inside the database: created but not yet used for packets, used for packets,
no longer used for packets but not yet removed. -/
inductive Phase | fresh | pub | unpub
deriving DecidableEq, Repr

/-- A policy of the database: its handle, its creation parameters, the SA bound to it, and the
moment it came into use. -/
structure Pol where
  h : Nat
  p : Param
  sa : Option Nat
  phase : Phase
  seq : Nat
deriving DecidableEq, Repr

/-- The database as a user sees it: the policies (newest first), how many references the callers
hold on every handle, the parameters every handle was last created with, and the most recent
removal (handle, and the policy that followed it). -/
structure Abs where
  db : List Pol
  held : Nat → Nat
  par : Nat → Param
  clock : Nat
  lastDel : Option (Nat × Option Nat)

/-- Calls.  Creation and destruction of a policy are two critical sections each, so other threads'
calls may come in between: `add`;`publish` is one `ofp_ipsec_sp_create`, `unpublish`;`del` is one
`ofp_ipsec_sp_destroy`. -/
inductive Op
  | add (p : Param)
  | publish (h : Nat)
  | unpublish (h : Nat)
  | del (h : Nat)
  | find (id : Nat)
  | first
  | next (h : Nat)
  | ref (h : Nat)
  | unref (h : Nat)
  | bind (h sa : Nat) (saDir : Dir) (saVrf : Nat)
deriving DecidableEq, Repr

/-- Results of calls. -/
inductive Ret
  | handle (h : Option Nat)
  | code (c : Int)
deriving DecidableEq, Repr

/-- The handle that follows `h` in a list. -/
def follower (h : Nat) : List Nat → Option Nat
  | [] => none
  | a :: l => if a = h then l.head? else follower h l

/-- Change one policy. -/
def change (f : Pol → Pol) (h : Nat) (l : List Pol) : List Pol :=
  l.map fun q => if q.h = h then f q else q

/-- Add to a count. -/
def bump (f : Nat → Nat) (h : Nat) : Nat → Nat := fun x => if x = h then f x + 1 else f x

/-- Take from a count. -/
def drop1 (f : Nat → Nat) (h : Nat) : Nat → Nat := fun x => if x = h then f x - 1 else f x

/-- A call that returned a handle gives one reference to the caller. -/
def gain (f : Nat → Nat) : Option Nat → (Nat → Nat)
  | none => f
  | some h => bump f h

/-- May this SA be bound as the SA applied to outbound packets of this policy? -/
abbrev bindable (p : Param) (saDir : Dir) (saVrf : Nat) : Prop :=
  p.dir = .outb ∧ saDir = .outb ∧ p.vrf = saVrf

/-- Effect of a call, given its result. -/
def absStep (A : Abs) : Op → Ret → Abs
  | .add p, .handle (some h) =>
      { A with
        db := ⟨h, p, none, .fresh, 0⟩ :: A.db
        held := bump A.held h
        par := fun x => if x = h then p else A.par x }
  | .publish h, _ =>
      { A with
        db := change (fun q => { q with phase := .pub, seq := A.clock }) h A.db
        clock := A.clock + 1 }
  | .unpublish h, _ =>
      { A with db := change (fun q => { q with phase := .unpub, sa := none }) h A.db }
  | .del h, _ =>
      { A with
        db := A.db.filter (fun q => q.h ≠ h)
        lastDel := some (h, follower h (A.db.map Pol.h)) }
  | .find _, .handle r => { A with held := gain A.held r }
  | .first, .handle r => { A with held := gain A.held r }
  | .next h, .handle r => { A with held := drop1 (gain A.held r) h }
  | .ref h, _ => { A with held := bump A.held h }
  | .unref h, _ => { A with held := drop1 A.held h }
  | .bind h sa d v, _ =>
      if bindable (A.par h) d v then
        { A with db := change (fun q => { q with sa := some sa }) h A.db }
      else A
  | _, _ => A

/-- What the callers may do: publish only the policy they just created; destroy a policy once;
use only handles they hold a reference on; and, when stepping past a policy that was destroyed
meanwhile, only if no other policy was destroyed since.  Fewer than 2^32 - 2 references. -/
def Allowed (A : Abs) : Op → Prop
  | .add _ => True
  | .publish h => ∃ q ∈ A.db, q.h = h ∧ q.phase = .fresh
  | .unpublish h => ∃ q ∈ A.db, q.h = h ∧ q.phase = .pub
  | .del h => ∃ q ∈ A.db, q.h = h ∧ q.phase = .unpub
  | .find _ => ∀ h, A.held h + 2 < 2 ^ 32
  | .first => ∀ h, A.held h + 2 < 2 ^ 32
  | .next h => (∀ h, A.held h + 2 < 2 ^ 32) ∧ 0 < A.held h ∧
      ((∃ q ∈ A.db, q.h = h) ∨ ∃ y, A.lastDel = some (h, y))
  | .ref h => 0 < A.held h ∧ A.held h + 2 < 2 ^ 32
  | .unref h => 0 < A.held h
  | .bind h _ _ _ => 0 < A.held h ∧ ∃ q ∈ A.db, q.h = h

/-- What the documentation asks of callers: like `Allowed`, but iteration may step past any policy
the caller holds a reference on ("The returned handle stays valid, even through SP destruction"). -/
def Legal (A : Abs) : Op → Prop
  | .next h => (∀ h, A.held h + 2 < 2 ^ 32) ∧ 0 < A.held h
  | op => Allowed A op

/-- Parameters the library accepts: no port selectors, IPv4, no SA. -/
def Acceptable (p : Param) : Prop := (∀ x ∈ p.sel.ports, x = 0) ∧ p.sel.v4 = true ∧ p.sa = none

/-- What each call must return, for a database with room for `n` policies. -/
def RetOk (n : Nat) (A : Abs) : Op → Ret → Prop
  | .add p, .handle (some h) =>
      Acceptable p ∧ (∀ q ∈ A.db, q.p.id ≠ p.id) ∧ h < n ∧ (∀ q ∈ A.db, q.h ≠ h) ∧ A.held h = 0
  | .add p, .handle none =>
      ¬ Acceptable p ∨ (∃ q ∈ A.db, q.p.id = p.id) ∨
        ∀ h < n, (∃ q ∈ A.db, q.h = h) ∨ 0 < A.held h
  | .find id, r => r = .handle ((A.db.find? fun q => q.p.id = id).map Pol.h)
  | .first, r => r = .handle (A.db.head?.map Pol.h)
  | .next h, .handle r =>
      if ∃ q ∈ A.db, q.h = h then r = follower h (A.db.map Pol.h)
      else A.lastDel = some (h, r)
  | .unpublish _, r => r = .code 0
  | .del _, r => r = .code 0
  | .add _, .code _ => False
  | .next _, .code _ => False
  | _, _ => True

/-- The policy that decides about a packet: in use, right direction and VRF, selectors cover the
packet, smallest priority value, and among equal priorities the one that came into use last. -/
def Decides (A : Abs) (d : Dir) (vrf : Nat) (v : Vals) (q : Pol) : Prop :=
  q ∈ A.db ∧ q.phase = .pub ∧ q.p.dir = d ∧ q.p.vrf = vrf ∧ Covers q.p.sel v ∧
    ∀ r ∈ A.db, r.phase = .pub → r.p.dir = d → r.p.vrf = vrf → Covers r.p.sel v →
      q.p.prio < r.p.prio ∨ (q.p.prio = r.p.prio ∧ r.seq ≤ q.seq)

/-- No policy concerns the packet. -/
def NoneApplies (A : Abs) (d : Dir) (vrf : Nat) (v : Vals) : Prop :=
  ∀ r ∈ A.db, r.phase = .pub → r.p.dir = d → r.p.vrf = vrf → ¬ Covers r.p.sel v

/-- The documented meaning of an address range (include/api/ofp_ipsec.h:422-426): "For ANY address
set first = last = 0". -/
def InRangeDoc (lo hi a : Nat) : Prop := (lo = 0 ∧ hi = 0) ∨ (lo ≤ a ∧ a ≤ hi)

/-- The documented meaning of IPv4 selectors. -/
def CoversDoc (s : Sel) (v : Vals) : Prop :=
  s.v4 = true ∧ InRangeDoc s.srcLo s.srcHi v.src ∧ InRangeDoc s.dstLo s.dstHi v.dst ∧
    (s.proto = 0 ∨ v.proto = s.proto)

/-- The selector values of a packet that carries a complete IPv4 header. -/
def header (b : List Nat) : Vals where
  src := b.getD 12 0 * 2 ^ 24 + b.getD 13 0 * 2 ^ 16 + b.getD 14 0 * 2 ^ 8 + b.getD 15 0
  dst := b.getD 16 0 * 2 ^ 24 + b.getD 17 0 * 2 ^ 16 + b.getD 18 0 * 2 ^ 8 + b.getD 19 0
  proto := b.getD 9 0

/-- Outbound verdict: continue or drop, SA to apply, and whether the caller is left holding the
processing lock (which it must release through `ofp_ipsec_output`). -/
structure Out where
  cont : Bool
  sa : Option Nat
  locked : Bool
deriving DecidableEq, Repr

/-- The right outbound verdict.  No policy or BYPASS: send in clear.  DISCARD: drop.  PROTECT: apply
the bound SA, drop if there is no usable one.  A dropped packet leaves no lock behind. -/
def OutRight (A : Abs) (disabled : Nat → Bool) (vrf : Nat) (v : Vals) (o : Out) : Prop :=
  (NoneApplies A .outb vrf v → o = ⟨true, none, false⟩) ∧
  ∀ q, Decides A .outb vrf v q →
    match q.p.act with
    | .bypass => o = ⟨true, none, false⟩
    | .discard => o.cont = false ∧ o.locked = false
    | .protect =>
      (∃ x, q.sa = some x ∧ disabled x = false ∧ o = ⟨true, some x, true⟩) ∨
      ((∀ x, q.sa = some x → disabled x = true) ∧ o = ⟨false, none, false⟩)

/-- An ICMP error message about a packet (RFC 4301 section 6.2): the IPv4 packet `b` with header
length `4 * ihl` carries ICMP (protocol 1) of an error type, and the header of the packet it is
about, at `4 * ihl + 8`, is covered by the selectors with source and destination exchanged. -/
def IcmpAbout (b : List Nat) (s : Sel) : Prop :=
  let hl := 4 * (b.getD 0 0 % 16)
  let v := header (b.drop (hl + 8))
  b.getD 9 0 = 1 ∧ hl + 8 + 20 ≤ b.length ∧ b.getD hl 0 ∈ [3, 4, 11, 12] ∧
    Covers s ⟨v.dst, v.src, v.proto⟩

end Verif.Ipsec

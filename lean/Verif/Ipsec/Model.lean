import Verif.Ipsec.Spec
/-!
# Model of `src/ofp_ipsec_spd.c` and of the policy part of `src/ofp_ipsec.c`

Policies are cells of one array, linked into three kinds of singly linked lists through two
pointer fields, exactly as in the C code: `next` threads both the database list and the free
list, `nextLk` threads the two lookup lists.  A pointer is an array index, NULL is `none`.
Loops over linked lists carry fuel: `none` means that the loop did not end within the fuel.

Simplifications: every critical section (SPD lock, processing lock) is one atomic step; addresses
are numbers (the conversions ntohl/htonl of lines 283-290 and 222-227 are the identity on the
number denoted by the bytes); the life of SAs (ofp_ipsec_sad.c) is not modelled here, an SA is a
number and `disabled` is an oracle; `odp_packet_l3_ptr` yields the contiguous bytes from the layer
3 offset on.
-/
namespace Verif.Ipsec

/-- `struct ofp_ipsec_sp` (src/ofp_ipsec_spd.c:20-27). -/
structure Cell where
  param : Param
  nextLk : Option Nat
  sa : Option Nat
  ref : Nat
  destroyed : Bool
  next : Option Nat
deriving DecidableEq, Repr

/-- `struct ofp_ipsec_spd` (src/ofp_ipsec_spd.c:29-35), the cell array, and the `ipsec_active`
flag of `struct ofp_ipsec` (include/ofpi_ipsec.h:24). -/
structure St where
  cell : Nat → Cell
  num : Nat
  spList : Option Nat
  outL : Option Nat
  inL : Option Nat
  free : Option Nat
  active : Bool

/-- Array update. -/
def put {α : Type} (f : Nat → α) (i : Nat) (v : α) : Nat → α := fun x => if x = i then v else f x

/-- `sp_free` (src/ofp_ipsec_spd.c:61-65). -/
def spFree (s : St) (a : Nat) : St :=
  { s with
    cell := put s.cell a { s.cell a with next := s.free }
    free := some a }

/-- `sp_alloc` (src/ofp_ipsec_spd.c:49-59). -/
def spAlloc (s : St) : St × Option Nat :=
  match s.free with
  | none => (s, none)
  | some a =>
    ({ s with
       cell := put s.cell a { s.cell a with ref := 1 }
       free := (s.cell a).next }, some a)

/-- `sp_ref` (src/ofp_ipsec_spd.c:67-71); the counter is a `uint32_t`. -/
def spRef (s : St) : Option Nat → St
  | none => s
  | some a => { s with
      cell := put s.cell a { s.cell a with ref := ((s.cell a).ref + 1) % 2 ^ 32 } }

/-- `sp_unref` (src/ofp_ipsec_spd.c:73-77). -/
def spUnref (s : St) (a : Nat) : St :=
  let r := ((s.cell a).ref + 2 ^ 32 - 1) % 2 ^ 32
  let s1 := { s with
    cell := put s.cell a { s.cell a with ref := r } }
  if r = 0 then spFree s1 a else s1

/-- The loop of `ofp_ipsec_spd_init_global` (src/ofp_ipsec_spd.c:137-138). -/
def freeAll (s : St) : Nat → St
  | 0 => s
  | n + 1 => spFree (freeAll s n) n

/-- `ofp_ipsec_spd_init_global` (src/ofp_ipsec_spd.c:114-140), `ipsec_active` (src/ofp_ipsec.c:283).
The cells' other contents are arbitrary (shared memory is not cleared). -/
def init (junk : Nat → Cell) (n : Nat) : St :=
  freeAll ⟨junk, n, none, none, none, none, false⟩ n

/-- A `while (*link)` walk that stops at the first cell satisfying `p`: returns the cell whose link
field points to the stopping place (`none`: the list head) and the stopping place. -/
def walk (nxt : Nat → Option Nat) (p : Nat → Bool) :
    Nat → Option Nat → Option Nat → Option (Option Nat × Option Nat)
  | 0, _, _ => none
  | _ + 1, prev, none => some (prev, none)
  | f + 1, prev, some a => if p a then some (prev, some a) else walk nxt p f (some a) (nxt a)

/-- The database list links. -/
def St.nx (s : St) (a : Nat) : Option Nat := (s.cell a).next

/-- The lookup list links. -/
def St.lk (s : St) (a : Nat) : Option Nat := (s.cell a).nextLk

/-- Fuel for one walk: one more than the number of cells. -/
def St.fuel (s : St) : Nat := s.num + 1

/-- `sp_find_by_id` (src/ofp_ipsec_spd.c:164-175). -/
def findById (s : St) (id : Nat) : Option (Option Nat) :=
  (walk s.nx (fun a => (s.cell a).param.id == id) s.fuel none s.spList).map (·.2)

/-- The checks of `ofp_ipsec_sp_add` that need no list (src/ofp_ipsec_spd.c:258-269, 276-280). -/
def addOk (p : Param) : Bool :=
  p.sel.ports.all (· == 0) && p.sel.v4 && p.sa.isNone

/-- `ofp_ipsec_sp_add`, after the checks (src/ofp_ipsec_spd.c:282-307). -/
def addNew (p : Param) (q : St × Option Nat) : St × Option Nat :=
  match q.2 with
  | none => (q.1, none)
  | some a =>
    (spRef { q.1 with
      cell := put q.1.cell a { q.1.cell a with
        param := p
        destroyed := false
        sa := none
        next := q.1.spList }
      spList := some a } (some a), some a)

/-- `ofp_ipsec_sp_add` (src/ofp_ipsec_spd.c:252-311): first critical section of
`ofp_ipsec_sp_create` (src/ofp_ipsec.c:623-626). -/
def spAdd (s : St) (p : Param) : Option (St × Option Nat) :=
  match findById s p.id with
  | none => none
  | some dup => some (if addOk p && dup.isNone then addNew p (spAlloc s) else (s, none))

/-- Head of a lookup list. -/
def St.head (s : St) : Dir → Option Nat
  | .inb => s.inL
  | .outb => s.outL

/-- `*link = v` for a lookup list (`none`: the link is the list head). -/
def setLk (s : St) (d : Dir) (prev : Option Nat) (v : Option Nat) : St :=
  match prev, d with
  | some a, _ => { s with
      cell := put s.cell a { s.cell a with nextLk := v } }
  | none, .inb => { s with
      inL := v }
  | none, .outb => { s with
      outL := v }

/-- `sp_insert` (src/ofp_ipsec_spd.c:235-245). -/
def spInsert (s : St) (d : Dir) (a : Nat) : Option St :=
  match walk s.lk (fun x => decide ((s.cell x).param.prio ≥ (s.cell a).param.prio)) s.fuel none
      (s.head d) with
  | none => none
  | some w =>
    let s1 := { s with
      cell := put s.cell a { s.cell a with nextLk := w.2 } }
    some (setLk s1 d w.1 (some a))

/-- Second critical section of `ofp_ipsec_sp_create` (src/ofp_ipsec.c:628-636) with
`ofp_ipsec_sp_lookup_add_sp` (src/ofp_ipsec_spd.c:384-390). -/
def publish (s : St) (a : Nat) : Option St :=
  (spInsert s (s.cell a).param.dir a).map fun s1 => { s1 with
    active := true }

/-- `ofp_ipsec_sp_lookup_del_sp` (src/ofp_ipsec_spd.c:392-410).  The test `link == NULL` never
holds, so the function always writes and returns 0. -/
def lookupDel (s : St) (a : Nat) : Option St :=
  match walk s.lk (fun x => x == a) s.fuel none (s.head (s.cell a).param.dir) with
  | none => none
  | some w => some (setLk s (s.cell a).param.dir w.1 (s.cell a).nextLk)

/-- First critical section of `ofp_ipsec_sp_destroy` (src/ofp_ipsec.c:649-664). -/
def unpublish (s : St) (a : Nat) : Option St :=
  (lookupDel { s with
    cell := put s.cell a { s.cell a with sa := none } } a).map fun s1 =>
      { s1 with
        active := if s1.inL.isNone && s1.outL.isNone then false else s1.active }

/-- `*link = v` for the database list. -/
def setNx (s : St) (prev : Option Nat) (v : Option Nat) : St :=
  match prev with
  | some a => { s with
      cell := put s.cell a { s.cell a with next := v } }
  | none => { s with
      spList := v }

/-- `ofp_ipsec_sp_del`, after the walk (src/ofp_ipsec_spd.c:330-336). -/
def delAt (s : St) (a : Nat) (w : Option Nat × Option Nat) : St × Int :=
  match w.2 with
  | none => (s, 1)
  | some _ =>
    let s1 := setNx s w.1 (s.cell a).next
    (spUnref { s1 with
      cell := put s1.cell a { s1.cell a with destroyed := true } } a, 0)

/-- `ofp_ipsec_sp_del` (src/ofp_ipsec_spd.c:313-337): second critical section of
`ofp_ipsec_sp_destroy` (src/ofp_ipsec.c:669-673; a non-zero result becomes -1). -/
def spDel (s : St) (a : Nat) : Option (St × Int) :=
  (walk s.nx (fun x => x == a) s.fuel none s.spList).map (delAt s a)

/-- Result of `ofp_ipsec_sp_destroy` from that of `ofp_ipsec_sp_del` (src/ofp_ipsec.c:670-673). -/
def destroyRet (c : Int) : Ret := .code (if c = 0 then 0 else -1)

/-- `ofp_ipsec_sp_find_by_id` (src/ofp_ipsec_spd.c:177-187). -/
def spFind (s : St) (id : Nat) : Option (St × Option Nat) :=
  (findById s id).map fun r => (spRef s r, r)

/-- `ofp_ipsec_sp_first` (src/ofp_ipsec_spd.c:189-198). -/
def spFirst (s : St) : St × Option Nat := (spRef s s.spList, s.spList)

/-- `ofp_ipsec_sp_next` (src/ofp_ipsec_spd.c:200-210). -/
def spNext (s : St) (a : Nat) : St × Option Nat :=
  (spUnref (spRef s (s.cell a).next) a, (s.cell a).next)

/-- `ofp_ipsec_sp_bind` (src/ofp_ipsec.c:697-725).  For an inbound policy only the SA changes. -/
def spBind (s : St) (a sa : Nat) (saDir : Dir) (saVrf : Nat) : St × Int :=
  if (s.cell a).param.dir ≠ saDir then (s, -1)
  else if (s.cell a).param.vrf ≠ saVrf then (s, -1)
  else if (s.cell a).param.dir = .inb then (s, 0)
  else ({ s with
    cell := put s.cell a { s.cell a with sa := some sa } }, 0)

/-- One call (or half of a create/destroy).  `none`: a loop does not end. -/
def step (s : St) : Op → Option (St × Ret)
  | .add p => (spAdd s p).map fun r => (r.1, .handle r.2)
  | .publish h => (publish s h).map fun r => (r, .code 0)
  | .unpublish h => (unpublish s h).map fun r => (r, .code 0)
  | .del h => (spDel s h).map fun r => (r.1, destroyRet r.2)
  | .find id => (spFind s id).map fun r => (r.1, .handle r.2)
  | .first => some ((spFirst s).1, .handle (spFirst s).2)
  | .next h => some ((spNext s h).1, .handle (spNext s h).2)
  | .ref h => some (spRef s (some h), .code 0)
  | .unref h => some (spUnref s h, .code 0)
  | .bind h sa d v => some ((spBind s h sa d v).1, .code (spBind s h sa d v).2)

/-- `ofp_ipsec_sp_get_info` (src/ofp_ipsec_spd.c:212-229): status (destroyed?) and parameters. -/
def getInfo (s : St) (a : Nat) : Bool × Param := ((s.cell a).destroyed, (s.cell a).param)

/-- A packet: the contiguous bytes from the layer 3 offset on (`none`: no layer 3 pointer). -/
abbrev Pkt := Option (List Nat)

/-- Big-endian 32-bit word at an offset. -/
def be32 (b : List Nat) (o : Nat) : Nat :=
  ((b.getD o 0 * 256 + b.getD (o + 1) 0) * 256 + b.getD (o + 2) 0) * 256 + b.getD (o + 3) 0

/-- `get_selector_values` (src/ofp_ipsec_spd.c:349-366); protocol, source and destination are at
offsets 9, 12 and 16 of the header (include/api/ofp_ip.h). -/
def selVals : Pkt → Vals
  | none => ⟨0, 0, 0⟩
  | some b => if b.length < 20 then ⟨0, 0, 0⟩ else ⟨be32 b 12, be32 b 16, b.getD 9 0⟩

/-- `sel_match` (src/ofp_ipsec_spd.c:368-382). -/
def selMatch (s : Sel) (v : Vals) : Bool :=
  if !s.v4 then false
  else if v.src < s.srcLo || v.src > s.srcHi then false
  else if v.dst < s.dstLo || v.dst > s.dstHi then false
  else if s.proto ≠ 0 && v.proto ≠ s.proto then false
  else true

/-- The search of `sp_lookup` (src/ofp_ipsec_spd.c:417-427). -/
def spLookup (s : St) (fuel : Nat) (d : Dir) (vrf : Nat) (pkt : Pkt) : Option (Option Nat) :=
  (walk s.lk (fun a => (s.cell a).param.vrf == vrf &&
    selMatch (s.cell a).param.sel (selVals pkt)) fuel none (s.head d)).map (·.2)

/-- The action of `sp_lookup` (src/ofp_ipsec_spd.c:428-440). -/
def actionOf (s : St) : Option Nat → Act
  | none => .bypass
  | some a => (s.cell a).param.act

/-- The SA of `sp_lookup` (src/ofp_ipsec_spd.c:429-435), starting from INVALID. -/
def saOf (disabled : Nat → Bool) (s : St) : Option Nat → Option Nat
  | none => none
  | some a =>
    match (s.cell a).sa with
    | none => none
    | some x => if disabled x then none else some x

/-- `ofp_ipsec_inbound_check` (include/ofpi_ipsec.h:123-140): `some true` = continue. -/
def inboundCheck (s : St) (fuel vrf : Nat) (pkt : Pkt) (isOurs espAh done : Bool) : Option Bool :=
  if !s.active then some true
  else if isOurs && espAh then some true
  else if done then some true
  else (spLookup s fuel .inb vrf pkt).map fun r => decide (actionOf s r = .bypass)

/-- `ofp_ipsec_out_lookup` (include/ofpi_ipsec.h:159-174) with `ofp_ipsec_out_lookup_priv`
(src/ofp_ipsec.c:737-748: the read lock is kept when an SA was found). -/
def outOf (disabled : Nat → Bool) (s : St) (r : Option Nat) : Out :=
  let sa := saOf disabled s r
  let locked := sa.isSome
  if actionOf s r = .discard then ⟨false, sa, locked⟩
  else if actionOf s r = .protect && sa.isNone then ⟨false, sa, locked⟩
  else ⟨true, sa, locked⟩

/-- `ofp_ipsec_out_lookup` (include/ofpi_ipsec.h:159-174). -/
def outLookup (disabled : Nat → Bool) (s : St) (fuel vrf : Nat) (pkt : Pkt) : Option Out :=
  if !s.active then some ⟨true, none, false⟩
  else (spLookup s fuel .outb vrf pkt).map (outOf disabled s)

/-- `icmp_match` (src/ofp_ipsec_spd.c:465-499).  Line 480 adds `ip_hl` (a number of 32-bit words) to
a byte pointer; the types are UNREACH 3, SOURCEQUENCH 4, TIMXCEED 11, PARAMPROB 12
(include/api/ofp_icmp.h). -/
def icmpMatch (pkt : Pkt) (sel : Sel) : Bool :=
  match pkt with
  | none => false
  | some b =>
    let hl := b.getD 0 0 % 16
    if b.length < 20 then false
    else if b.getD 9 0 ≠ 1 then false
    else if b.length < hl * 4 + 8 + 20 then false
    else if b.getD hl 0 ∈ [3, 4, 11, 12] then
      let o := hl + 8
      selMatch sel ⟨be32 b (o + 16), be32 b (o + 12), b.getD (o + 9) 0⟩
    else false

/-- `ofp_ipsec_selector_match` (src/ofp_ipsec_spd.c:501-511). -/
def selectorMatch (pkt : Pkt) (sel : Sel) : Bool :=
  if selMatch sel (selVals pkt) then true else icmpMatch pkt sel

/-- One round of `ipsec_sp_flush` (src/ofp_ipsec.c:683-687) for the policy `a`, `vrf` checked. -/
def flushOne (s : St) (vrf a : Nat) : Option (St × Int) :=
  if (s.cell a).param.vrf = vrf then
    (unpublish s a).bind fun s1 => (spDel s1 a).map fun r => (r.1, if r.2 = 0 then 0 else -1)
  else some (s, 0)

/-- The loop of `ipsec_sp_flush` (src/ofp_ipsec.c:682-688); results are or-ed, so 0 iff all are. -/
def flushLoop (vrf : Nat) : Nat → St → Option Nat → Option (St × Bool)
  | 0, _, _ => none
  | _ + 1, s, none => some (s, true)
  | f + 1, s, some a =>
    match flushOne s vrf a with
    | none => none
    | some r =>
      match flushLoop vrf f (spNext r.1 a).1 (spNext r.1 a).2 with
      | none => none
      | some t => some (t.1, t.2 && decide (r.2 = 0))

/-- `ofp_ipsec_sp_flush` (src/ofp_ipsec.c:676-695) run without interference: final state and
whether it returned 0. -/
def flush (s : St) (vrf : Nat) : Option (St × Bool) :=
  flushLoop vrf (s.num + 1) (spFirst s).1 (spFirst s).2

end Verif.Ipsec

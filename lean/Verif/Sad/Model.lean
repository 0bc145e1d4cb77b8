import Verif.Sad.Spec
import Verif.Ipsec.Lemmas
/-!
# Model of `src/ofp_ipsec_sad.c` and of the SA part of `src/ofp_ipsec.c`

SAs are cells of one array, linked through `next` into the database list and the free list, exactly
as in the C code.  A pointer is an array index, NULL is `none`.  The fields of
`struct ofp_ipsec_sa` (src/ofp_ipsec_sad.c:26-35) are separate functions of the index.  Loops over
linked lists carry fuel: `none` means that the loop did not end within the fuel.

Simplifications: every critical section (SAD lock) is one atomic step; `ofp_ipsec_sa_destroy`
is split at its ODP calls (`job` is the program counter of the destroying thread or of the pending
completion event; its barrier on the processing lock has no effect on the SAD); the results of ODP
are inputs and the calls made to ODP are recorded in `log`; parameters that OFP only hands on to
ODP (`create_odp_sa`, lines 178-236) are one opaque number.  `ofp_ipsec_sp_bind` of an outbound
policy is one step here; its three critical sections are separate in `Viol.lean`.
-/
namespace Verif.Sad
open Verif.Ipsec (put walk Chain)

/-- `struct ofp_ipsec_sad` (src/ofp_ipsec_sad.c:18-24), the fields of the cells (26-35), the `sa`
area of every policy (src/ofp_ipsec_spd.c:20-27), the two operation modes
(include/ofpi_ipsec.h), the destroyers' program counters and the calls made to ODP
(newest last). -/
structure St where
  odp : Nat → Nat
  dis : Nat → Bool
  par : Nat → Param
  sel : Nat → Option Nat
  ref : Nat → Nat
  gone : Nat → Bool
  next : Nat → Option Nat
  num : Nat
  list : Option Nat
  free : Option Nat
  slot : Nat → Option Nat
  nsp : Nat
  sync : Dir → Bool
  job : Nat → Option Stage
  log : List OdpCall

/-- `sa_alloc` (src/ofp_ipsec_sad.c:56-66). -/
def saAlloc (s : St) : St × Option Nat :=
  match s.free with
  | none => (s, none)
  | some a => ({ s with
      free := s.next a
      ref := put s.ref a 1 }, some a)

/-- `sa_free` (src/ofp_ipsec_sad.c:68-72). -/
def saFree (s : St) (a : Nat) : St :=
  { s with
    next := put s.next a s.free
    free := some a }

/-- `sa_ref` (src/ofp_ipsec_sad.c:74-78); the counter is a `uint32_t`. -/
def saRef (s : St) : Option Nat → St
  | none => s
  | some a => { s with
      ref := put s.ref a ((s.ref a + 1) % 2 ^ 32) }

/-- `sa_unref` (src/ofp_ipsec_sad.c:80-84). -/
def saUnref (s : St) : Option Nat → St
  | none => s
  | some a =>
    let r := (s.ref a + 2 ^ 32 - 1) % 2 ^ 32
    let s1 := { s with
      ref := put s.ref a r }
    if r = 0 then saFree s1 a else s1

/-- The loop of `ofp_ipsec_sad_init_global` (src/ofp_ipsec_sad.c:136-137). -/
def freeAll (s : St) : Nat → St
  | 0 => s
  | n + 1 => saFree (freeAll s n) n

/-- `ofp_ipsec_sad_init_global` (src/ofp_ipsec_sad.c:112-139).  The cells' contents are arbitrary
(shared memory is not cleared); no policy exists yet, so no policy has an SA. -/
def init (junk : St) : St :=
  freeAll { junk with
    list := none
    free := none
    slot := fun _ => none
    job := fun _ => none
    log := [] } junk.num

/-- Fuel for one walk: one more than the number of cells. -/
def St.fuel (s : St) : Nat := s.num + 1

/-- `sa_find_by_id` (src/ofp_ipsec_sad.c:446-457). -/
def findById (s : St) (id : Nat) : Option (Option Nat) :=
  (walk s.next (fun a => (s.par a).id == id) s.fuel none s.list).map (·.2)

/-- `sa_in_lookup` (src/ofp_ipsec_sad.c:432-444). -/
def inLookup (s : St) (spi : Nat) : Option (Option Nat) :=
  (walk s.next (fun a => (s.par a).dir == .inb && (s.par a).spi == spi) s.fuel none s.list).map
    (·.2)

/-- `sa_init`, the checks (src/ofp_ipsec_sad.c:244-260): may the SA be created? -/
def saOk (s : St) (p : Param) : Option Bool :=
  match findById s p.id, inLookup s p.spi with
  | some a, some b => some (p.ok && a.isNone && !(p.dir == .inb && b.isSome))
  | _, _ => none

/-- `sa_init` after the checks (src/ofp_ipsec_sad.c:262-277); `o` is the result of
`odp_ipsec_sa_create`. -/
def saFill (s : St) (a : Nat) (p : Param) (o : Option Nat) : St × Bool :=
  let s1 := { s with
    par := put s.par a p
    dis := put s.dis a false
    sel := put s.sel a none
    gone := put s.gone a false }
  match o with
  | none => (s1, false)
  | some o => ({ s1 with
      odp := put s1.odp a o
      log := s1.log ++ [.create o]
      next := put s1.next a s1.list
      list := some a }, true)

/-- `ofp_ipsec_sa_create` after the allocation (src/ofp_ipsec_sad.c:297-307). -/
def createAt (s : St) (a : Nat) (p : Param) (o : Option Nat) (ok : Bool) : St × Option Nat :=
  let r := if ok then saFill s a p o else (s, false)
  if r.2 then (saRef r.1 (some a), some a) else (saUnref r.1 (some a), none)

/-- `ofp_ipsec_sa_create` (src/ofp_ipsec_sad.c:285-308). -/
def create (s : St) (p : Param) (o : Option Nat) : Option (St × Option Nat) :=
  match saAlloc s with
  | (s1, none) => some (s1, none)
  | (s1, some a) => (saOk s1 p).map fun ok => createAt s1 a p o ok

/-- `ofp_ipsec_sa_disable`, the critical section (src/ofp_ipsec_sad.c:310-326), first part of
`ofp_ipsec_sa_destroy` (src/ofp_ipsec.c:755-756). -/
def disable (s : St) (a : Nat) : St × Int :=
  if s.dis a then (s, -1)
  else ({ s with
    dis := put s.dis a true
    job := put s.job a (some .odp) }, 0)

/-- The rest of `ofp_ipsec_sa_destroy` up to its last call: `odp_ipsec_sa_disable` is called by
`ofp_ipsec_sa_disable` for inbound SAs (src/ofp_ipsec_sad.c:330-335) and by
`ofp_ipsec_sa_disable_finish` for outbound SAs (340-354), that is, exactly once; then the
operation mode decides what comes next (src/ofp_ipsec.c:765-779). -/
def odpOff (s : St) (a : Nat) (ok : Bool) : St × Int :=
  let calls := (if (s.par a).dir = .inb then [OdpCall.disable (s.odp a)] else []) ++
    (if ¬ (s.par a).dir = .inb then [OdpCall.disable (s.odp a)] else [])
  let s1 := { s with
    log := s.log ++ calls }
  if ok then ({ s1 with
    job := put s1.job a (some (if s.sync (s.par a).dir then .fin else .evt)) }, 0)
  else ({ s1 with
    job := put s1.job a none }, -1)

/-- `handle_sa_disable_completion` (src/ofp_ipsec.c:825-856), `ok`: the status is not negative. -/
def event (s : St) (a : Nat) (ok : Bool) : St × Int :=
  ({ s with
    job := put s.job a (if ok then some .fin else none) }, 0)

/-- `*link = v` for the database list. -/
def setNx (s : St) (prev : Option Nat) (v : Option Nat) : St :=
  match prev with
  | some b => { s with
      next := put s.next b v }
  | none => { s with
      list := v }

/-- `ofp_ipsec_sa_destroy_finish` after the walk (src/ofp_ipsec_sad.c:367-393); `ok`: result of
`odp_ipsec_sa_destroy`. -/
def finishAt (s : St) (a : Nat) (ok : Bool) (w : Option Nat × Option Nat) : St × Int :=
  match w.2 with
  | none => (s, -1)
  | some _ =>
    let s1 := setNx s w.1 (s.next a)
    let s2 := { s1 with
      log := s1.log ++ [.destroy (s1.odp a)] }
    if !ok then (s2, -1)
    else (saUnref { s2 with
      gone := put s2.gone a true } (some a), 0)

/-- `ofp_ipsec_sa_destroy_finish` (src/ofp_ipsec_sad.c:356-394). -/
def finish (s : St) (a : Nat) (ok : Bool) : Option (St × Int) :=
  (walk s.next (fun x => x == a) s.fuel none s.list).map
    (finishAt { s with
      job := put s.job a none } a ok)

/-- The destroyer (or the completion event) takes its next step. -/
def adv (s : St) (a : Nat) (ok : Bool) : Option (St × Int) :=
  match s.job a with
  | none => some (s, 0)
  | some .odp => some (odpOff s a ok)
  | some .evt => some (event s a ok)
  | some .fin => finish s a ok

/-- `ofp_ipsec_sa_find_by_id` (src/ofp_ipsec_sad.c:459-468). -/
def saFind (s : St) (id : Nat) : Option (St × Option Nat) :=
  (findById s id).map fun r => (saRef s r, r)

/-- `ofp_ipsec_sa_first` (src/ofp_ipsec_sad.c:396-405). -/
def saFirst (s : St) : St × Option Nat := (saRef s s.list, s.list)

/-- `ofp_ipsec_sa_next` (src/ofp_ipsec_sad.c:407-417). -/
def saNext (s : St) (a : Nat) : St × Option Nat :=
  (saUnref (saRef s (s.next a)) (some a), s.next a)

/-- `ofp_ipsec_sa_set_selectors` (src/ofp_ipsec_sad.c:485-498). -/
def setSel (s : St) (a x : Nat) : St × Int :=
  if (s.sel a).isSome then (s, -1)
  else ({ s with
    sel := put s.sel a (some x) }, 0)

/-- `ofp_ipsec_sp_bind` for an outbound policy (src/ofp_ipsec.c:717-724). -/
def bind (s : St) (k a : Nat) : St :=
  saRef (saUnref { s with
    slot := put s.slot k (some a) } (s.slot k)) (some a)

/-- `ofp_ipsec_sp_destroy`, what concerns the SA (src/ofp_ipsec.c:651-668). -/
def unbind (s : St) (k : Nat) : St :=
  saUnref { s with
    slot := put s.slot k none } (s.slot k)

/-- `ofp_ipsec_sa_get_info` (src/ofp_ipsec_sad.c:419-430). -/
def info (s : St) (a : Nat) : Status × Param :=
  (if s.gone a then .destroyed else if s.dis a then .disabled else .active, s.par a)

/-- `ofp_ipsec_sa_disabled` (src/ofp_ipsec_sad.c:480-483). -/
def disabled (s : St) : Option Nat → Bool
  | none => true
  | some a => s.dis a

/-- `ofp_ipsec_sa_get_selectors` (src/ofp_ipsec_sad.c:500-505). -/
def getSel (s : St) (a : Nat) : Option Nat := s.sel a

/-- One call, or one step of a destruction (`ofp_ipsec_sa_ref`/`unref`: src/ofp_ipsec_sad.c:86-98).
`none`: a loop does not end. -/
def step (s : St) : Op → Option (St × Ret)
  | .create p o => (create s p o).map fun r => (r.1, .handle r.2)
  | .destroy a => some ((disable s a).1, .code (disable s a).2)
  | .adv a ok => (adv s a ok).map fun r => (r.1, .code r.2)
  | .find id => (saFind s id).map fun r => (r.1, .handle r.2)
  | .first => some ((saFirst s).1, .handle (saFirst s).2)
  | .next a => some ((saNext s a).1, .handle (saNext s a).2)
  | .ref a => some (saRef s (some a), .code 0)
  | .unref a => some (saUnref s (some a), .code 0)
  | .select a x => some ((setSel s a x).1, .code (setSel s a x).2)
  | .bind k a => some (bind s k a, .code 0)
  | .unbind k => some (unbind s k, .code 0)

/-- A history of calls, together with what users know (`absStep`).  `none`: some loop does not
end. -/
def run (s : St) (A : Abs) : List Op → Option (St × Abs)
  | [] => some (s, A)
  | op :: l =>
    match step s op with
    | none => none
    | some (s', r) => run s' (absStep s.sync A op r) l

end Verif.Sad

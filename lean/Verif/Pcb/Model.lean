import Mathlib.Data.List.Basic
/-!
# Model of the protocol control blocks (`src/ofp_in_pcb.c`)

One table (`struct inpcbinfo`, TCP or UDP) of IPv4 control blocks.  Addresses and ports are natural numbers, 0
is `OFP_INADDR_ANY` / no port; ports are kept in host order (the code keeps them in network order and converts
in `ofp_in_pcb_lport` and in the hash).  The two hash functions `INP_PCBHASH` and `INP_PCBPORTHASH` are
parameters.  A control block is known by its number, hash chains are lists of numbers; `OFP_LIST_REMOVE` takes
the block off whatever chain it is linked in.  Locks, `ipi_gencnt` and reference counts are left out: every
function here runs under the hash write lock.  Multicast options (`imo_multicast_ifp`) are part of the
source address oracle `Env.route`.  IPv6 blocks appear only as far as they share the chains (`bind6`).
-/
namespace Verif.Pcb

/-- Socket options and flags that do not change the table (`so_options`, `inp_flags`, `cr_uid`). -/
structure Opts where
  /-- `OFP_SO_REUSEADDR` -/
  reuseaddr : Bool
  /-- `OFP_SO_REUSEPORT` -/
  reuseport : Bool
  /-- `INP_HIGHPORT` -/
  high : Bool
  /-- `INP_LOWPORT` -/
  low : Bool
  /-- `INP_BINDANY` -/
  bindany : Bool
  /-- `inp_cred->cr_uid` -/
  uid : Nat
deriving DecidableEq, Repr

/-- `struct inpcb` (include/ofpi_in_pcb.h). -/
structure Pcb where
  laddr : Nat
  lport : Nat
  faddr : Nat
  fport : Nat
  /-- `INP_INHASHLIST` -/
  inHash : Bool
  /-- `INP_DROPPED` -/
  dropped : Bool
  /-- `INP_TIMEWAIT` -/
  timewait : Bool
  /-- `tw_so_options` of `intotw(t)`: `OFP_SO_REUSEADDR`, `OFP_SO_REUSEPORT`; `none` when the pointer is `NULL` -/
  tw : Option (Bool × Bool)
  /-- `INP_REUSEPORT` in `inp_flags2`.  No function of the code base sets it. -/
  reuse2 : Bool
  /-- `INP_IPV4` in `inp_vflag` -/
  v4 : Bool
  /-- `INP_ANONPORT` -/
  anon : Bool
  opts : Opts
deriving DecidableEq, Repr

/-- `struct inpcbport`: one per local port in use. -/
structure Head where
  port : Nat
  pcbs : List Nat
deriving DecidableEq, Repr

/-- `struct inpcbinfo`. -/
structure Tab where
  pcb : Nat → Option Pcb
  /-- `ipi_hashbase` -/
  hash : Nat → List Nat
  /-- `ipi_porthashbase` -/
  port : Nat → List Head
  /-- `ipi_lasthi` -/
  lastHi : Nat
  /-- `ipi_lastlow` -/
  lastLow : Nat
  /-- `ipi_lastport` -/
  lastPort : Nat
  /-- number of the next block; the zone never runs out -/
  next : Nat

/-- The compile-time and sysctl parameters. -/
structure Cfg where
  /-- `INP_PCBHASH(faddr, lport, fport, mask)` -/
  H : Nat → Nat → Nat → Nat
  /-- `INP_PCBPORTHASH(lport, mask)` -/
  P : Nat → Nat
  hifirst : Nat
  hilast : Nat
  lowfirst : Nat
  lowlast : Nat
  first : Nat
  last : Nat
  /-- `ofp_ipport_randomized` and the table is `ofp_udbinfo` (src/ofp_in_pcb.c:455-458) -/
  random : Bool
  /-- `so_type == OFP_SOCK_STREAM` -/
  stream : Bool

/-- What a call finds outside the table. -/
structure Env where
  /-- the address of the first interface of `ofp_get_ifaddrhead()`, `none` when that list is empty -/
  primary : Option Nat
  /-- `ofp_ifaddr_elem_get(...) != NULL` -/
  isLocal : Nat → Bool
  /-- `OFP_IN_MULTICAST` -/
  mcast : Nat → Bool
  /-- the source address `in_pcbladdr` finds for a destination -/
  route : Nat → Option Nat
  /-- `random()` -/
  rnd : Nat
  /-- `malloc(sizeof(struct inpcbport))` succeeds -/
  mem : Bool

inductive Err where
  | einval | eaddrnotavail | eaddrinuse | eagain | enetunreach | eisconn | enotconn
deriving DecidableEq, Repr

/-- Function update. -/
def upd {α : Type} (f : Nat → α) (i : Nat) (v : α) : Nat → α := fun j => if j = i then v else f j

def Tab.empty : Tab := ⟨fun _ => none, fun _ => [], fun _ => [], 0, 0, 0, 0⟩

def Tab.setPcb (t : Tab) (i : Nat) (p : Pcb) : Tab := { t with pcb := upd t.pcb i (some p) }

/-- `ofp_in_pcballoc` (src/ofp_in_pcb.c:260-296) and the attach functions. -/
def Tab.alloc (t : Tab) (o : Opts) : Tab :=
  { t with
    pcb := upd t.pcb t.next (some ⟨0, 0, 0, 0, false, false, false, none, false, true, false, o⟩)
    next := t.next + 1 }

/-- `ofp_in_pcblookup_local` without `INPLOOKUP_WILDCARD` (src/ofp_in_pcb.c:1200-1226). -/
def lookupLocalExact (c : Cfg) (t : Tab) (laddr lport : Nat) : Option Nat :=
  (t.hash (c.H 0 lport 0)).find? fun i =>
    match t.pcb i with
    | none => false
    | some p => p.v4 && p.faddr == 0 && p.laddr == laddr && p.lport == lport

/-- The cost `wildcard` of a block (src/ofp_in_pcb.c:1247-1277); `none` is `continue`. -/
def wildCost (laddr : Nat) (p : Pcb) : Option Nat :=
  if p.v4 = false then none
  else
    let w := if p.faddr ≠ 0 then 1 else 0
    if p.laddr ≠ 0 then
      if laddr = 0 then some (w + 1)
      else if p.laddr ≠ laddr then none
      else some w
    else if laddr ≠ 0 then some (w + 1)
    else some w

/-- The loop over `phd_pcblist` (src/ofp_in_pcb.c:1246-1283): `match` and `matchwild`. -/
def bestLoop (t : Tab) (laddr : Nat) : List Nat → Option Nat → Nat → Option Nat
  | [], m, _ => m
  | i :: is, m, mw =>
    match t.pcb i with
    | none => bestLoop t laddr is m mw
    | some p =>
      match wildCost laddr p with
      | none => bestLoop t laddr is m mw
      | some w =>
        if w < mw then
          if w = 0 then some i else bestLoop t laddr is (some i) w
        else bestLoop t laddr is m mw

/-- The port head of a port (src/ofp_in_pcb.c:1236-1239). -/
def findHead (c : Cfg) (t : Tab) (lport : Nat) : Option Head :=
  (t.port (c.P lport)).find? fun h => h.port == lport

/-- `ofp_in_pcblookup_local` with `INPLOOKUP_WILDCARD` (src/ofp_in_pcb.c:1226-1287); the bound `matchwild` is
`3 + INP_LOOKUP_MAPPED_PCB_COST` (INET6 build). -/
def lookupLocalWild (c : Cfg) (t : Tab) (laddr lport : Nat) : Option Nat :=
  match findHead c t lport with
  | none => none
  | some h => bestLoop t laddr h.pcbs none 6

/-- `ofp_in_pcblookup_local` (src/ofp_in_pcb.c:1180-1289). -/
def lookupLocal (c : Cfg) (t : Tab) (laddr lport : Nat) (wild : Bool) : Option Nat :=
  if wild then lookupLocalWild c t laddr lport else lookupLocalExact c t laddr lport

/-- The exact match of `in_pcblookup_hash_locked` (src/ofp_in_pcb.c:1406-1428). -/
def lookupExact (c : Cfg) (t : Tab) (faddr fport laddr lport : Nat) : Option Nat :=
  (t.hash (c.H faddr lport fport)).find? fun i =>
    match t.pcb i with
    | none => false
    | some p => p.v4 && p.faddr == faddr && p.laddr == laddr && p.fport == fport && p.lport == lport

/-- The wildcard loop of `in_pcblookup_hash_locked` (src/ofp_in_pcb.c:1452-1496): `local_exact` and
`local_wild`.  The test of `INP_IPV4` is under `#ifdef _INET6`, which no build defines. -/
def wildLoop (t : Tab) (laddr lport : Nat) : List Nat → Option Nat → Option Nat → Option Nat × Option Nat
  | [], e, w => (e, w)
  | i :: is, e, w =>
    match t.pcb i with
    | none => wildLoop t laddr lport is e w
    | some p =>
      if p.faddr ≠ 0 ∨ p.lport ≠ lport then wildLoop t laddr lport is e w
      else if e.isSome then wildLoop t laddr lport is e w
      else if p.laddr = laddr then wildLoop t laddr lport is (some i) w
      else if p.laddr = 0 then wildLoop t laddr lport is e (some i)
      else wildLoop t laddr lport is e w

/-- `in_pcblookup_hash_locked` (src/ofp_in_pcb.c:1385-1512). -/
def lookupHash (c : Cfg) (t : Tab) (faddr fport laddr lport : Nat) (wild : Bool) : Option Nat :=
  match lookupExact c t faddr fport laddr lport with
  | some i => some i
  | none =>
    if wild then
      let r := wildLoop t laddr lport (t.hash (c.H 0 lport 0)) none none
      match r.1 with
      | some i => some i
      | none => r.2
    else none

/-- `OFP_LIST_INSERT_HEAD(&phd->phd_pcblist, inp, inp_portlist)` into the first head of the port; `none` when there
is no such head (src/ofp_in_pcb.c:1333-1353). -/
def addHead (lport i : Nat) : List Head → Option (List Head)
  | [] => none
  | h :: hs =>
    if h.port == lport then some (⟨h.port, i :: h.pcbs⟩ :: hs)
    else (addHead lport i hs).map (h :: ·)

/-- `in_pcbinshash_internal` (src/ofp_in_pcb.c:1295-1357); `none` is `OFP_ENOBUFS`. -/
def inshash (c : Cfg) (e : Env) (t : Tab) (i : Nat) (p : Pcb) : Option Tab :=
  let hb := c.H p.faddr p.lport p.fport
  let pb := c.P p.lport
  let heads :=
    match addHead p.lport i (t.port pb) with
    | some hs => some hs
    | none => if e.mem then some (⟨p.lport, [i]⟩ :: t.port pb) else none
  heads.map fun hs =>
    { t with
      pcb := upd t.pcb i (some { p with inHash := true })
      hash := upd t.hash hb (i :: t.hash hb)
      port := upd t.port pb hs }

/-- `OFP_LIST_REMOVE(inp, inp_hash)`. -/
def unhash (t : Tab) (i : Nat) : Tab := { t with hash := fun b => (t.hash b).erase i }

/-- `OFP_LIST_REMOVE(inp, inp_portlist)`, and the head when its list is empty (src/ofp_in_pcb.c:1085-1089,
1672-1676). -/
def unport (t : Tab) (i : Nat) : Tab :=
  { t with
    port := fun b => (t.port b).filterMap fun h =>
      if i ∈ h.pcbs then (if h.pcbs.erase i = [] then none else some ⟨h.port, h.pcbs.erase i⟩) else some h }

/-- `ofp_in_pcbrehash`, `ofp_in_pcbrehash_mbuf` (src/ofp_in_pcb.c:1588-1653), after the fields of `i` became those
of `p`. -/
def rehash (c : Cfg) (t : Tab) (i : Nat) (p : Pcb) : Tab :=
  let u := unhash t i
  let b := c.H p.faddr p.lport p.fport
  { u with
    pcb := upd u.pcb i (some p)
    hash := upd u.hash b (i :: u.hash b) }

/-- The search loop of `ofp_in_pcb_lport` (src/ofp_in_pcb.c:496-516): `count-- < 0` ends it after
`last - first + 1` turns, the fuel here.  Returns the port, and `*lastport`. -/
def lportLoop (used : Nat → Bool) (first last : Nat) : Nat → Nat → Option Nat × Nat
  | 0, lp => (none, lp)
  | k + 1, lp =>
    let n := (lp + 1) % 65536
    let m := if n < first ∨ n > last then first else n
    if used m then lportLoop used first last k m else (some m, m)

/-- Which range (src/ofp_in_pcb.c:435-447). -/
inductive Range where
  | hi | low | std
deriving DecidableEq, Repr

def rangeOf (o : Opts) : Range := if o.high then .hi else if o.low then .low else .std

def Range.bounds (c : Cfg) : Range → Nat × Nat
  | .hi => (c.hifirst, c.hilast)
  | .low => (c.lowfirst, c.lowlast)
  | .std => (c.first, c.last)

def Tab.lastOf (t : Tab) : Range → Nat
  | .hi => t.lastHi
  | .low => t.lastLow
  | .std => t.lastPort

def Tab.setLast (t : Tab) (r : Range) (v : Nat) : Tab :=
  match r with
  | .hi => { t with lastHi := v }
  | .low => { t with lastLow := v }
  | .std => { t with lastPort := v }

/-- `ofp_in_pcb_lport` (src/ofp_in_pcb.c:411-524). -/
def pcbLport (c : Cfg) (e : Env) (t : Tab) (o : Opts) (laddr : Nat) (wild : Bool) : Except Err Nat × Tab :=
  let r := rangeOf o
  let b := r.bounds c
  let dorandom := c.random && b.1 != b.2
  let first := if b.1 > b.2 then b.2 else b.1
  let last := if b.1 > b.2 then b.1 else b.2
  let lp := if dorandom then (first + e.rnd % (last - first)) % 65536 else t.lastOf r
  let res := lportLoop (fun n => (lookupLocal c t laddr n wild).isSome) first last (last - first + 1) lp
  match res.1 with
  | none => (.error .eaddrnotavail, t.setLast r res.2)
  | some n => (.ok n, t.setLast r res.2)

/-- The test for a socket of another user (src/ofp_in_pcb.c:606-629): a non-multicast address is refused when the
best local match, wildcards included, belongs to somebody else. -/
def foreignConflict (c : Cfg) (e : Env) (t : Tab) (o : Opts) (addr lport : Nat) : Bool :=
  if e.mcast addr then false
  else
    match lookupLocal c t addr lport true with
    | none => false
    | some i =>
      match t.pcb i with
      | none => false
      | some q => !q.timewait && (!c.stream || q.faddr == 0) &&
          (addr != 0 || q.laddr != 0 || !q.reuse2) && o.uid != q.opts.uid

/-- The mask `reuseport` (`OFP_SO_REUSEADDR`, `OFP_SO_REUSEPORT`), src/ofp_in_pcb.c:544-545, 571-580. -/
def reuseMask (e : Env) (o : Opts) (addr : Nat) : Bool × Bool :=
  if e.mcast addr && o.reuseaddr then (true, true) else (false, o.reuseport)

/-- The second test (src/ofp_in_pcb.c:630-650): the block `q` found stands in the way. -/
def blocks (m : Bool × Bool) (q : Pcb) : Bool :=
  if q.timewait then
    match q.tw with
    | none => true
    | some (a, r) => !((m.1 && a) || (m.2 && r))
  else !(m.1 || m.2) || !q.reuse2

/-- The conflict tests of `ofp_in_pcbbind_setup` for an explicit port (src/ofp_in_pcb.c:600-651): `true` is
`OFP_EADDRINUSE`. -/
def bindConflict (c : Cfg) (e : Env) (t : Tab) (o : Opts) (addr lport : Nat) : Bool :=
  if foreignConflict c e t o addr lport then true
  else
    match lookupLocal c t addr lport (!o.reuseaddr && !o.reuseport) with
    | none => false
    | some i =>
      match t.pcb i with
      | none => false
      | some q => blocks (reuseMask e o addr) q

/-- `ofp_in_pcbbind_setup` (src/ofp_in_pcb.c:530-664) for a block without a port; `nam` is the address and port
asked for.  Returns the address and port to use. -/
def bindSetup (c : Cfg) (e : Env) (t : Tab) (o : Opts) (nam : Option (Nat × Nat)) (laddr : Nat) :
    Except Err (Nat × Nat) × Tab :=
  let wild := !o.reuseaddr && !o.reuseport
  if e.primary = none then (.error .eaddrnotavail, t)
  else if nam.isSome ∧ laddr ≠ 0 then (.error .einval, t)
  else
    match nam with
    | none =>
      let r := pcbLport c e t o laddr wild
      (r.1.map fun n => (laddr, n), r.2)
    | some (addr, port) =>
      if e.mcast addr = false ∧ addr ≠ 0 ∧ o.bindany = false ∧ e.isLocal addr = false then
        (.error .eaddrnotavail, t)
      else if port ≠ 0 then
        if bindConflict c e t o addr port then (.error .eaddrinuse, t)
        else (.ok (addr, port), t)
      else
        let r := pcbLport c e t o addr wild
        (r.1.map fun n => (addr, n), r.2)

/-- `anonport`: the caller left the port to the stack (src/ofp_in_pcb.c:308-309). -/
def anonport : Option (Nat × Nat) → Bool
  | none => true
  | some (_, port) => port == 0

/-- `ofp_in_pcbbind` (src/ofp_in_pcb.c:298-323). -/
def pcbbind (c : Cfg) (e : Env) (t : Tab) (i : Nat) (p : Pcb) (nam : Option (Nat × Nat)) :
    Option Err × Tab :=
  if p.lport ≠ 0 ∨ p.laddr ≠ 0 then (some .einval, t)
  else
    let r := bindSetup c e t p.opts nam p.laddr
    match r.1 with
    | .error x => (some x, r.2)
    | .ok (a, n) =>
      match inshash c e r.2 i { p with laddr := a, lport := n } with
      | none => (some .eagain, r.2)
      | some u =>
        if anonport nam then (none, u.setPcb i { p with laddr := a, lport := n, inHash := true, anon := true })
        else (none, u)

/-- `bind` (`tcp_usr_bind`, src/ofp_tcp_usrreq.c:246-281, `udp_bind`, src/ofp_udp_usrreq.c:1288-1301). -/
def apiBind (c : Cfg) (e : Env) (t : Tab) (i : Nat) (nam : Option (Nat × Nat)) : Option Err × Tab :=
  match t.pcb i with
  | none => (some .einval, t)
  | some p =>
    if p.timewait ∨ p.dropped then (some .einval, t)
    else pcbbind c e t i p nam

/-- `ofp_in_pcbconnect_setup` (src/ofp_in_pcb.c:807-905) for a block with local address and port `laddr`, `lport`.
Returns local address, local port, foreign address. -/
def connectSetup (c : Cfg) (e : Env) (t : Tab) (o : Opts) (laddr lport : Nat) (dst dport : Nat) :
    Except Err (Nat × Nat × Nat) × Tab :=
  if dport = 0 then (.error .eaddrnotavail, t)
  else
    let faddr := if dst = 0 then e.primary.getD 0 else dst
    match (if laddr = 0 then e.route faddr else some laddr) with
    | none => (.error .enetunreach, t)
    | some la =>
      if (lookupHash c t faddr dport la lport false).isSome then (.error .eaddrinuse, t)
      else if lport = 0 then
        let r := bindSetup c e t o none la
        (r.1.map fun q => (q.1, q.2, faddr), r.2)
      else (.ok (la, lport, faddr), t)

/-- `ofp_in_pcbconnect` and `ofp_in_pcbconnect_mbuf` (src/ofp_in_pcb.c:672-758). -/
def pcbconnect (c : Cfg) (e : Env) (t : Tab) (i : Nat) (p : Pcb) (dst dport : Nat) : Option Err × Tab :=
  let r := connectSetup c e t p.opts p.laddr p.lport dst dport
  match r.1 with
  | .error x => (some x, r.2)
  | .ok (la, lp, fa) =>
    if p.laddr = 0 ∧ p.lport = 0 then
      match inshash c e r.2 i { p with laddr := la, lport := lp } with
      | none => (some .eagain, r.2)
      | some u =>
        (none, rehash c u i { p with
          laddr := la, lport := lp, faddr := fa, fport := dport, inHash := true, anon := p.anon || p.lport == 0 })
    else
      (none, rehash c r.2 i { p with
        laddr := la, lport := lp, faddr := fa, fport := dport, anon := p.anon || p.lport == 0 })

/-- `connect` on a datagram socket (`udp_connect`, src/ofp_udp_usrreq.c:1320-1349). -/
def udpConnect (c : Cfg) (e : Env) (t : Tab) (i : Nat) (dst dport : Nat) : Option Err × Tab :=
  match t.pcb i with
  | none => (some .einval, t)
  | some p =>
    if p.timewait ∨ p.dropped then (some .einval, t)
    else if p.faddr ≠ 0 then (some .eisconn, t)
    else pcbconnect c e t i p dst dport

/-- `connect` on a stream socket (`tcp_usr_connect`, `tcp_connect`, src/ofp_tcp_usrreq.c:440-480, 1109-1143).  The
socket layer refuses a second `connect`. -/
def tcpConnect (c : Cfg) (e : Env) (t : Tab) (i : Nat) (dst dport : Nat) : Option Err × Tab :=
  match t.pcb i with
  | none => (some .einval, t)
  | some p =>
    if p.timewait ∨ p.dropped then (some .einval, t)
    else if p.faddr ≠ 0 then (some .eisconn, t)
    else
      let b := if p.lport = 0 then pcbbind c e t i p none else (none, t)
      match b.1, b.2.pcb i with
      | some x, _ => (some x, b.2)
      | none, none => (some .einval, b.2)
      | none, some q =>
        let r := connectSetup c e b.2 q.opts q.laddr q.lport dst dport
        match r.1 with
        | .error x => (some x, r.2)
        | .ok (la, _, fa) => (none, rehash c r.2 i { q with laddr := la, faddr := fa, fport := dport })

/-- The local binding of `sendto` on an unconnected datagram socket (`udp_output`, src/ofp_udp_usrreq.c:1005-1092,
without `IP_SENDSRCADDR`).  The address is not committed, only the port.  Also returns the source of the
datagram. -/
def sendto (c : Cfg) (e : Env) (t : Tab) (i : Nat) (dst dport : Nat) : Except Err (Nat × Nat) × Tab :=
  match t.pcb i with
  | none => (.error .einval, t)
  | some p =>
    if p.timewait ∨ p.dropped then (.error .einval, t)
    else if p.faddr ≠ 0 then (.error .eisconn, t)
    else if p.laddr = 0 ∨ p.lport = 0 ∨ dst = 0 then
      let r := connectSetup c e t p.opts p.laddr p.lport dst dport
      match r.1 with
      | .error x => (.error x, r.2)
      | .ok (la, lp, _) =>
        if p.laddr = 0 ∧ p.lport = 0 then
          match inshash c e r.2 i { p with lport := lp } with
          | none => (.error .eagain, r.2)
          | some u => (.ok (la, lp), u.setPcb i { p with lport := lp, inHash := true, anon := true })
        else (.ok (la, lp), r.2)
    else (.ok (p.laddr, p.lport), t)

/-- `udp_disconnect` (src/ofp_udp_usrreq.c:1370-1394): `ofp_in_pcbdisconnect` (src/ofp_in_pcb.c:907-917), then
the local address is forgotten. -/
def disconnect (c : Cfg) (t : Tab) (i : Nat) : Option Err × Tab :=
  match t.pcb i with
  | none => (some .einval, t)
  | some p =>
    if p.faddr = 0 then (some .enotconn, t)
    else if p.timewait ∨ p.dropped then (some .einval, t)
    else (none, (rehash c t i { p with faddr := 0, fport := 0 }).setPcb i { p with faddr := 0, fport := 0, laddr := 0 })

/-- `ofp_in_pcbdrop` (src/ofp_in_pcb.c:1070-1093). -/
def drop (t : Tab) (i : Nat) : Tab :=
  match t.pcb i with
  | none => t
  | some p =>
    if p.inHash then
      (unport (unhash t i) i).setPcb i { p with inHash := false, dropped := true }
    else t.setPcb i { p with dropped := true }

/-- `ofp_in_pcbfree` (src/ofp_in_pcb.c:1017-1054) with `in_pcbremlists` (1658-1682). -/
def free (t : Tab) (i : Nat) : Tab :=
  match t.pcb i with
  | none => t
  | some p =>
    let u := if p.inHash then unport (unhash t i) i else t
    { u with pcb := upd u.pcb i none }

/-- `ofp_tcp_twstart`: the block enters TIME_WAIT (the connected ones do). -/
def timewait (t : Tab) (i : Nat) (tw : Option (Bool × Bool)) : Tab :=
  match t.pcb i with
  | none => t
  | some p => if p.faddr = 0 ∨ p.dropped then t else t.setPcb i { p with timewait := true, tw := tw }

/-- The table part of `syncache_socket` (src/ofp_tcp_syncache.c:575-693): a block for a completed handshake on local
address and port `laddr`, `lport`; on failure the new socket is aborted. -/
def accept (c : Cfg) (e : Env) (t : Tab) (o : Opts) (laddr lport faddr fport : Nat) : Option Err × Tab :=
  let i := t.next
  let t1 := t.alloc o
  match t1.pcb i with
  | none => (some .einval, t1)
  | some p0 =>
    let p := { p0 with laddr := laddr, lport := lport }
    match inshash c e t1 i p with
    | none => (some .eagain, free t1 i)
    | some u =>
      let r := pcbconnect c e u i { p with inHash := true } faddr fport
      match r.1 with
      | none => r
      | some x => (some x, free r.2 i)

/-- `bind` of an IPv6 socket (`ofp_in6_pcbbind`, src/ofp_in6_pcb.c) seen from the IPv4 chains: the block is inserted
with the low 32 bits of its address; `v4` says whether it takes IPv4 traffic (not `IPV6_V6ONLY`, address
`::`).  The IPv6 conflict tests are not modelled. -/
def bind6 (c : Cfg) (e : Env) (t : Tab) (i : Nat) (low port : Nat) (v4 : Bool) : Option Err × Tab :=
  match t.pcb i with
  | none => (some .einval, t)
  | some p =>
    if p.timewait ∨ p.dropped ∨ p.lport ≠ 0 ∨ p.laddr ≠ 0 ∨ port = 0 then (some .einval, t)
    else
      match inshash c e t i { p with laddr := low, lport := port, v4 := v4 } with
      | none => (some .eagain, t)
      | some u => (none, u)

/-- `setsockopt` (`ofp_sosetopt`, `ip_ctloutput`): the flags change, the table does not. -/
def setopt (t : Tab) (i : Nat) (o : Opts) : Tab :=
  match t.pcb i with
  | none => t
  | some p => t.setPcb i { p with opts := { o with uid := p.opts.uid } }

inductive Label where
  | socket (o : Opts)
  | setopt (i : Nat) (o : Opts)
  | bind (e : Env) (i : Nat) (nam : Option (Nat × Nat))
  | udpConnect (e : Env) (i dst dport : Nat)
  | tcpConnect (e : Env) (i dst dport : Nat)
  | sendto (e : Env) (i dst dport : Nat)
  | disconnect (i : Nat)
  | drop (i : Nat)
  | free (i : Nat)
  | timewait (i : Nat) (tw : Option (Bool × Bool))
  | accept (e : Env) (o : Opts) (laddr lport faddr fport : Nat)
  | bind6 (e : Env) (i low port : Nat) (v4 : Bool)

/-- One call. -/
def step (c : Cfg) (t : Tab) : Label → Tab
  | .socket o => t.alloc o
  | .setopt i o => setopt t i o
  | .bind e i nam => (apiBind c e t i nam).2
  | .udpConnect e i d p => (udpConnect c e t i d p).2
  | .tcpConnect e i d p => (tcpConnect c e t i d p).2
  | .sendto e i d p => (sendto c e t i d p).2
  | .disconnect i => (disconnect c t i).2
  | .drop i => drop t i
  | .free i => free t i
  | .timewait i tw => timewait t i tw
  | .accept e o la lp fa fp => (accept c e t o la lp fa fp).2
  | .bind6 e i low port v4 => (bind6 c e t i low port v4).2

/-- A history. -/
def run (c : Cfg) (t : Tab) : List Label → Tab
  | [] => t
  | l :: ls => run c (step c t l) ls

end Verif.Pcb

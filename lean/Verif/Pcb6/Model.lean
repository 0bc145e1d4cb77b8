import Verif.Pcb.Props
/-!
# Model of the IPv6 protocol control blocks (`src/ofp_in6_pcb.c`)

One table (`struct inpcbinfo`) holds the blocks of IPv4 and of IPv6 sockets.  In `struct inpcb` an IPv4 address is the
last word of the IPv6 address (`struct in_addr_4in6`, include/ofpi_in_pcb.h), so the table here is the one of
`Verif.Pcb` (the last words, the ports, the chains) together with, for each block, the words before and the flags of
IPv6.  The IPv4 functions are those of `Verif.Pcb`: they do not touch the other words.

Locks and reference counts are left out: every function runs under the hash write lock.  Scopes and flow labels
are left out, credentials are `NULL` as in src/ofp_syscalls.c:51, :99, :125, :156, :217.  `INP_ANONPORT` is set only on
success here; nothing reads it.
-/
namespace Verif.Pcb6
open Verif.Pcb

/-- An IPv6 address: the first three words, and the last one, which is where an IPv4 address is kept. -/
structure A6 where
  hi : Nat
  lo : Nat
deriving DecidableEq, Repr

/-- `in6addr_any` -/
def any6 : A6 := ⟨0, 0⟩

/-- `OFP_IN6_IS_ADDR_V4MAPPED` (include/api/ofp_in6.h): `::ffff:a.b.c.d`. -/
def A6.mapped (a : A6) : Bool := a.hi == 0xffff

/-- `OFP_IN6_IS_ADDR_MULTICAST`: the first byte is `ff`. -/
def A6.mcast (a : A6) : Bool := a.hi / 2 ^ 88 == 0xff

/-- `OFP_IN6_IS_ADDR_LOOPBACK` -/
def A6.loop (a : A6) : Bool := a == ⟨0, 1⟩

/-- The part of `struct inpcb` that only IPv6 uses. -/
structure X where
  /-- first three words of `in6p_laddr` -/
  lhi : Nat
  /-- first three words of `in6p_faddr` -/
  fhi : Nat
  /-- `INP_IPV6` in `inp_vflag` -/
  v6 : Bool
  /-- `INP_IPV6PROTO` in `inp_vflag`: the socket was created with `OFP_AF_INET6` -/
  proto6 : Bool
  /-- `IN6P_IPV6_V6ONLY` in `inp_flags`: the value of `ip6_v6only` (src/ofp_in6_proto.c:272, 1 unless changed) when the
  socket was created -/
  v6only : Bool
deriving DecidableEq, Repr

/-- The table of both families. -/
structure Tab6 where
  base : Tab
  x : Nat → X

/-- The empty table. -/
def Tab6.empty : Tab6 := ⟨Tab.empty, fun _ => ⟨0, 0, false, false, false⟩⟩

/-- `in6p_laddr` -/
def la6 (x : X) (p : Pcb) : A6 := ⟨x.lhi, p.laddr⟩
/-- `in6p_faddr` -/
def fa6 (x : X) (p : Pcb) : A6 := ⟨x.fhi, p.faddr⟩

/-- What a call finds outside the table. -/
structure Env6 where
  e4 : Env
  /-- the address of the first interface of `ofp_get_ifaddr6head()`, `none` when that list is empty -/
  primary : Option A6
  /-- `ofp_ifaddr6_elem_get(...) != NULL` -/
  isLocal : A6 → Bool
  /-- the address of the outgoing interface in `ofp_in6_selectsrc` (src/ofp_in6.c:197-211) -/
  route : A6 → Option A6

/-- Error numbers. -/
inductive E6 where
  | e (x : Err)
  | ehostunreach
  | eafnosupport
deriving DecidableEq, Repr

/-- `ofp_in6_pcblookup_local` without `INPLOOKUP_WILDCARD` (src/ofp_in6_pcb.c:698-724). -/
def lookupLocalExact6 (c : Cfg) (t : Tab6) (la : A6) (lport : Nat) : Option Nat :=
  (t.base.hash (c.H 0 lport 0)).find? fun i =>
    match t.base.pcb i with
    | none => false
    | some p => (t.x i).v6 && fa6 (t.x i) p == any6 && la6 (t.x i) p == la && p.lport == lport

/-- The cost `wildcard` of a block (src/ofp_in6_pcb.c:746-766); `none` is `continue`. -/
def wildCost6 (la : A6) (x : X) (p : Pcb) : Option Nat :=
  if x.v6 = false then none
  else
    let w := if fa6 x p ≠ any6 then 1 else 0
    if la6 x p ≠ any6 then
      if la = any6 then some (w + 1)
      else if la6 x p ≠ la then none
      else some w
    else if la ≠ any6 then some (w + 1)
    else some w

/-- The loop over `phd_pcblist` (src/ofp_in6_pcb.c:745-773). -/
def bestLoop6 (t : Tab6) (la : A6) : List Nat → Option Nat → Nat → Option Nat
  | [], m, _ => m
  | i :: is, m, mw =>
    match t.base.pcb i with
    | none => bestLoop6 t la is m mw
    | some p =>
      match wildCost6 la (t.x i) p with
      | none => bestLoop6 t la is m mw
      | some w =>
        if w < mw then
          if w = 0 then some i else bestLoop6 t la is (some i) w
        else bestLoop6 t la is m mw

/-- `ofp_in6_pcblookup_local` (src/ofp_in6_pcb.c:685-778). -/
def lookupLocal6 (c : Cfg) (t : Tab6) (la : A6) (lport : Nat) (wild : Bool) : Option Nat :=
  if wild then
    match findHead c t.base lport with
    | none => none
    | some h => bestLoop6 t la h.pcbs none 3
  else lookupLocalExact6 c t la lport

/-- The exact match of `ofp_in6_pcblookup_hash_locked` (src/ofp_in6_pcb.c:1113-1136). -/
def lookupExact6 (c : Cfg) (t : Tab6) (fa : A6) (fport : Nat) (la : A6) (lport : Nat) : Option Nat :=
  (t.base.hash (c.H fa.lo lport fport)).find? fun i =>
    match t.base.pcb i with
    | none => false
    | some p => (t.x i).v6 && fa6 (t.x i) p == fa && la6 (t.x i) p == la && p.fport == fport && p.lport == lport

/-- The wildcard loop of `ofp_in6_pcblookup_hash_locked` (src/ofp_in6_pcb.c:1156-1193): `local_exact` and
`local_wild`; later blocks replace earlier ones. -/
def wildLoop6 (t : Tab6) (la : A6) (lport : Nat) :
    List Nat → Option Nat → Option Nat → Option Nat × Option Nat
  | [], e, w => (e, w)
  | i :: is, e, w =>
    match t.base.pcb i with
    | none => wildLoop6 t la lport is e w
    | some p =>
      if (t.x i).v6 = false ∨ fa6 (t.x i) p ≠ any6 ∨ p.lport ≠ lport then wildLoop6 t la lport is e w
      else if la6 (t.x i) p = la then wildLoop6 t la lport is (some i) w
      else if la6 (t.x i) p = any6 then wildLoop6 t la lport is e (some i)
      else wildLoop6 t la lport is e w

/-- `ofp_in6_pcblookup_hash_locked` (src/ofp_in6_pcb.c:1094-1207). -/
def lookupHash6 (c : Cfg) (t : Tab6) (fa : A6) (fport : Nat) (la : A6) (lport : Nat) (wild : Bool) :
    Option Nat :=
  match lookupExact6 c t fa fport la lport with
  | some i => some i
  | none =>
    if wild then
      let r := wildLoop6 t la lport (t.base.hash (c.H 0 lport 0)) none none
      match r.1 with
      | some i => some i
      | none => r.2
    else none

/-- `ofp_in_pcb_lport` for a block with `INP_IPV6` (src/ofp_in_pcb.c:411-524). -/
def pcbLport6 (c : Cfg) (e : Env6) (t : Tab6) (o : Opts) (la : A6) (wild : Bool) : Option Nat × Tab6 :=
  let r := rangeOf o
  let b := r.bounds c
  let dorandom := c.random && b.1 != b.2
  let first := if b.1 > b.2 then b.2 else b.1
  let last := if b.1 > b.2 then b.1 else b.2
  let lp := if dorandom then (first + e.e4.rnd % (last - first)) % 65536 else t.base.lastOf r
  let res := lportLoop (fun n => (lookupLocal6 c t la n wild).isSome) first last (last - first + 1) lp
  (res.1, { t with base := t.base.setLast r res.2 })

/-- Store the fields of a block. -/
def Tab6.setX (t : Tab6) (i : Nat) (x : X) : Tab6 := { t with x := upd t.x i x }

/-- Insertion of block `i` with local address `la` and port `lport` (`ofp_in_pcbinshash`). -/
def ins6 (c : Cfg) (e : Env6) (t : Tab6) (i : Nat) (p : Pcb) (la : A6) (lport : Nat) : Option Tab6 :=
  (inshash c e.e4 t.base i { p with laddr := la.lo, lport := lport }).map fun b =>
    ⟨b, upd t.x i { t.x i with lhi := la.hi }⟩

/-- `ofp_in6_pcbsetport` (src/ofp_in6_pcb.c:1047-1089) for a block whose local address has become `la`; on failure the
callers put the address back to `::`. -/
def setport6 (c : Cfg) (e : Env6) (t : Tab6) (i : Nat) (p : Pcb) (la : A6) : Option E6 × Tab6 :=
  let r := pcbLport6 c e t p.opts la (!p.opts.reuseaddr && !p.opts.reuseport)
  match r.1 with
  | none => (some (.e .eaddrnotavail), r.2)
  | some n =>
    match ins6 c e r.2 i { p with anon := true } la n with
    | none => (some (.e .eagain), r.2)
    | some u => (none, u)

/-- The mask `reuseport` (src/ofp_in6_pcb.c:134, :181-190). -/
def reuseMask6 (o : Opts) (a : A6) : Bool × Bool :=
  if a.mcast && o.reuseaddr then (true, true) else (false, o.reuseport)

/-- The test against IPv4 blocks for `::` without `IPV6_V6ONLY` (src/ofp_in6_pcb.c:287-312): the block `q` found stands
in the way. -/
def blocks4 (m : Bool × Bool) (x xq : X) (q : Pcb) : Bool :=
  if q.timewait then
    match q.tw with
    | none => true
    | some (a, r) => !((m.1 && a) || (m.2 && r)) && (q.laddr != 0 || x.proto6 == xq.proto6)
  else (!(m.1 || m.2) || !q.reuse2) && (q.laddr != 0 || xq.proto6)

/-- The conflict tests of `ofp_in6_pcbbind` for an explicit port (src/ofp_in6_pcb.c:266-313). -/
def conflict6 (c : Cfg) (t : Tab6) (o : Opts) (x : X) (a : A6) (lport : Nat) : Bool :=
  let wild := !o.reuseaddr && !o.reuseport
  let one := match lookupLocal6 c t a lport wild with
    | none => false
    | some i =>
      match t.base.pcb i with
      | none => false
      | some q => blocks (reuseMask6 o a) q
  let two := if x.v6only = false ∧ a = any6 then
      match lookupLocal c t.base 0 lport wild with
      | none => false
      | some i =>
        match t.base.pcb i with
        | none => false
        | some q => blocks4 (reuseMask6 o a) x (t.x i) q
    else false
  one || two

/-- `ofp_in6_pcbbind` (src/ofp_in6_pcb.c:124-335).  `nam` is address and port asked for.  The third component is the port
in the caller's structure afterwards (src/ofp_in6_pcb.c:194). -/
def pcbbind6 (c : Cfg) (e : Env6) (t : Tab6) (i : Nat) (p : Pcb) (nam : Option (A6 × Nat)) :
    Option E6 × Tab6 × Nat :=
  let given := (nam.map (·.2)).getD 0
  if e.primary = none then (some (.e .eaddrnotavail), t, given)
  else if p.lport ≠ 0 ∨ la6 (t.x i) p ≠ any6 then (some (.e .einval), t, given)
  else
    match nam with
    | none =>
      let r := setport6 c e t i p (la6 (t.x i) p)
      (r.1, r.2, given)
    | some (a, port) =>
      let after := if a.mcast = false ∧ a ≠ any6 then 0 else port
      if a.mcast = false ∧ a ≠ any6 ∧ p.opts.bindany = false ∧ e.isLocal a = false then
        (some (.e .eaddrnotavail), t, after)
      else if port ≠ 0 then
        if conflict6 c t p.opts (t.x i) a port then (some (.e .eaddrinuse), t, after)
        else
          match ins6 c e t i p a port with
          | none => (some (.e .eagain), t, after)
          | some u => (none, u, after)
      else
        let r := setport6 c e t i p a
        (r.1, r.2, after)

/-- Set the family flags of a block. -/
def setFam (t : Tab6) (i : Nat) (p : Pcb) (v4 v6 : Bool) : Tab6 :=
  ⟨t.base.setPcb i { p with v4 := v4 }, upd t.x i { t.x i with v6 := v6 }⟩

/-- `bind` of an IPv6 socket: `udp6_bind` (src/ofp_udp6_usrreq.c:949-987), `tcp6_usr_bind`
(src/ofp_tcp_usrreq.c:287-341, which also refuses multicast addresses).  A mapped address is bound by the IPv4
function; its exemption for two sockets bound to `::ffff:0.0.0.0` (src/ofp_in_pcb.c:638-646) is not modelled. -/
def bind6 (c : Cfg) (e : Env6) (t : Tab6) (i : Nat) (a : A6) (port : Nat) : Option E6 × Tab6 × Nat :=
  match t.base.pcb i with
  | none => (some (.e .einval), t, port)
  | some p =>
    if c.stream ∧ a.mcast then (some .eafnosupport, t, port)
    else if p.timewait ∨ p.dropped then (some (.e .einval), t, port)
    else if (t.x i).v6only = false ∧ a.mapped then
      let t1 := setFam t i p true false
      let r := pcbbind c e.e4 t1.base i { p with v4 := true } (some (a.lo, port))
      (r.1.map .e, { t1 with base := r.2 }, port)
    else
      let v4 := !(t.x i).v6only && a == any6
      let t1 := setFam t i p v4 true
      pcbbind6 c e t1 i { p with v4 := v4 } (some (a, port))

/-- `ofp_in6_selectsrc` without interface (src/ofp_in6.c:155-212). -/
def selectSrc (e : Env6) (la dst : A6) : Option A6 :=
  if la ≠ any6 then some la else if dst.loop then some dst else e.route dst

/-- The destination after `ofp_in6_pcbladdr` (src/ofp_in6_pcb.c:379-388): `::` is replaced, in the structure of the
caller, by the address of the first interface. -/
def realDst (e : Env6) (dst : A6) : A6 := if dst = any6 then e.primary.getD any6 else dst

/-- `ofp_in6_pcbladdr` (src/ofp_in6_pcb.c:350-423). -/
def pcbladdr6 (e : Env6) (la dst : A6) (dport : Nat) : Except E6 A6 :=
  if dport = 0 then .error (.e .eaddrnotavail)
  else match selectSrc e la (realDst e dst) with
    | none => .error .ehostunreach
    | some s => .ok s

/-- Connect block `i`, which is on the chains (src/ofp_in6_pcb.c:465-476, src/ofp_tcp_usrreq.c:1209-1221). -/
def conn6 (c : Cfg) (t : Tab6) (i : Nat) (p : Pcb) (la fa : A6) (fport : Nat) : Tab6 :=
  ⟨rehash c t.base i { p with laddr := la.lo, faddr := fa.lo, fport := fport },
    upd t.x i { t.x i with lhi := la.hi, fhi := fa.hi }⟩

/-- `ofp_in6_pcbconnect`, `ofp_in6_pcbconnect_mbuf` (src/ofp_in6_pcb.c:432-487). -/
def pcbconnect6 (c : Cfg) (e : Env6) (t : Tab6) (i : Nat) (p : Pcb) (dst : A6) (dport : Nat) :
    Option E6 × Tab6 :=
  match pcbladdr6 e (la6 (t.x i) p) dst dport with
  | .error x => (some x, t)
  | .ok s =>
    let fa := realDst e dst
    let la := if la6 (t.x i) p = any6 then s else la6 (t.x i) p
    if (lookupHash6 c t fa dport la p.lport false).isSome then (some (.e .eaddrinuse), t)
    else if la6 (t.x i) p = any6 ∧ p.lport = 0 then
      let r := pcbbind6 c e t i p none
      match r.1 with
      | some x => (some x, r.2.1)
      | none =>
        match r.2.1.base.pcb i with
        | none => (some (.e .einval), r.2.1)
        | some q => (none, conn6 c r.2.1 i q la fa dport)
    else (none, conn6 c t i p la fa dport)

/-- `connect` of an IPv6 datagram socket: `udp6_connect` (src/ofp_udp6_usrreq.c:1012-1080).  (Datagram blocks are never
dropped and never wait; the first test keeps the function off stream blocks.) -/
def udpConnect6 (c : Cfg) (e : Env6) (t : Tab6) (i : Nat) (dst : A6) (dport : Nat) : Option E6 × Tab6 :=
  match t.base.pcb i with
  | none => (some (.e .einval), t)
  | some p =>
    if p.timewait ∨ p.dropped then (some (.e .einval), t)
    else if dst.mapped then
      if (t.x i).v6only then (some (.e .einval), t)
      else if p.faddr ≠ 0 then (some (.e .eisconn), t)
      else
        let t1 := setFam t i p true false
        let r := pcbconnect c e.e4 t1.base i { p with v4 := true } dst.lo dport
        (r.1.map .e, { t1 with base := r.2 })
    else if fa6 (t.x i) p ≠ any6 then (some (.e .eisconn), t)
    else
      let t1 := setFam t i p false true
      pcbconnect6 c e t1 i { p with v4 := false } dst dport

/-- `connect` of an IPv6 stream socket, without mapped addresses: `tcp6_usr_connect`, `tcp6_connect`
(src/ofp_tcp_usrreq.c:484-560, :1171-1240).  The socket layer refuses a second `connect`. -/
def tcpConnect6 (c : Cfg) (e : Env6) (t : Tab6) (i : Nat) (dst : A6) (dport : Nat) : Option E6 × Tab6 :=
  match t.base.pcb i with
  | none => (some (.e .einval), t)
  | some p =>
    if dst.mcast then (some .eafnosupport, t)
    else if p.timewait ∨ p.dropped then (some (.e .einval), t)
    else if fa6 (t.x i) p ≠ any6 ∨ dst.mapped then (some (.e .eisconn), t)
    else
      let t1 := setFam t i p false true
      let b := if p.lport = 0 then pcbbind6 c e t1 i { p with v4 := false } none else (none, t1, 0)
      match b.1, b.2.1.base.pcb i with
      | some x, _ => (some x, b.2.1)
      | none, none => (some (.e .einval), b.2.1)
      | none, some q =>
        let u := b.2.1
        match pcbladdr6 e (la6 (u.x i) q) dst dport with
        | .error x => (some x, u)
        | .ok s =>
          let fa := realDst e dst
          let la := if la6 (u.x i) q = any6 then s else la6 (u.x i) q
          if (lookupHash6 c u fa dport la q.lport false).isSome then (some (.e .eaddrinuse), u)
          else (none, conn6 c u i q la fa dport)

/-- `listen` on an IPv6 stream socket (`tcp6_usr_listen`, src/ofp_tcp_usrreq.c:386-429): an unbound one is bound to `::`
and a port of the stack's choice. -/
def listen6 (c : Cfg) (e : Env6) (t : Tab6) (i : Nat) : Option E6 × Tab6 :=
  match t.base.pcb i with
  | none => (some (.e .einval), t)
  | some p =>
    if p.timewait ∨ p.dropped then (some (.e .einval), t)
    else if p.lport = 0 then
      let v4 := !(t.x i).v6only
      let r := pcbbind6 c e (setFam t i p v4 (t.x i).v6) i { p with v4 := v4 } none
      (r.1, r.2.1)
    else (none, t)

/-- The local binding of `sendto` on an IPv6 datagram socket (`udp6_send`, `udp6_output`,
src/ofp_udp6_usrreq.c:1130-1204, :627-767).  Also returns source and destination of the datagram, and whether the
structure of the caller was overwritten by an IPv4 one (src/ofp_udp6_usrreq.c:1184-1185). -/
def sendto6 (c : Cfg) (e : Env6) (t : Tab6) (i : Nat) (dst : A6) (dport : Nat) :
    Except E6 (A6 × Nat × A6) × Tab6 × Bool :=
  match t.base.pcb i with
  | none => (.error (.e .einval), t, false)
  | some p =>
    if p.timewait ∨ p.dropped then (.error (.e .einval), t, false)
    else if (t.x i).v6only = false ∧ dst.mapped then
      let r := sendto c e.e4 t.base i dst.lo dport
      (match r.1 with
        | .error x => .error (.e x)
        | .ok (a, n) => .ok (⟨0xffff, a⟩, n, dst), { t with base := r.2 }, true)
    else if dport = 0 then (.error (.e .eaddrnotavail), t, false)
    else if fa6 (t.x i) p ≠ any6 then (.error (.e .eisconn), t, false)
    else if dst.mapped then (.error (.e .einval), t, false)
    else
      match (if dst = any6 then e.primary else selectSrc e (la6 (t.x i) p) dst) with
      | none => (.error .ehostunreach, t, false)
      | some s =>
        let fa := if dst = any6 then s else dst
        if p.lport = 0 then
          let r := setport6 c e t i p (la6 (t.x i) p)
          match r.1, r.2.base.pcb i with
          | some x, _ => (.error x, r.2, false)
          | none, none => (.error (.e .einval), r.2, false)
          | none, some q => (.ok (s, q.lport, fa), r.2, false)
        else (.ok (s, p.lport, fa), t, false)

/-- `udp6_disconnect` (src/ofp_udp6_usrreq.c:1101-1134): with `INP_IPV4` the IPv4 function, whose result is
thrown away. -/
def disconnect6 (c : Cfg) (t : Tab6) (i : Nat) : Option E6 × Tab6 :=
  match t.base.pcb i with
  | none => (some (.e .einval), t)
  | some p =>
    if p.timewait ∨ p.dropped then (some (.e .einval), t)
    else if p.v4 then (none, { t with base := (disconnect c t.base i).2 })
    else if fa6 (t.x i) p = any6 then (some (.e .enotconn), t)
    else
      (none, ⟨(rehash c t.base i { p with faddr := 0, fport := 0 }).setPcb i
          { p with faddr := 0, fport := 0, laddr := 0 },
        upd t.x i { t.x i with lhi := 0, fhi := 0 }⟩)

/-- Creation of an IPv6 socket: `ofp_in_pcballoc` (src/ofp_in_pcb.c:260-296), `udp6_attach`
(src/ofp_udp6_usrreq.c:888-947). -/
def socket6 (t : Tab6) (o : Opts) (v6only : Bool) : Tab6 :=
  let t1 := t.base.alloc o
  match t1.pcb t.base.next with
  | none => ⟨t1, t.x⟩
  | some p => ⟨t1.setPcb t.base.next { p with v4 := !v6only }, upd t.x t.base.next ⟨0, 0, true, true, v6only⟩⟩

/-- The table part of `syncache_socket` (src/ofp_tcp_syncache.c:575-660) for a completed IPv6 handshake.  The
family flags stay those of a new socket. -/
def accept6 (c : Cfg) (e : Env6) (t : Tab6) (o : Opts) (v6only : Bool) (la : A6) (lport : Nat) (fa : A6)
    (fport : Nat) : Option E6 × Tab6 :=
  let i := t.base.next
  let t1 := socket6 t o v6only
  match t1.base.pcb i with
  | none => (some (.e .einval), t1)
  | some p =>
    match ins6 c e t1 i p la lport with
    | none => (some (.e .eagain), { t1 with base := free t1.base i })
    | some u =>
      let r := pcbconnect6 c e u i { p with laddr := la.lo, lport := lport, inHash := true } fa fport
      match r.1 with
      | none => r
      | some x => (some x, { r.2 with base := free r.2.base i })

/-- A completed IPv4 handshake on an IPv6 socket (src/ofp_tcp_syncache.c:590-596, :661-693). -/
def accept4 (c : Cfg) (e : Env6) (t : Tab6) (o : Opts) (v6only : Bool) (la lport fa fport : Nat) :
    Option E6 × Tab6 :=
  let r := accept c e.e4 t.base o la lport fa fport
  (r.1.map .e, ⟨r.2, upd t.x t.base.next ⟨0, 0, false, true, v6only⟩⟩)

/-- A call. -/
inductive Label where
  /-- creation of an IPv6 socket -/
  | socket6 (o : Opts) (v6only : Bool)
  | bind6 (e : Env6) (i : Nat) (a : A6) (port : Nat)
  | udpConnect6 (e : Env6) (i : Nat) (dst : A6) (dport : Nat)
  | tcpConnect6 (e : Env6) (i : Nat) (dst : A6) (dport : Nat)
  | listen6 (e : Env6) (i : Nat)
  | sendto6 (e : Env6) (i : Nat) (dst : A6) (dport : Nat)
  | disconnect6 (i : Nat)
  | accept6 (e : Env6) (o : Opts) (v6only : Bool) (la : A6) (lport : Nat) (fa : A6) (fport : Nat)
  | accept4 (e : Env6) (o : Opts) (v6only : Bool) (la lport fa fport : Nat)
  /-- a call on an IPv4 socket, or one that does not depend on the family (`setopt`, `drop`, `free`,
  `timewait`) -/
  | v4 (l : Pcb.Label)

/-- One call. -/
def step (c : Cfg) (t : Tab6) : Label → Tab6
  | .socket6 o v => socket6 t o v
  | .bind6 e i a n => (bind6 c e t i a n).2.1
  | .udpConnect6 e i d n => (udpConnect6 c e t i d n).2
  | .tcpConnect6 e i d n => (tcpConnect6 c e t i d n).2
  | .listen6 e i => (listen6 c e t i).2
  | .sendto6 e i d n => (sendto6 c e t i d n).2.1
  | .disconnect6 i => (disconnect6 c t i).2
  | .accept6 e o v la lp fa fp => (accept6 c e t o v la lp fa fp).2
  | .accept4 e o v la lp fa fp => (accept4 c e t o v la lp fa fp).2
  | .v4 l => { t with base := Pcb.step c t.base l }

/-- A history. -/
def run (c : Cfg) (t : Tab6) (ls : List Label) : Tab6 := ls.foldl (step c) t

end Verif.Pcb6

import Verif.Sysctl.Values
/-!
# Model of socket options (`src/ofp_uipc_socket.c`, `src/ofp_syscalls.c`, and the handlers of TCP, UDP and IP)

Values are byte strings in little-endian order.  Calls on one socket are atomic.
-/
namespace Verif.Sockopt
open Verif.Sysctl (ofInt toInt)

/-- Error numbers; `other`: what the multicast options give (module `Mcast`). -/
inductive Err where
  | inval | noprotoopt | opnotsupp | nobufs | dom | other (n : Nat)
deriving DecidableEq, Repr

/-- Options that are one bit of `so_options` (include/api/ofp_socket.h:101-116). -/
inductive Flag where
  | debug | acceptconn | reuseaddr | keepalive | dontroute | broadcast | useloopback | oobinline | reuseport | timestamp
  | nosigpipe | bintime | noOffload | noDdp
deriving DecidableEq, Repr

/-- The bit (include/api/ofp_socket.h:101-116). -/
def Flag.mask : Flag → Nat
  | .debug => 0x1 | .acceptconn => 0x2 | .reuseaddr => 0x4 | .keepalive => 0x8 | .dontroute => 0x10 | .broadcast => 0x20
  | .useloopback => 0x40 | .oobinline => 0x100 | .reuseport => 0x200 | .timestamp => 0x400 | .nosigpipe => 0x800
  | .bintime => 0x2000 | .noOffload => 0x4000 | .noDdp => 0x8000

/-- Options of the level `OFP_SOL_SOCKET` (include/api/ofp_socket.h:101-142).  `unsupported`: `OFP_SO_ACCEPTFILTER`,
`OFP_SO_L2INFO`, `OFP_SO_LABEL`; `noset`: `OFP_SO_ALTFIB`, `OFP_SO_PASSIVE`, `OFP_SO_PROMISC`; `noget`: `OFP_SO_PEERLABEL`. -/
inductive Opt where
  | flag (f : Flag)
  | linger | setfib | cookie | sndbuf | rcvbuf | sndlowat | rcvlowat | sndtimeo | rcvtimeo
  | type | protocol | error | qlimit | qlen | incqlen
  | unsupported | noset | noget | unknown
deriving DecidableEq, Repr

/-- The protocol of the socket, as far as its handler of options goes (src/ofp_in_proto.c:62-190, src/ofp_in6_proto.c:95-140):
TCP over both families; UDP over IPv4; all others have none. -/
inductive Proto where
  | tcp | udp | other
deriving DecidableEq, Repr

/-- `struct sockbuf`, in part (include/ofpi_sockbuf.h:100-130).  `auto`: `SB_AUTOSIZE`. -/
structure Buf where
  hiwat : Nat
  mbmax : Nat
  lowat : Int
  timeo : Int
  auto : Bool
deriving DecidableEq, Repr

/-- `struct socket`, in part (include/ofpi_socketvar.h:68-130).  `linger` is `so_linger`, `lingerOn` the bit `OFP_SO_LINGER`;
`nopush`: `TF_NOPUSH`; `est`: is the connection established (or later); `held`: how often the lock of the control block was
taken by calls that have returned. -/
structure Sock where
  proto : Proto
  type : Nat
  protocol : Nat
  flags : Flag → Bool
  lingerOn : Bool
  linger : Int
  fib : Int
  cookie : Nat
  err : Nat
  qlimit : Nat
  qlen : Nat
  incqlen : Nat
  snd : Buf
  rcv : Buf
  nopush : Bool
  est : Bool
  held : Nat

/-- The size of packet buffers, which limits socket buffers; what a multicast option gives. -/
structure Env where
  bufsize : Nat
  mcast : Nat → List UInt8 → Option Err

/-- `SB_MAX` (include/ofpi_sockbuf.h:43). -/
def sbMax : Nat := 2097152

/-- `ofp_sb_max_adj` (src/ofp_uipc_sockbuf.c:504-505). -/
def Env.max (e : Env) : Nat := sbMax * e.bufsize / (256 + e.bufsize)

/-- `ofp_sbreserve_locked` (src/ofp_uipc_sockbuf.c:488-513). -/
def reserve (e : Env) (b : Buf) (cc : Nat) : Option Buf :=
  if cc > e.max then none
  else some { b with hiwat := cc, mbmax := min (cc * 8) sbMax, lowat := if b.lowat > cc then cc else b.lowat }

/-- A value of at least `n` bytes: the first `n` of them (`ofp_sooptcopyin`, src/ofp_uipc_socket.c:1969-1987). -/
def copyin (n : Nat) (b : List UInt8) : Option (List UInt8) := if b.length < n then none else some (b.take n)

/-- Truncation to `short` (`so_linger`). -/
def short (i : Int) : Int := (i + 32768) % 65536 - 32768

/-- An `int` as `uint32_t`. -/
def unsigned (i : Int) : Nat := (i % 4294967296).toNat

/-- A time in ticks, if it is not too long (src/ofp_uipc_socket.c:2147-2162); seconds and microseconds are `uint32_t`
(include/api/ofp_socket.h:435-438), `hz` is 100, `tick` 10000. -/
def ticksOf (sec usec : Nat) : Option Int :=
  if sec > 21474836 ∨ usec ≥ 1000000 then none
  else if sec * 100 + usec / 10000 > 2147483647 then none
  else some (if sec * 100 + usec / 10000 = 0 ∧ usec ≠ 0 then 1 else sec * 100 + usec / 10000 : Nat)

/-- `ofp_sosetopt` for the level `OFP_SOL_SOCKET` (src/ofp_uipc_socket.c:1999-2185).  The calls of `pr_ctloutput` at the end
change nothing for this level. -/
def setSock (e : Env) (s : Sock) (o : Opt) (b : List UInt8) : Option Err × Sock :=
  match o with
  | .linger =>
    match copyin 8 b with
    | none => (some .inval, s)
    | some v => (none, { s with linger := short (toInt (v.drop 4)), lingerOn := toInt (v.take 4) != 0 })
  | .flag .acceptconn => (some .noprotoopt, s)
  | .flag f =>
    match copyin 4 b with
    | none => (some .inval, s)
    | some v => (none, { s with flags := fun g => if g = f then toInt v != 0 else s.flags g })
  | .setfib =>
    let err := if b.length < 4 then some Err.inval else none
    let v := match copyin 4 b with
      | none => 0
      | some v => toInt v
    if v < 0 ∨ v ≥ 4096 then (some .inval, s) else (err, { s with fib := v })
  | .cookie =>
    match copyin 4 b with
    | none => (some .inval, s)
    | some v => (none, { s with cookie := unsigned (toInt v) })
  | .sndbuf =>
    match copyin 4 b with
    | none => (some .inval, s)
    | some v =>
      if toInt v < 1 then (some .inval, s)
      else match reserve e s.snd (toInt v).toNat with
        | none => (some .nobufs, s)
        | some x => (none, { s with snd := { x with auto := false } })
  | .rcvbuf =>
    match copyin 4 b with
    | none => (some .inval, s)
    | some v =>
      if toInt v < 1 then (some .inval, s)
      else match reserve e s.rcv (toInt v).toNat with
        | none => (some .nobufs, s)
        | some x => (none, { s with rcv := { x with auto := false } })
  | .sndlowat =>
    match copyin 4 b with
    | none => (some .inval, s)
    | some v =>
      if toInt v < 1 then (some .inval, s)
      else (none, { s with snd := { s.snd with lowat := if toInt v > s.snd.hiwat then s.snd.hiwat else toInt v } })
  | .rcvlowat =>
    match copyin 4 b with
    | none => (some .inval, s)
    | some v =>
      if toInt v < 1 then (some .inval, s)
      else (none, { s with rcv := { s.rcv with lowat := if toInt v > s.rcv.hiwat then s.rcv.hiwat else toInt v } })
  | .sndtimeo =>
    match copyin 8 b with
    | none => (some .inval, s)
    | some v =>
      match ticksOf (unsigned (toInt (v.take 4))) (unsigned (toInt (v.drop 4))) with
      | none => (some .dom, s)
      | some t => (none, { s with snd := { s.snd with timeo := t } })
  | .rcvtimeo =>
    match copyin 8 b with
    | none => (some .inval, s)
    | some v =>
      match ticksOf (unsigned (toInt (v.take 4))) (unsigned (toInt (v.drop 4))) with
      | none => (some .dom, s)
      | some t => (none, { s with rcv := { s.rcv with timeo := t } })
  | .unsupported | .noset => (some .opnotsupp, s)
  | .type | .protocol | .error | .qlimit | .qlen | .incqlen | .noget | .unknown => (some .noprotoopt, s)

/-- What `ofp_sogetopt` copies out for the level `OFP_SOL_SOCKET` (src/ofp_uipc_socket.c:2227-2325); times as `struct
timeval`, in two numbers of 64 bits. -/
def valueOf (s : Sock) (o : Opt) : Except Err (List UInt8) :=
  match o with
  | .linger => .ok (ofInt (if s.lingerOn then 0x80 else 0) ++ ofInt s.linger)
  | .flag .noDdp | .flag .noOffload => .error .noprotoopt
  | .flag f => .ok (ofInt (if s.flags f then f.mask else 0))
  | .type => .ok (ofInt s.type)
  | .protocol => .ok (ofInt s.protocol)
  | .error => .ok (ofInt s.err)
  | .sndbuf => .ok (ofInt s.snd.hiwat)
  | .rcvbuf => .ok (ofInt s.rcv.hiwat)
  | .sndlowat => .ok (ofInt s.snd.lowat)
  | .rcvlowat => .ok (ofInt s.rcv.lowat)
  | .sndtimeo => .ok (ofInt (s.snd.timeo / 100) ++ ofInt 0 ++ ofInt (s.snd.timeo % 100 * 10000) ++ ofInt 0)
  | .rcvtimeo => .ok (ofInt (s.rcv.timeo / 100) ++ ofInt 0 ++ ofInt (s.rcv.timeo % 100 * 10000) ++ ofInt 0)
  | .qlimit => .ok (ofInt s.qlimit)
  | .qlen => .ok (ofInt s.qlen)
  | .incqlen => .ok (ofInt s.incqlen)
  | .unsupported | .noget => .error .opnotsupp
  | .setfib | .cookie | .noset | .unknown => .error .noprotoopt

/-- Levels: `OFP_SOL_SOCKET` with one of its options; `OFP_IPPROTO_IP`, `OFP_IPPROTO_TCP`, `OFP_IPPROTO_UDP`, others, with the
number of an option. -/
inductive Level where
  | sock (o : Opt)
  | ip (name : Nat)
  | tcp (name : Nat)
  | udp (name : Nat)
  | other (level name : Nat)
deriving DecidableEq, Repr

/-- The options for multicast (include/api/ofp_in.h:393-464; src/ofp_in_mcast.c:2863-2881). -/
def mcastNames : List Nat := [9, 14, 10, 11, 12, 13, 70, 71, 72, 73, 74, 80, 81, 82, 83, 84, 85]

/-- What a call gives: the error, the socket, whether `ofp_tcp_output` is called. -/
structure SetRes where
  err : Option Err
  sock : Sock
  flush : Bool

/-- `ofp_tcp_ctloutput` to set (src/ofp_tcp_usrreq.c:1626-1672). -/
def setTcp (s : Sock) (name : Nat) (b : List UInt8) : SetRes :=
  if name = 4 then
    match copyin 4 b with
    | none => ⟨some .inval, s, false⟩
    | some v =>
      if toInt v ≠ 0 then ⟨none, { s with nopush := true }, false⟩
      else ⟨none, { s with nopush := false }, s.nopush && s.est⟩
  else if name = 0x1000 then
    match copyin 4 b with
    | none => ⟨some .inval, s, false⟩
    | some v => ⟨none, s, toInt v == 0 && s.est⟩
  else ⟨none, s, false⟩

/-- `ofp_setsockopt` (src/ofp_syscalls.c:544-566), `ofp_sosetopt`, and the handlers: `ofp_tcp_ctloutput`
(src/ofp_tcp_usrreq.c:1630-1672), `ofp_udp_ctloutput` (src/ofp_udp_usrreq.c:807-869), `ofp_ip_ctloutput`
(src/ofp_in_mcast.c:2833-2893). -/
def setsockopt (e : Env) (s : Sock) (l : Level) (b : List UInt8) : SetRes :=
  match l with
  | .sock o => ⟨(setSock e s o b).1, (setSock e s o b).2, false⟩
  | l =>
    match s.proto with
    | .other => ⟨some .noprotoopt, s, false⟩
    | .tcp =>
      match l with
      | .tcp name => setTcp s name b
      | _ => ⟨none, s, false⟩
    | .udp =>
      match l with
      | .udp _ => ⟨none, { s with held := s.held + 1 }, false⟩
      | .ip name => ⟨if name ∈ mcastNames then e.mcast name b else none, s, false⟩
      | _ => ⟨some .inval, s, false⟩

/-- What `ofp_getsockopt` gives: the error, the socket, the bytes written into the buffer, the length it says. -/
structure GetRes where
  err : Option Err
  sock : Sock
  out : List UInt8
  len : Nat

/-- `ofp_getsockopt` (src/ofp_syscalls.c:518-542), `ofp_sogetopt`, `ofp_sooptcopyout` (src/ofp_uipc_socket.c:2189-2211), and
the handlers, as above; `n` is the length of the buffer. -/
def getsockopt (s : Sock) (l : Level) (n : Nat) : GetRes :=
  match l with
  | .sock o =>
    match valueOf s o with
    | .error e => ⟨some e, s, [], n⟩
    | .ok v => ⟨none, if o = .error then { s with err := 0 } else s, v.take n, min v.length n⟩
  | l =>
    match s.proto with
    | .other => ⟨some .noprotoopt, s, [], n⟩
    | .tcp => ⟨none, s, [], n⟩
    | .udp =>
      match l with
      | .udp _ => ⟨none, { s with held := s.held + 1 }, [], n⟩
      | .ip _ => ⟨none, s, [], n⟩
      | _ => ⟨some .inval, s, [], n⟩

/-- How long a call that waits for data (`ofp_sbwait`, src/ofp_uipc_sockbuf.c:400-411) asks to sleep, in microseconds, for a
time in ticks; 0 is for ever.  It is passed as `uint32_t` (src/ofp_uipc_socket.c:2549-2550). -/
def waitUs (timeo : Int) : Nat := unsigned (10000 * timeo)

/-- `ofp_soreserve` (src/ofp_uipc_sockbuf.c:558-585). -/
def soreserve (e : Env) (s : Sock) (snd rcv : Nat) : Option Sock :=
  match reserve e s.snd snd, reserve e s.rcv rcv with
  | some x, some y =>
    let y := if y.lowat = 0 then { y with lowat := 1 } else y
    let x := if x.lowat = 0 then { x with lowat := e.bufsize } else x
    let x := if x.lowat > x.hiwat then { x with lowat := x.hiwat } else x
    some { s with snd := x, rcv := y }
  | _, _ => none

/-- A socket as allocated: all zero. -/
def blank (p : Proto) (type protocol : Nat) : Sock :=
  ⟨p, type, protocol, fun _ => false, false, 0, 0, 0, 0, 0, 0, 0, ⟨0, 0, 0, 0, false⟩, ⟨0, 0, 0, 0, false⟩, false, false, 0⟩

/-- The socket of a connection that comes in on the listening socket `h` (`ofp_sonewconn`, src/ofp_uipc_socket.c:448-484, with
`tcp_attach`, src/ofp_tcp_usrreq.c:1689-1702). -/
def newconn (e : Env) (h : Sock) : Option Sock :=
  match soreserve e { blank h.proto h.type h.protocol with
      flags := fun f => if f = .acceptconn then false else h.flags f, lingerOn := h.lingerOn, linger := h.linger,
      fib := h.fib } h.snd.hiwat h.rcv.hiwat with
  | none => none
  | some s => some { s with
      rcv := { s.rcv with auto := true, lowat := h.rcv.lowat, timeo := h.rcv.timeo }
      snd := { s.snd with auto := true, lowat := h.snd.lowat, timeo := h.snd.timeo } }

/-- What happens to a socket: calls; an error comes in; it is made to listen; the connection is established; queues change. -/
inductive Ev where
  | set (l : Level) (b : List UInt8)
  | get (l : Level) (n : Nat)
  | error (n : Nat)
  | listen (backlog : Nat)
  | established
  | queue (qlen incqlen : Nat)

/-- One of these. -/
def step (e : Env) (s : Sock) : Ev → Sock
  | .set l b => (setsockopt e s l b).sock
  | .get l n => (getsockopt s l n).sock
  | .error n => { s with err := n }
  | .listen n => { s with flags := fun f => if f = .acceptconn then true else s.flags f, qlimit := n }
  | .established => { s with est := true }
  | .queue a b => { s with qlen := a, incqlen := b }

end Verif.Sockopt

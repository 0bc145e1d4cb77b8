/-!
# Life of sockets: descriptors, listen queues, accept, close

Modelled: the socket pool and `soalloc`/`sodealloc`, `ofp_socreate`, `ofp_sonewconn`, `ofp_solisten`, `ofp_sofree`, `ofp_soclose`,
`ofp_soabort`, `ofp_soaccept`, `ofp_soisconnected`, `ofp_soisdisconnected` (src/ofp_uipc_socket.c), `ofp_accept`
(src/ofp_syscalls.c) and what TCP does with the references: `tcp_usr_close`, `tcp_usr_abort`, `tcp_disconnect`, `tcp_detach`
(src/ofp_tcp_usrreq.c), `ofp_tcp_close` (src/ofp_tcp_subr.c), `ofp_tcp_twstart`, `ofp_tcp_twclose` (src/ofp_tcp_timewait.c),
`syncache_socket` (src/ofp_tcp_syncache.c).

Concurrency: an event is a stretch of code under one of the locks (accept lock, TCP info lock, pool lock); events of
different threads interleave in any order.  The program counters of threads inside `ofp_close` (`pc`), `ofp_accept` (`taken`)
and `ofp_soabort` (`aborting`) are part of the state.

Not modelled: contents of socket buffers (`Verif.Sockbuf`), sleeping (`Verif.Sleep`), accept filters, the TCP protocol
(`Verif.Snd`, `Verif.Tcp`): any protocol event may come at any time the control block allows.
-/
namespace Verif.Sock

/-- `t_state`, as far as references are concerned: CLOSED; LISTEN; SYN_SENT or SYN_RECEIVED; ESTABLISHED and later
(include/ofpi_tcp_fsm.h:47-60). -/
inductive Phase where
  | closed | listen | syn | est
deriving DecidableEq, Repr

/-- A control block (`struct inpcb`, include/ofpi_in_pcb.h:220-300) with `INP_TIMEWAIT`, `INP_DROPPED`, `INP_SOCKREF`. -/
structure Pcb where
  tcp : Bool
  phase : Phase
  tw : Bool
  dropped : Bool
  sockref : Bool
deriving DecidableEq, Repr

/-- `struct socket` (include/ofpi_socketvar.h:67-155).  `nofd`, `proto`: `SS_NOFDREF`, `SS_PROTOREF`; `busy`: one of
`SS_ISCONNECTED`, `SS_ISCONNECTING`, `SS_ISDISCONNECTING`; `disc`: `SS_ISDISCONNECTED`; `sqComp`, `sqInc`: `SQ_COMP`, `SQ_INCOMP`;
`accepting`: `OFP_SO_ACCEPTCONN`; sockets are numbered by their place in `socket_list`.  `pc`: progress of the thread inside
`ofp_close` for this socket (0 none, 1 after the disconnect, 2 after `pru_close`).
Simplified: the 16-bit queue lengths are natural numbers (`queue_bounds` shows they stay small). -/
structure So where
  count : Nat
  nofd : Bool
  proto : Bool
  busy : Bool
  disc : Bool
  head : Option Nat
  sqComp : Bool
  sqInc : Bool
  accepting : Bool
  qlimit : Nat
  comp : List Nat
  incomp : List Nat
  qlen : Nat
  incqlen : Nat
  pcb : Option Pcb
  pc : Nat
deriving DecidableEq, Repr

/-- A zeroed `struct socket` (`soalloc`, src/ofp_uipc_socket.c:348-351). -/
def blank : So :=
  { count := 0, nofd := false, proto := false, busy := false, disc := false, head := none, sqComp := false,
    sqInc := false, accepting := false, qlimit := 0, comp := [], incomp := [], qlen := 0, incqlen := 0, pcb := none,
    pc := 0 }

/-- The shared socket memory (`struct ofp_socket_mem`, src/ofp_uipc_socket.c:141-165) and the threads inside `ofp_accept`
(`taken`) and `ofp_soabort` (`aborting`).  `orphans`: control blocks in TIME_WAIT without a socket; `strays`: connections
that lost their socket otherwise (`tcp_detach`, last case); `crash`: `sorele` called `panic`, or a null pointer was
followed (`so_proto` and `so_pcb` of a socket that is not in use). -/
structure S where
  so : Nat → So
  free : List Nat
  taken : List Nat
  aborting : List Nat
  orphans : Nat
  strays : Nat
  crash : Bool

/-- Update one socket. -/
def S.upd (s : S) (i : Nat) (f : So → So) : S := { s with so := fun j => if j = i then f (s.so i) else s.so j }

/-- `ofp_socket_init_global` (src/ofp_uipc_socket.c:267-299) with `n` sockets. -/
def init (n : Nat) : S :=
  { so := fun _ => blank, free := List.range n, taken := [], aborting := [], orphans := 0, strays := 0, crash := false }

/-- `soalloc` (src/ofp_uipc_socket.c:326-361). -/
def soalloc (s : S) : Option (Nat × S) :=
  match s.free with
  | [] => none
  | i :: r => some (i, { s with free := r }.upd i fun _ => blank)

/-- `sodealloc` (src/ofp_uipc_socket.c:369-381). -/
def sodealloc (s : S) (i : Nat) : S := { s with free := i :: s.free }

/-- `sofree_dequeue` (src/ofp_uipc_socket.c:581-607). -/
def dequeue (s : S) (i : Nat) : S :=
  match (s.so i).head with
  | none => s
  | some h => (s.upd h fun o => { o with incomp := o.incomp.erase i, incqlen := o.incqlen - 1 }).upd i
      fun o => { o with sqInc := false, head := none }

/-- `pru_detach`: `tcp_detach` (src/ofp_tcp_usrreq.c:161-216), `udp_detach` (src/ofp_udp_usrreq.c:1352-1372). -/
def detach (s : S) (i : Nat) : S :=
  match (s.so i).pcb with
  | none => s
  | some p =>
    let s1 := s.upd i fun o => { o with pcb := none }
    if !p.tcp then s1
    else if p.tw then (if p.dropped then s1 else { s1 with orphans := s1.orphans + 1 })
    else if p.dropped || p.phase = .closed || p.phase = .listen then s1
    else { s1 with strays := s1.strays + 1 }

/-- `sohasrefs` (src/ofp_uipc_socket.c:645-650). -/
def hasRefs (o : So) : Bool := !o.nofd || o.count ≠ 0 || o.proto || o.sqComp

/-- `ofp_sofree` (src/ofp_uipc_socket.c:672-690) with `sofree_dispose` (609-643). -/
def sofree (s : S) (i : Nat) : S :=
  if hasRefs (s.so i) then s else sodealloc (detach (dequeue s i) i) i

/-- Change a control block. -/
def onPcb (s : S) (i : Nat) (f : Pcb → Pcb) : S := s.upd i fun o => { o with pcb := o.pcb.map f }

/-- `ofp_tcp_close` (src/ofp_tcp_subr.c:1005-1033) with `ofp_soisdisconnected` (src/ofp_uipc_socket.c:2445-2462). -/
def tcpClose (s : S) (i : Nat) : S :=
  let s1 := (onPcb s i fun p => { p with dropped := true }).upd i fun o => { o with busy := false, disc := true }
  if ((s.so i).pcb.map (·.sockref)).getD false then
    sofree ((onPcb s1 i fun p => { p with sockref := false }).upd i fun o => { o with proto := false }) i
  else s1

/-- Take the protocol's reference unless the control block is dropped (src/ofp_tcp_usrreq.c:955-960, 996-1001). -/
def protoRef (s : S) (i : Nat) : S :=
  match (s.so i).pcb with
  | none => s
  | some p =>
    if p.dropped || !p.tcp then s
    else (onPcb s i fun p => { p with sockref := true }).upd i fun o => { o with proto := true }

/-- `tcp_usr_abort` (src/ofp_tcp_usrreq.c:931-963). -/
def usrAbort (s : S) (i : Nat) : S :=
  match (s.so i).pcb with
  | none => s
  | some p => protoRef (if !p.tw && !p.dropped then tcpClose s i else s) i

/-- `ofp_soabort` (src/ofp_uipc_socket.c:846-867). -/
def soabort (s : S) (i : Nat) : S := sofree (usrAbort s i) i

/-- `tcp_disconnect` (src/ofp_tcp_usrreq.c:1744-1774); `drop`: `SO_LINGER` with time 0. -/
def tcpDisc (s : S) (i : Nat) (drop : Bool) : S :=
  match (s.so i).pcb with
  | none => s
  | some p =>
    if !p.tcp || p.tw || p.dropped then s
    else if p.phase ≠ .est || drop then tcpClose s i
    else s

/-- The loop of `ofp_sonewconn` that makes room (src/ofp_uipc_socket.c:503-514).  Simplified: `k` bounds the number of
rounds; callers pass the length of the queue. -/
def evict : Nat → S → Nat → S
  | 0, s, _ => s
  | k + 1, s, h =>
    if (s.so h).incqlen > (s.so h).qlimit then
      match (s.so h).incomp with
      | [] => s
      | sp :: _ =>
        let s1 := (s.upd h fun o => { o with incomp := o.incomp.tail, incqlen := o.incqlen - 1 }).upd sp
          fun o => { o with sqInc := false, head := none }
        evict k (soabort s1 sp) h
    else s

/-- `ofp_sonewconn(head, 0)` (src/ofp_uipc_socket.c:447-524) as called by `syncache_socket`, and the rest of that function
(src/ofp_tcp_syncache.c:552-767).  `attach`: buffers and a control block were found; `bound`: the new control block could be
bound and connected. -/
def newconn (s : S) (h : Nat) (attach bound : Bool) : Option Nat × S :=
  if (s.so h).qlen > 3 * (s.so h).qlimit / 2 then (none, s)
  else match soalloc s with
  | none => (none, s)
  | some (i, s1) =>
    if !attach then (none, sodealloc (s1.upd i fun o => { o with head := some h, nofd := true }) i)
    else
      let s2 := s1.upd i fun o => { o with head := some h, nofd := true, pcb := some ⟨true, .closed, false, false, false⟩ }
      let s3 := evict (s2.so h).incomp.length s2 h
      let s4 := (s3.upd h fun o => { o with incomp := o.incomp ++ [i], incqlen := o.incqlen + 1 }).upd i
        fun o => { o with sqInc := true }
      if bound then (some i, onPcb s4 i fun p => { p with phase := .syn })
      else (none, soabort s4 i)

/-- `ofp_soisconnected` (src/ofp_uipc_socket.c:2373-2421) when the handshake completes (src/ofp_tcp_input.c:1812, 2253). -/
def established (s : S) (i : Nat) : Option Nat × S :=
  let s1 := (onPcb s i fun p => { p with phase := .est }).upd i fun o => { o with busy := true }
  match (s.so i).head with
  | none => (none, s1)
  | some h =>
    if (s.so i).sqInc then
      (some h, ((s1.upd h fun o => { o with incomp := o.incomp.erase i, incqlen := o.incqlen - 1 }).upd h
        fun o => { o with comp := o.comp ++ [i], qlen := o.qlen + 1 }).upd i fun o => { o with sqInc := false, sqComp := true })
    else (none, s1)

/-- Dequeue a completed connection in `ofp_accept` (src/ofp_syscalls.c:265-285). -/
def accept1 (s : S) (h : Nat) : Option Nat × S :=
  if (s.so h).accepting then
    match (s.so h).comp with
    | [] => (none, s)
    | i :: r =>
      let s1 := (s.upd h fun o => { o with comp := r, qlen := o.qlen - 1 }).upd i
        fun o => { o with count := o.count + 1, sqComp := false, head := none }
      (some i, { s1 with taken := i :: s1.taken })
  else (none, s)

/-- `ofp_soaccept` with `tcp_usr_accept` and the end of `ofp_accept` (src/ofp_uipc_socket.c:869-880, src/ofp_tcp_usrreq.c:613-658,
src/ofp_syscalls.c:290-318): the descriptor, or an error. -/
def accept2 (s : S) (i : Nat) : Option Nat × S :=
  let s1 := { s with taken := s.taken.erase i }.upd i fun o => { o with nofd := false }
  match (s.so i).pcb with
  | none => (none, s1)
  | some p => if (s.so i).disc || p.tw || p.dropped then (none, s1) else (some i, s1)

/-- Events: calls of the application (socket, listen, connect, shutdown, the stages of accept and close) and of TCP. -/
inductive Ev where
  /-- `ofp_socket` (src/ofp_syscalls.c:42-57, src/ofp_uipc_socket.c:388-437); `attach`: a control block was found. -/
  | socket (tcp attach : Bool)
  /-- `ofp_listen` (`tcp_usr_listen`, src/ofp_tcp_usrreq.c:346-380; `ofp_solisten_proto`, src/ofp_uipc_socket.c:565-575). -/
  | listen (i : Nat) (backlog : Int)
  /-- `ofp_connect` of a TCP socket (src/ofp_uipc_socket.c:882-908). -/
  | connect (i : Nat)
  /-- `ofp_shutdown(SHUT_WR)` (`tcp_usr_shutdown`, `tcp_usrclosed`). -/
  | shutdown (i : Nat)
  /-- `ofp_accept`, up to the dequeuing. -/
  | accept1 (h : Nat)
  /-- `ofp_accept`, the rest. -/
  | accept2 (i : Nat)
  /-- `ofp_close`: disconnect (src/ofp_uipc_socket.c:708-730, src/ofp_syscalls.c:59-69);
  `act`: the socket is connected; `drop`: linger time 0. -/
  | closeDisc (i : Nat) (act drop : Bool)
  /-- `ofp_close`: `pru_close` (733-734). -/
  | closePru (i : Nat) (drop : Bool)
  /-- `ofp_close` of a listening socket: dequeue one pending connection (738-756). -/
  | closeDeq (i : Nat)
  /-- `ofp_soabort` of a dequeued connection (744, 753). -/
  | abort (i : Nat)
  /-- `ofp_close`: the rest (758-763). -/
  | closeEnd (i : Nat)
  /-- The third segment of a handshake arrives for a listening socket. -/
  | newconn (h : Nat) (attach bound : Bool)
  /-- A connection becomes established. -/
  | established (i : Nat)
  /-- TCP gives up or finishes a connection: `ofp_tcp_close` from input or timers. -/
  | tcpDone (i : Nat)
  /-- The peer can neither send nor receive any more: `ofp_soisdisconnected` (src/ofp_tcp_input.c:2631, src/ofp_tcp_usrreq.c:1829). -/
  | disconnected (i : Nat)
  /-- TIME_WAIT starts: `ofp_tcp_twstart` (src/ofp_tcp_timewait.c:163-278). -/
  | twstart (i : Nat)
  /-- TIME_WAIT ends: `ofp_tcp_twclose` (src/ofp_tcp_timewait.c:370-424). -/
  | twclose (i : Nat)
  /-- TIME_WAIT ends for a control block without socket. -/
  | orphanDone
deriving DecidableEq, Repr

/-- Does TCP still work on this control block (in the hash tables, timers running). -/
def Pcb.alive (p : Pcb) : Bool := p.tcp && !p.tw && !p.dropped

/-- The control block of a socket satisfies a condition. -/
def pcbIs (s : S) (i : Nat) (f : Pcb → Bool) : Bool := ((s.so i).pcb.map f).getD false

/-- `OFP_SOMAXCONN` (include/api/ofp_socket.h:222). -/
def somaxconn : Nat := 128

/-- `ofp_socreate` (src/ofp_uipc_socket.c:388-437). -/
def socreate (s : S) (tcp attach : Bool) : Option Nat × S :=
  match soalloc s with
  | none => (none, s)
  | some (i, s1) =>
    if attach then (some i, s1.upd i fun o => { o with count := 1, pcb := some ⟨tcp, .closed, false, false, false⟩ })
    else (none, sodealloc s1 i)

/-- `sorele` at the end of `ofp_soclose` (src/ofp_uipc_socket.c:758-763, include/ofpi_socketvar.h:255-266). -/
def closeEnd (s : S) (i : Nat) : S :=
  let s1 := s.upd i fun o => { o with nofd := true }
  if (s1.so i).count = 0 then { s1 with crash := true }
  else
    let s2 := s1.upd i fun o => { o with count := o.count - 1 }
    if (s2.so i).count = 0 then sofree s2 i else s2

/-- One event; the result is a socket number (a descriptor is that plus `OFP_SOCK_NUM_OFFSET`) or nothing.  An event
whose conditions are not met changes nothing: the call fails, or TCP does not find the control block. -/
def step (s : S) : Ev → Option Nat × S
  | .socket tcp attach => socreate s tcp attach
  | .listen i b =>
    if pcbIs s i (·.alive) && !(s.so i).busy then
      (some i, (onPcb s i fun p => { p with phase := .listen }).upd i
        fun o => { o with accepting := true, qlimit := if b < 0 || b > somaxconn then somaxconn else b.toNat })
    else (none, s)
  | .connect i =>
    if pcbIs s i (·.alive) && !(s.so i).accepting && !(s.so i).busy then
      (some i, (onPcb s i fun p => { p with phase := .syn }).upd i fun o => { o with busy := true })
    else (none, s)
  | .shutdown i =>
    if pcbIs s i (fun p => p.alive && (p.phase = .closed || p.phase = .listen)) then (none, tcpClose s i) else (none, s)
  | .accept1 h => accept1 s h
  | .accept2 i => if i ∈ s.taken then accept2 s i else (none, s)
  | .closeDisc i act drop =>
    if (s.so i).pcb = none then (none, { s with crash := true })
    else if (s.so i).pc = 0 then (none, (if act then tcpDisc s i drop else s).upd i fun o => { o with pc := 1 }) else (none, s)
  | .closePru i drop =>
    if (s.so i).pc = 1 then (none, (protoRef (tcpDisc s i drop) i).upd i fun o => { o with pc := 2 }) else (none, s)
  | .closeDeq i =>
    if (s.so i).pc = 2 && (s.so i).accepting then
      match (s.so i).incomp with
      | sp :: r =>
        let s1 := (s.upd i fun o => { o with incomp := r, incqlen := o.incqlen - 1 }).upd sp
          fun o => { o with sqInc := false, head := none }
        (none, { s1 with aborting := sp :: s1.aborting })
      | [] =>
        match (s.so i).comp with
        | sp :: r =>
          let s1 := (s.upd i fun o => { o with comp := r, qlen := o.qlen - 1 }).upd sp
            fun o => { o with sqComp := false, head := none }
          (none, { s1 with aborting := sp :: s1.aborting })
        | [] => (none, s)
    else (none, s)
  | .abort i => if i ∈ s.aborting then (none, soabort { s with aborting := s.aborting.erase i } i) else (none, s)
  | .closeEnd i =>
    if (s.so i).pc = 2 && (!(s.so i).accepting || ((s.so i).incomp = [] && (s.so i).comp = [])) then (some i, closeEnd s i)
    else (none, s)
  | .newconn h attach bound =>
    if pcbIs s h (fun p => p.alive && p.phase = .listen) then newconn s h attach bound else (none, s)
  | .established i => if pcbIs s i (fun p => p.alive && p.phase = .syn) then established s i else (none, s)
  | .tcpDone i =>
    if pcbIs s i (fun p => p.alive && (p.phase = .syn || p.phase = .est)) then (none, tcpClose s i) else (none, s)
  | .disconnected i =>
    if pcbIs s i (fun p => p.alive && p.phase = .est) then (none, s.upd i fun o => { o with busy := false, disc := true })
    else (none, s)
  | .twstart i =>
    if pcbIs s i (fun p => p.alive && p.phase = .est) then
      let r := pcbIs s i (·.sockref)
      let s1 := (onPcb s i fun p => { p with tw := true, sockref := false }).upd i
        fun o => { o with busy := false, disc := true, proto := o.proto && !r }
      (none, if r then sofree s1 i else s1)
    else (none, s)
  | .twclose i =>
    if pcbIs s i (fun p => p.tcp && p.tw && !p.dropped) then
      let r := pcbIs s i (·.sockref)
      let s1 := (onPcb s i fun p => { p with dropped := true, sockref := false }).upd i fun o => { o with proto := o.proto && !r }
      (none, if r then sofree s1 i else s1)
    else (none, s)
  | .orphanDone => (none, { s with orphans := s.orphans - 1 })

end Verif.Sock

import Verif.Cksum.PropsPkt
import Verif.Pcb.Props
/-!
# Model of IPv4 datagram sockets (`src/ofp_udp_usrreq.c`, datagram half of `src/ofp_uipc_socket.c`)

A packet is a list of bytes in one segment with an offset of the IP header and one of the transport header, followed
by memory that belongs to somebody else (`after`, zero where the list ends): a read behind the packet returns those
bytes.  The control blocks are those of `Verif.Pcb`; a lookup is `Verif.Pcb.lookupHash`.  Checksums are the functions
of `Verif.Cksum`.  The receive buffer is a queue of at most 63 packets (that the ring behaves like one is C34).
Addresses and ports are numbers in host order.

Not modelled: hooks and the VXLAN handler in front of `ofp_udp_input` (they let the packet pass here), statistics,
locks, control messages (no API function passes any), IPv6, `u_tun_func` (never set: the setter is compiled out),
waiting in `ofp_recvfrom` (see `Verif.Sleep`).  The default build is meant: slow path enabled (`SP`), checksums
validated and computed.
-/
namespace Verif.Udp

/-- `odp_packet_l4_chksum_status`; `none`: `OFP_L4_CHKSUM_STATUS_VALID` not set (src/ofp_udp_usrreq.c:401-418). -/
inductive HwSum where
  | none | ok | unknown | bad
deriving DecidableEq, Repr

/-- A packet buffer.  `l2`: bytes from the link header to the IP header, `l3`: from the IP header to the end of the
packet, `l4`: offset of the transport header in `l3` (set by ODP's parser), `after`: the memory behind. -/
structure Buf where
  id : Nat
  l2 : List UInt8
  l3 : List UInt8
  l4 : Nat
  after : List UInt8
  /-- `odp_packet_user_ptr(pkt)->vrf` -/
  vrf : Nat
  hw : HwSum
deriving DecidableEq, Repr

/-- What a pointer into the packet, `i` bytes behind the IP header, points at. -/
def Buf.byte (b : Buf) (i : Nat) : UInt8 := (b.l3 ++ b.after).getD i 0

/-- A 16-bit field in network order. -/
def Buf.be16 (b : Buf) (i : Nat) : Nat := (b.byte i).toNat * 256 + (b.byte (i + 1)).toNat

/-- An address. -/
def Buf.be32 (b : Buf) (i : Nat) : Nat := b.be16 i * 65536 + b.be16 (i + 2)

/-- `memcpy` of `n` bytes from offset `i` behind the IP header. -/
def Buf.read (b : Buf) (i n : Nat) : List UInt8 := (List.range n).map fun k => b.byte (i + k)

/-- `ip->ip_hl << 2`. -/
def Buf.hlen (b : Buf) : Nat := (b.byte 0).toNat % 16 * 4
/-- `ip->ip_src`, `ip->ip_dst`, `ip->ip_ttl` (include/api/ofp_ip.h). -/
def Buf.src (b : Buf) : Nat := b.be32 12
def Buf.dst (b : Buf) : Nat := b.be32 16
def Buf.ttl (b : Buf) : Nat := (b.byte 8).toNat
/-- `uh_sport`, `uh_dport`, `uh_sum` of the header found at `ip + iphlen` (src/ofp_udp_usrreq.c:348). -/
def Buf.sport (b : Buf) : Nat := b.be16 b.hlen
def Buf.dport (b : Buf) : Nat := b.be16 (b.hlen + 2)
def Buf.usum (b : Buf) : Nat := b.be16 (b.hlen + 6)

/-- `OFP_IN_MULTICAST` (include/api/ofp_in.h). -/
def multicast (a : Nat) : Bool := a / 268435456 == 14

/-- `ofp_in_broadcast` (src/ofp_udp_usrreq.c:275-288). -/
def broadcast (a : Nat) : Bool := a == 4294967295 || a == 0

/-- What a socket has besides its control block. -/
structure Sk where
  /-- `so_fibnum` -/
  vrf : Nat
  /-- `inp_ip_minttl` -/
  minttl : Nat
  /-- `inp_moptions`, as the answer of `ofp_imo_multi_filter` for interface VRF, group and source: pass or not -/
  mopt : Option (Nat → Nat → Nat → Bool)
  /-- the event callback takes the packet (`packet_accepted_as_event`, src/ofp_uipc_sockbuf.c:69-97) -/
  takes : Nat → Bool
  /-- `so_rcv` -/
  rcv : List Buf

structure St where
  tab : Pcb.Tab
  sk : Nat → Sk
  /-- buffers given back to their pool -/
  freed : List Nat
  /-- buffers handed to event callbacks: socket, buffer -/
  taken : List (Nat × Nat)
  /-- number of the next copy -/
  next : Nat

/-- `SOCKBUF_LEN - 1` (include/ofpi_sockbuf.h:109). -/
def room : Nat := 63

def b16 (n : Nat) : List UInt8 := [UInt8.ofNat (n / 256), UInt8.ofNat (n % 256)]
def b32 (n : Nat) : List UInt8 := b16 (n / 65536) ++ b16 (n % 65536)

/-- `struct ofp_sockaddr_in` in memory: length 16, family, port and address in network order
(src/ofp_udp_usrreq.c:361-365, include/api/ofp_in.h:106-112). -/
def sockaddr (addr port : Nat) : List UInt8 :=
  [16, 2] ++ b16 port ++ b32 addr ++ [0, 0, 0, 0, 0, 0, 0, 0]

/-- `memcpy(odp_packet_l2_ptr(n), append_sa, sa_len)` (src/ofp_udp_usrreq.c:254): the address is written over the
link header and what follows it. -/
def Buf.save (b : Buf) (sa : List UInt8) : Buf :=
  { b with
    l2 := (sa ++ (b.l2 ++ b.l3).drop sa.length).take b.l2.length
    l3 := (sa ++ (b.l2 ++ b.l3).drop sa.length).drop b.l2.length }

/-- `ofp_sbappendaddr_locked` (src/ofp_uipc_sockbuf.c:187-210) and the rest of `udp_append`
(src/ofp_udp_usrreq.c:256-269). -/
def deliver (s : St) (i : Nat) (b : Buf) : St :=
  if (s.sk i).takes b.id then { s with taken := s.taken ++ [(i, b.id)] }
  else if (s.sk i).rcv.length < room then
    { s with sk := Pcb.upd s.sk i { s.sk i with rcv := (s.sk i).rcv ++ [b] } }
  else { s with freed := s.freed ++ [b.id] }

/-- `udp_append` (src/ofp_udp_usrreq.c:198-270). -/
def append (s : St) (i : Nat) (b : Buf) (sa : List UInt8) : St := deliver s i (b.save sa)

/-- The copy made for an earlier match (src/ofp_udp_usrreq.c:487-493); `odp_packet_copy` may fail, then `udp_append`
only complains. -/
def appendCopy (copyOk : Nat → Bool) (s : St) (i : Nat) (b : Buf) (sa : List UInt8) : St :=
  if copyOk s.next then append { s with next := s.next + 1 } i { b with id := s.next } sa
  else { s with next := s.next + 1 }

/-- The tests of the delivery loop (src/ofp_udp_usrreq.c:431-484) for control block `p` of socket `k`. -/
def wants (p : Pcb.Pcb) (k : Sk) (b : Buf) : Bool :=
  p.lport == b.dport && (p.laddr == 0 || p.laddr == b.dst) && (p.faddr == 0 || p.faddr == b.src) &&
  (p.fport == 0 || p.fport == b.sport) &&
  (!multicast b.dst || match k.mopt with
    | none => false
    | some f => f b.vrf b.dst b.src)

/-- The loop over all control blocks (src/ofp_udp_usrreq.c:430-508).  Returns `last`. -/
def multiLoop (copyOk : Nat → Bool) (b : Buf) (sa : List UInt8) : List Nat → Option Nat → St → Option Nat × St
  | [], last, s => (last, s)
  | i :: r, last, s =>
    match s.tab.pcb i with
    | none => multiLoop copyOk b sa r last s
    | some p =>
      if wants p (s.sk i) b then
        let s1 := match last with
          | none => s
          | some j => appendCopy copyOk s j b sa
        if p.opts.reuseport || p.opts.reuseaddr then multiLoop copyOk b sa r (some i) s1
        else (some i, s1)
      else multiLoop copyOk b sa r last s

/-- The list `ofp_udb`: new blocks go to the head (src/ofp_in_pcb.c:285). -/
def pcbList (t : Pcb.Tab) : List Nat := (List.range t.next).reverse

inductive Code where
  | drop | cont | processed
deriving DecidableEq, Repr

/-- `ofp_in4_cksum(*m) != 0`.  A call that does not return a value counts as a failed check. -/
def sumBad (al : Nat → Bool × Bool) (b : Buf) : Bool :=
  Cksum.in4Cksum al [b.l2 ++ b.l3] b.l2.length != .ok 0

/-- The checksum decision (src/ofp_udp_usrreq.c:399-422): `true` means `goto badunlocked`. -/
def rejects (al : Nat → Bool × Bool) (b : Buf) : Bool :=
  b.usum != 0 && match b.hw with
    | .ok => false
    | .bad => true
    | _ => sumBad al b

/-- Parameters of the stack. -/
structure Env where
  cfg : Pcb.Cfg
  al : Nat → Bool × Bool
  copyOk : Nat → Bool
  /-- `ofp_udp_blackhole` -/
  blackhole : Bool

/-- `ofp_udp_input` (src/ofp_udp_usrreq.c:289-589) behind the hooks.  The length test counts the bytes from the
link header on (line 336). -/
def input (e : Env) (s : St) (b : Buf) : Code × St :=
  if b.l2.length + b.l3.length < b.hlen + 8 then (.cont, s)
  else if b.dport = 0 then (.drop, s)
  else if rejects e.al b then (.drop, s)
  else
    let sa := sockaddr b.src b.sport
    if multicast b.dst || broadcast b.dst then
      let r := multiLoop e.copyOk b sa (pcbList s.tab) none s
      match r.1 with
      | none => (.cont, r.2)
      | some i => (.processed, append r.2 i b sa)
    else
      match Pcb.lookupHash e.cfg s.tab b.src b.sport b.dst b.dport true with
      | none => if e.blackhole then (.drop, s) else (.cont, s)
      | some i =>
        if (s.sk i).minttl ≠ 0 ∧ b.ttl < (s.sk i).minttl then (.processed, { s with freed := s.freed ++ [b.id] })
        else (.processed, append s i b sa)

/-- `size_t len = odp_be_to_cpu_16(uh->uh_ulen) - sizeof(*uh)` (src/ofp_uipc_socket.c:1925). -/
def Buf.claimed (b : Buf) : Nat := (b.be16 (b.l4 + 4) + 18446744073709551616 - 8) % 18446744073709551616

/-- What `ofp_recvfrom` returns: the bytes and the memory of the address. -/
structure Got where
  data : List UInt8
  from' : List UInt8
deriving DecidableEq, Repr

/-- `ofp_recvfrom(sockfd, buf, n, 0, &addr, ...)` on a datagram socket with a packet in its buffer
(`ofp_soreceive_dgram`, src/ofp_uipc_socket.c:1907-1949; src/ofp_syscalls.c:169-197); `none` when there is none.
`from'` are the `sa_len` bytes at the start of the packet. -/
def recvfrom (s : St) (i n : Nat) : Option Got × St :=
  match (s.sk i).rcv with
  | [] => (none, s)
  | b :: q =>
    let len := if b.claimed > n then n else b.claimed
    let l2 := b.l2 ++ b.l3
    (some { data := b.read (b.l4 + 8) len, from' := l2.take ((l2.headD 0).toNat) },
     { s with sk := Pcb.upd s.sk i { s.sk i with rcv := q }, freed := s.freed ++ [b.id] })

/-! ## Sending -/

/-- The sending side of a socket. -/
structure Snd where
  /-- `SBS_CANTSENDMORE` -/
  shut : Bool
  /-- `so_error` -/
  err : Nat
  /-- `SS_ISCONNECTED` -/
  conn : Bool
  /-- `inp_ip_tos`, `inp_ip_ttl` -/
  tos : Nat
  ttl : Nat
deriving DecidableEq, Repr

/-- What the environment answers during one call. -/
structure SEnv where
  cfg : Pcb.Cfg
  pcb : Pcb.Env
  /-- `ofp_socket_packet_alloc` succeeds -/
  alloc : Bool
  /-- `odp_packet_push_head` succeeds -/
  push : Bool
  /-- `ofp_ip_output` does not return `OFP_PKT_DROP` -/
  out : Bool

inductive SErr where
  | epipe | soError (n : Nat) | edestaddrreq | enobufs | emsgsize | enotconn | eio
  | pcb (e : Pcb.Err)
deriving DecidableEq, Repr

/-- The header and payload `udp_output` builds (src/ofp_udp_usrreq.c:1107-1141).  `ip_id` is left as it is (0 here)
and assigned in `ofp_ip_output`; `INP_DONTFRAG` is never set. -/
def datagram (k : Snd) (la lp fa fp : Nat) (data : List UInt8) : List UInt8 :=
  [0x45, UInt8.ofNat k.tos] ++ b16 (data.length + 28) ++ [0, 0, 0, 0, UInt8.ofNat k.ttl, 17, 0, 0] ++ b32 la ++ b32 fa ++
  (b16 lp ++ b16 fp ++ b16 (data.length + 8) ++ [0, 0] ++ data)

/-- Where a call leaves the packet it allocated. -/
inductive Fate where
  /-- none was allocated -/
  | none
  | freed
  /-- handed to `ofp_ip_output`, which keeps it -/
  | sent
deriving DecidableEq, Repr

/-- Local and foreign addresses of the datagram (src/ofp_udp_usrreq.c:1005-1101).  Like `Pcb.sendto`, and for a
connected socket without address the addresses of the connection. -/
def addresses (e : SEnv) (t : Pcb.Tab) (i : Nat) (dst : Option (Nat × Nat)) :
    Except SErr (Nat × Nat × Nat × Nat) × Pcb.Tab :=
  match t.pcb i with
  | none => (.error (.pcb .einval), t)
  | some p =>
    match dst with
    | none => if p.faddr = 0 then (.error .enotconn, t) else (.ok (p.laddr, p.lport, p.faddr, p.fport), t)
    | some (d, dp) =>
      let r := Pcb.sendto e.cfg e.pcb t i d dp
      match r.1 with
      | .error x => (.error (.pcb x), r.2)
      | .ok (la, lp) => (.ok (la, lp, if d = 0 then e.pcb.primary.getD 0 else d, dp), r.2)

/-- Result of `ofp_sendto`. -/
structure Sent where
  res : Except SErr Nat
  fate : Fate
  /-- the packet handed to `ofp_ip_output` -/
  pkt : Option (List UInt8)
  tab : Pcb.Tab
  snd : Snd

/-- `ofp_sendto` on a datagram socket (src/ofp_syscalls.c:131-167, `ofp_sosend_dgram` src/ofp_uipc_socket.c:927-1062,
`udp_output` src/ofp_udp_usrreq.c:881-1199). -/
def sendto (e : SEnv) (t : Pcb.Tab) (k : Snd) (i : Nat) (data : List UInt8) (dst : Option (Nat × Nat)) : Sent :=
  if k.shut then ⟨.error .epipe, .none, none, t, k⟩
  else if k.err ≠ 0 then ⟨.error (.soError k.err), .none, none, t, { k with err := 0 }⟩
  else if k.conn = false ∧ dst = none then ⟨.error .edestaddrreq, .none, none, t, k⟩
  else if e.alloc = false then ⟨.error .enobufs, .none, none, t, k⟩
  else if data.length + 28 > 65535 then ⟨.error .emsgsize, .freed, none, t, k⟩
  else
    match addresses e t i dst with
    | (.error x, t1) => ⟨.error x, .freed, none, t1, k⟩
    | (.ok (la, lp, fa, fp), t1) =>
      if e.push = false then ⟨.error .enobufs, .freed, none, t1, k⟩
      else
        let pkt := datagram k la lp fa fp data
        if e.out then ⟨.ok data.length, .sent, some pkt, t1, k⟩
        else ⟨.error .eio, .freed, some pkt, t1, k⟩

/-- Overwrite `xs` at offset `i` with `v`. -/
def put (xs : List UInt8) (i : Nat) (v : List UInt8) : List UInt8 := xs.take i ++ v ++ xs.drop (i + v.length)

/-- The value of `ofp_in4_cksum` as it is stored (little-endian `uint16_t`), 0 replaced by `0xffff`
(`ofp_udp_checksum_insert`, src/ofp_pkt_processing.c:1087-1098). -/
def udpSum (al : Nat → Bool × Bool) (l3 : List UInt8) : List UInt8 :=
  match Cksum.in4Cksum al [put l3 26 [0, 0]] 0 with
  | .ok 0 => [255, 255]
  | .ok v => [UInt8.ofNat (v % 256), UInt8.ofNat (v / 256)]
  | _ => [0, 0]

/-- What `ofp_ip_output` does to the bytes of a datagram that fits the link (src/ofp_pkt_processing.c:1060-1062,
1194-1195, 1112-1140): source filled in when it is 0, identification, transport checksum, header checksum (`hsum`, see
C02 and C77). -/
def onWire (al : Nat → Bool × Bool) (ifAddr ident : Nat) (hsum : List UInt8 → List UInt8) (l3 : List UInt8) :
    List UInt8 :=
  let a := put (if (l3.drop 12).take 4 = [0, 0, 0, 0] then put l3 12 (b32 ifAddr) else l3) 4 (b16 ident)
  let b := put a 26 (udpSum al a)
  put b 10 (hsum b)

end Verif.Udp

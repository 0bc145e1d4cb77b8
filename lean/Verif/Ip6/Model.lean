import Verif.Cksum.Model
import Verif.Radix.Model6
/-!
# Model of the IPv6 path

`ofp_ipv6_processing`, `ipv6_transport_classifier` and `ofp_ip6_output` (`src/ofp_pkt_processing.c`), the protocol table
(`src/ofp_ip6_init.c`, `src/ofp_in6_proto.c`), ICMPv6 (`src/ofp_icmp6.c`), neighbour discovery (`src/ofp_nd6.c`), the
IPv6 part of `src/ofp_route.c` with the packets that wait for a neighbour, and the checksum of `src/ofp_in6_cksum.c`.

* The state persists between packets: the route tree with its node pool (`Verif.Radix.Model6`), the next-hop records stored
  in its nodes, the free records for waiting packets, and the trace of what happened to packet buffers.  The tree
  stores the number of a next-hop record; a record gets a new number when a route is added.  In C the record is the
  memory of the tree node.
* Calls are atomic: concurrent calls of several cores are not modelled.
* A received frame is the interface, the source MAC address and the bytes from the IPv6 header on; packets occupy one
  segment.  Reads beyond the end of the packet give the bytes `Env.beyond` and are recorded.  A frame cut off inside the
  IPv6 header is dropped in the model at its first access outside the packet.
* Everything else is an oracle in `Env`: hooks, UDP and TCP input, GRE, interfaces, allocation, headroom, slow path.
* Not modelled: VRFs (the IPv6 routing code ignores them), VXLAN, statistics, the contents of TCP and UDP packets.
-/
namespace Verif.Ip6
open Verif

/-- `enum ofp_return_code` (include/api/ofp_types.h:25-38). -/
inductive Code where
  | cont | processed | drop
deriving DecidableEq, Repr

/-- An IPv6 address: 16 bytes in network order. -/
abbrev Addr := List UInt8
/-- An Ethernet address: 6 bytes. -/
abbrev Mac := List UInt8

/-- `ofp_in6addr_any` (src/ofp_in6.c:79). -/
def any : Addr := List.replicate 16 0
/-- A next hop whose MAC address is not known (src/ofp_pkt_processing.c:1381). -/
def noMac : Mac := List.replicate 6 0

/-- `struct ofp_ip6_hdr` (include/api/ofp_ip6.h) and the bytes after it: version, class and flow label (4 bytes), payload
length, next header, hop limit, addresses. -/
structure Pkt where
  vtf : List UInt8
  plen : Nat
  nxt : Nat
  hlim : Nat
  src : Addr
  dst : Addr
  body : List UInt8
deriving DecidableEq, Repr

def u8 (n : Nat) : UInt8 := UInt8.ofNat (n % 256)
/-- A 16-bit field on the wire (big-endian). -/
def b16 (n : Nat) : List UInt8 := [u8 (n / 256), u8 n]
/-- A 32-bit field on the wire (big-endian). -/
def b32 (n : Nat) : List UInt8 := [u8 (n / 16777216), u8 (n / 65536), u8 (n / 256), u8 n]

/-- The IPv6 header as bytes on the wire. -/
def Pkt.header (p : Pkt) : List UInt8 := p.vtf ++ b16 p.plen ++ [u8 p.nxt, u8 p.hlim] ++ p.src ++ p.dst
/-- All bytes from the L3 offset on. -/
def Pkt.bytes (p : Pkt) : List UInt8 := p.header ++ p.body

/-- The fields of a packet of at least 40 bytes. -/
def parse (b : List UInt8) : Pkt :=
  { vtf := b.take 4, plen := (b.getD 4 0).toNat * 256 + (b.getD 5 0).toNat, nxt := (b.getD 6 0).toNat,
    hlim := (b.getD 7 0).toNat, src := (b.drop 8).take 16, dst := (b.drop 24).take 16, body := b.drop 40 }

/-- A received frame: interface, Ethernet source address, the bytes from the IPv6 header on. -/
structure Frame where
  dev : Nat
  smac : Mac
  raw : List UInt8
deriving DecidableEq, Repr

/-- `OFP_IN6_IS_ADDR_MULTICAST` (include/api/ofp_in6.h:261). -/
def isMulticast (a : Addr) : Bool := a.headD 0 == 255
/-- `OFP_IN6_IS_ADDR_LINKLOCAL` (include/api/ofp_in6.h:251-253). -/
def isLinkLocal (a : Addr) : Bool := a.headD 0 == 254 && (a.getD 1 0).toNat / 64 == 2
/-- The condition of `ofp_in6_getscope` and `ofp_in6_clearscope` (src/ofp_in6.c:221-222, 236-237;
include/api/ofp_in6.h:262-279). -/
def isScoped (a : Addr) : Bool :=
  isLinkLocal a || (isMulticast a && ((a.getD 1 0).toNat % 16 == 2 || (a.getD 1 0).toNat % 16 == 1))

/-- The solicited-node multicast address of `t` (src/ofp_nd6.c:103-108). -/
def solicited (t : Addr) : Addr := [255, 2, 0, 0, 0, 0, 0, 0, 0, 0, 0, 1, 255] ++ t.drop 13
/-- `OFP_IN6_IS_SOLICITED_NODE_MC(m, t)` (include/ofpi_in6.h:18-26). -/
def isSolicited (m t : Addr) : Bool :=
  m.take 13 == [255, 2, 0, 0, 0, 0, 0, 0, 0, 0, 0, 1, 255] && m.drop 13 == t.drop 13
/-- ff02::1 (src/ofp_nd6.c:234-240). -/
def allNodes : Addr := [255, 2, 0, 0, 0, 0, 0, 0, 0, 0, 0, 0, 0, 0, 0, 1]

inductive Kind where
  | ether | gre | loopback
deriving DecidableEq, Repr

/-- `struct ofp_ifnet` (include/ofpi_portconf.h), the parts used here. -/
structure Dev where
  addr : Addr
  ll : Addr
  mac : Mac
  port : Nat
  vlan : Nat
  kind : Kind
deriving DecidableEq, Repr

/-- `struct ofp_nh6_entry` (include/api/ofp_route_arp.h): gateway (`any` = directly connected), interface, whether
`OFP_RTF_LOCAL` is set, MAC address, and the list of waiting packets, the last one first. -/
structure Nh where
  gw : Addr
  port : Nat
  vlan : Nat
  isLocal : Bool
  mac : Mac
  hold : List (Nat × Pkt)
deriving DecidableEq, Repr

/-- What became of a buffer, and other observable effects. -/
inductive Ev where
  | alloc (id : Nat)                              -- a buffer was received or allocated
  | free (id : Nat)                               -- `odp_packet_free`
  | tx (id dev : Nat) (mac : Mac) (p : Pkt)       -- sent on `dev` to the Ethernet address `mac`
  | loop (id dev : Nat) (p : Pkt)                 -- enqueued on the loopback queue of `dev`
  | tunnel (id dev : Nat) (p : Pkt)               -- taken by the GRE output
  | taken (id : Nat) (p : Pkt)                    -- taken by a hook or a transport protocol
  | slow (id : Nat)                               -- enqueued for the slow path
  | wait (id nh : Nat) (p : Pkt)                  -- queued at a next hop until its MAC address is known
  | notify (proto : Nat) (dst : Addr)             -- a transport protocol is told of an ICMPv6 error
  | outside (id : Nat)                            -- memory outside the packet was accessed
  | wild                                          -- the protocol table was indexed beyond its end
  | crash                                         -- NULL dereference
deriving DecidableEq, Repr

/-- The state: next buffer number, trace, route tree, next-hop records (those below `nnh` were created), free records for
waiting packets. -/
structure St where
  next : Nat
  evs : List Ev
  tab : Radix.St6 Nat
  nh : Nat → Nh
  nnh : Nat
  ents : Nat

def St.emit (s : St) (e : Ev) : St := { s with evs := s.evs ++ [e] }
/-- A new buffer, with the number `s.next`. -/
def St.alloc (s : St) : St := { s with next := s.next + 1, evs := s.evs ++ [.alloc s.next] }
def St.setNh (s : St) (i : Nat) (n : Nh) : St := { s with nh := fun j => if j = i then n else s.nh j }

/-- How UDP input ends (src/ofp_udp6_usrreq.c:185-520): delivered or freed there, dropped, or no socket for the port. -/
inductive UdpRes where
  | taken | drop | noPort
deriving DecidableEq

structure Env where
  dev : Nat → Dev
  ifnet : Nat → Nat → Option Nat         -- `ofp_get_ifnet(port, vlan)`
  hookLocal : Pkt → Code
  hookLocal6 : Pkt → Code
  hookFwd : Pkt → Code
  hookOut : Pkt → Code
  udp : Pkt → UdpRes
  tcp : Pkt → Code
  g : Nat → Bool                         -- bits read beyond the 16 bytes of an address (see `Radix.bit6`)
  al : Nat → Bool × Bool                 -- alignment of the packet data
  beyond : List UInt8                    -- memory after the end of the packet
  roomOk : Nat → Bool                    -- `trim_for_output` finds room for the Ethernet header
  loopOk : Nat → Bool
  tunnelOk : Nat → Bool
  allocOk : Nat → Bool                   -- allocation of this buffer succeeds
  sp : Bool                              -- built with slow path
  spOk : Nat → Bool
  blackhole : Bool                       -- `ofp_udp_blackhole`
  l2 : Nat                               -- length of the L2 header of received packets

/-! ## Checksum -/

/-- Sum of the 16-bit words of a byte string as a little-endian host reads them. -/
def wsum : List UInt8 → Nat
  | a :: b :: r => a.toNat + 256 * b.toNat + wsum r
  | _ => 0

/-- `ofp_in6_getscope` (src/ofp_in6.c:217-226). -/
def scope (a : Addr) : Nat := if isScoped a then (a.getD 2 0).toNat + 256 * (a.getD 3 0).toNat else 0

/-- `_ofp_in6_cksum_pseudo` (src/ofp_in6_cksum.c:81-127): length, next header, both addresses without their embedded
scope. -/
def pseudoSum (p : Pkt) (len nxt csum : Nat) : Nat :=
  csum + wsum (b32 len) + wsum [0, 0, 0, u8 nxt] + (wsum p.src - scope p.src) + (wsum p.dst - scope p.dst)

/-- `ofp_in6_cksum` (src/ofp_in6_cksum.c:141-164). -/
def in6Cksum (al : Nat → Bool × Bool) (p : Pkt) (nxt off len : Nat) : Cksum.Res :=
  match Cksum.cksum al [p.bytes] off len with
  | .ok c => .ok (Cksum.not16 (Cksum.reduce (pseudoSum p len nxt 0 + Cksum.not16 c)))
  | r => r

/-- A 16-bit value as a little-endian host stores it. -/
def le16 (n : Nat) : List UInt8 := [u8 n, u8 (n / 256)]

/-- Fill in the ICMPv6 checksum (src/ofp_icmp6.c:2137-2140). -/
def fillIcmp (env : Env) (p : Pkt) : Pkt :=
  let z : Pkt := { p with body := (p.body.set 2 0).set 3 0 }
  match in6Cksum env.al z 58 40 z.body.length with
  | .ok c => { z with body := (z.body.set 2 (u8 c)).set 3 (u8 (c / 256)) }
  | _ => z

/-- A neighbour discovery message (src/ofp_nd6.c:84-138, 221-267): the checksum is computed over the header from the payload
length on, with 0 in the place of the next header and 58 in that of the hop limit. -/
def ndPkt (env : Env) (src dst : Addr) (type : UInt8) (target : Addr) (opt : UInt8) (mac : Mac) : Pkt :=
  let msg (c : List UInt8) := [type, 0] ++ c ++ [0, 0, 0, 0] ++ target ++ [opt, 1] ++ mac
  let c := (Cksum.cksumBuffer (env.al 0).1 (env.al 0).2 68 (b16 32 ++ [0, 58] ++ src ++ dst ++ msg [0, 0])).getD 0
  { vtf := [96, 0, 0, 0], plen := 32, nxt := 58, hlim := 255, src := src, dst := dst, body := msg (le16 c) }

/-! ## Routes and waiting packets -/

/-- `ofp_rtl_search6` on the table (src/ofp_route.c:124-138). -/
def look (env : Env) (s : St) (a : Addr) : Option Nat := (Radix.search6 env.g s.tab a).join

/-- `add_route6` (src/ofp_route.c:279-307): nothing changes when the route exists already or nodes run out. -/
def addRoute (env : Env) (s : St) (dst : Addr) (len : Nat) (gw : Addr) (port vlan : Nat) (isLocal : Bool) : St :=
  match Radix.insert6 env.g s.tab dst len s.nnh with
  | (t, .ok) =>
    { s with tab := t, nnh := s.nnh + 1,
             nh := fun j => if j = s.nnh then ⟨gw, port, vlan, isLocal, noMac, []⟩ else s.nh j }
  | _ => s

/-- Freeing the waiting packets of a route (src/ofp_route.c:321-326). -/
def freeHeld : List (Nat × Pkt) → St → St
  | [], s => s
  | (i, _) :: l, s => freeHeld l { s.emit (.free i) with ents := s.ents + 1 }

/-- `del_route6` (src/ofp_route.c:309-333). -/
def delRoute (env : Env) (s : St) (dst : Addr) (len : Nat) : St :=
  match Radix.remove6 env.g s.tab dst len with
  | (t, some (some i)) =>
    let s1 : St := { s with tab := t }
    freeHeld (s.nh i).hold (s1.setNh i { s.nh i with hold := [] })
  | (t, _) => { s with tab := t }

/-- `ofp_route_save_ipv6_pkt` (src/ofp_route.c:335-363). -/
def savePkt (env : Env) (id : Nat) (p : Pkt) (s : St) : Code × St :=
  match look env s p.dst with
  | none => (.drop, s)
  | some i =>
    if s.ents = 0 then (.drop, s)
    else (.processed, { (s.setNh i { s.nh i with hold := (id, p) :: (s.nh i).hold }).emit (.wait id i p) with
                        ents := s.ents - 1 })

/-- Destination of a neighbour solicitation (src/ofp_nd6.c:98-108). -/
def nsDst (gw target : Addr) : Addr := if gw = any then solicited target else gw

/-- The neighbour solicitation (src/ofp_nd6.c:48-147); it is sent to the broadcast address. -/
def nsPkt (env : Env) (d : Nat) (gw target : Addr) : Pkt :=
  ndPkt env (env.dev d).addr (nsDst gw target) 135 target 1 (env.dev d).mac

/-- `ofp_nd6_ns_output` (src/ofp_nd6.c:48-147); `send_pkt_out` always takes the packet (src/ofp_pkt_send_burst.c:50-66).
-/
def nsOutput (env : Env) (d : Nat) (gw target : Addr) (s : St) : Code × St :=
  if env.allocOk s.next = false then (.drop, s)
  else (.processed, s.alloc.emit (.tx s.next d (List.replicate 6 255) (nsPkt env d gw target)))

/-- The MAC address of the next hop is not known (src/ofp_pkt_processing.c:1382-1397): a host route for the destination is
added, a solicitation is sent, the packet waits. -/
def resolve (env : Env) (id : Nat) (p : Pkt) (d : Nat) (gw : Addr) (s : St) : Code × St :=
  let s1 := addRoute env s p.dst 128 any (env.dev d).port (env.dev d).vlan false
  match nsOutput env d gw p.dst s1 with
  | (.drop, s2) => (.drop, s2)
  | (_, s2) => savePkt env id p s2

/-- The part of `ofp_ip6_output` after the interface is known (src/ofp_pkt_processing.c:1357-1424). -/
def outDev (env : Env) (id : Nat) (p : Pkt) (i d : Nat) (s : St) : Code × St :=
  if (env.dev d).kind = .gre then
    if env.tunnelOk id then (.processed, s.emit (.tunnel id d p)) else (.drop, s)
  else if env.roomOk id = false then (.drop, s)
  else if (env.dev d).addr = p.dst ∨ (env.dev d).kind = .loopback then
    if env.loopOk id then (.processed, s.emit (.loop id d p)) else (.drop, s)
  else if (s.nh i).mac = noMac then resolve env id p d (s.nh i).gw s
  else (.processed, s.emit (.tx id d (s.nh i).mac p))

/-- The next hop given, or the one of the route (src/ofp_pkt_processing.c:1340-1350). -/
def pick (env : Env) (p : Pkt) (nh : Option Nat) (s : St) : Option Nat :=
  match nh with
  | some i => some i
  | none => look env s p.dst

/-- `ofp_ip6_output` (src/ofp_pkt_processing.c:1310-1425). -/
def ip6Output (env : Env) (id : Nat) (p : Pkt) (nh : Option Nat) (s : St) : Code × St :=
  match env.hookOut p with
  | .drop => (.drop, s)
  | .processed => (.processed, s.emit (.taken id p))
  | .cont =>
    match pick env p nh s with
    | none => (.drop, s)
    | some i =>
      match env.ifnet (s.nh i).port (s.nh i).vlan with
      | none => (.drop, s)
      | some d => outDev env id p i d s

/-- Sending the packets that waited (src/ofp_route.c:171-176). -/
def sendHeld (env : Env) (i : Nat) : List (Nat × Pkt) → St → St
  | [], s => s
  | (id, p) :: l, s =>
    let r := ip6Output env id p (some i) s
    let s1 := if r.1 = .drop then r.2.emit (.free id) else r.2
    sendHeld env i l { s1 with ents := s1.ents + 1 }

/-- `ofp_add_mac6` (src/ofp_route.c:140-178). -/
def addMac (env : Env) (a : Addr) (mac : Mac) (s : St) : St :=
  match look env s a with
  | none => s
  | some i => sendHeld env i (s.nh i).hold.reverse (s.setNh i { s.nh i with mac := mac, hold := [] })

/-- A neighbour is learnt: `ofp_set_route6_params` and `ofp_add_mac6` (src/ofp_nd6.c:36-44, 163-171). -/
def learn (env : Env) (d : Nat) (a : Addr) (mac : Mac) (s : St) : St :=
  addMac env a mac (addRoute env s a 128 any (env.dev d).port (env.dev d).vlan false)

/-! ## ICMPv6 -/

/-- The message and the memory after it. -/
def mem (env : Env) (p : Pkt) : List UInt8 := p.body ++ env.beyond

/-- `&icmp6_data(icmp6)[4]`: the target address of a neighbour discovery message. -/
def target (p : Pkt) : Addr := (p.body.drop 8).take 16
/-- `icmp6_data(icmp6)[20]`: the type of the first option. -/
def optType (env : Env) (p : Pkt) : Nat := ((mem env p).getD 24 0).toNat
/-- `&icmp6_data(icmp6)[22]`: the link-layer address of the first option. -/
def optMac (env : Env) (p : Pkt) : Mac := ((mem env p).drop 26).take 6

/-- Record a read of byte `n - 1` of the ICMPv6 message. -/
def touch (id : Nat) (p : Pkt) (n : Nat) (s : St) : St := if p.body.length < n then s.emit (.outside id) else s

/-- `ofp_nd6_ns_input` (src/ofp_nd6.c:19-46). -/
def nsInput (env : Env) (d : Nat) (smac : Mac) (p : Pkt) (s : St) : St :=
  if optType env p = 1 ∧ p.src ≠ any ∧ isLinkLocal p.src = false then learn env d p.src smac s else s

/-- `ofp_nd6_na_input` (src/ofp_nd6.c:149-173). -/
def naInput (env : Env) (d : Nat) (smac : Mac) (p : Pkt) (s : St) : St :=
  if optType env p = 2 then learn env d (target p) smac s else s

/-- The neighbour advertisement (src/ofp_nd6.c:175-268). -/
def naPkt (env : Env) (d : Nat) (dst target : Addr) : Pkt :=
  ndPkt env (env.dev d).addr (if dst = any then allNodes else dst) 136 target 2 (env.dev d).mac

/-- `ofp_nd6_na_output` (src/ofp_nd6.c:175-276). -/
def naOutput (env : Env) (d : Nat) (dst target : Addr) (mac : Mac) (s : St) : St :=
  if env.allocOk s.next = false then s
  else s.alloc.emit (.tx s.next d mac (naPkt env d dst target))

/-- Source address chosen by `ofp_in6_selectsrc` for a destination, without interface and socket (src/ofp_in6.c:186-212;
`OFP_IN6_IS_ADDR_LOOPBACK` is ::1). -/
def selectSrc (env : Env) (s : St) (dst : Addr) : Option Addr :=
  if dst = List.replicate 15 0 ++ [1] then some dst
  else
    match look env s dst with
    | none => none
    | some i =>
      match env.ifnet (s.nh i).port (s.nh i).vlan with
      | none => none
      | some d => if (env.dev d).addr = any then none else some (env.dev d).addr

/-- The reply written by `ofp_icmp6_reflect` (src/ofp_icmp6.c:2072-2140). -/
def reply (env : Env) (p : Pkt) (srcA : Addr) : Pkt :=
  fillIcmp env { p with vtf := [96, 0, 0, 0], nxt := 58, hlim := 64, src := srcA, dst := p.src }

/-- `ofp_icmp6_reflect` (src/ofp_icmp6.c:2031-2149) with the offset 40, the only one that occurs; the result of the output
is ignored. -/
def reflect (env : Env) (id : Nat) (p : Pkt) (s : St) : St :=
  let nh6 := if isMulticast p.dst then none else look env s p.src
  match nh6 with
  | some i =>
    match env.ifnet (s.nh i).port (s.nh i).vlan with
    | none => s.emit .crash
    | some d => (ip6Output env id (reply env p (env.dev d).addr) (some i) s).2
  | none =>
    match selectSrc env s p.src with
    | none => s.emit (.free id)
    | some a => (ip6Output env id (reply env p a) none s).2

/-- `ofp_in6_clearscope` (src/ofp_in6.c:232-244). -/
def clearScope (a : Addr) : Addr := if isScoped a then (a.set 2 0).set 3 0 else a

/-- How many bytes of the packet `ofp_icmp6_error` quotes (src/ofp_icmp6.c:286-287, 358-360): what the header announces, up
to `OFP_ICMPV6_PLD_MAXLEN`. -/
def quoteLen (p : Pkt) : Nat := if p.plen + 40 > 1232 then 1232 else p.plen + 40

/-- The ICMPv6 error before it is reflected (src/ofp_icmp6.c:355-391). -/
def errPkt (env : Env) (p : Pkt) (type code param : Nat) : Pkt :=
  let q : Pkt := { p with src := clearScope p.src, dst := clearScope p.dst }
  { vtf := [0, 0, 0, 0], plen := 8 + quoteLen p, nxt := 0, hlim := 0, src := p.src, dst := p.dst,
    body := [u8 type, u8 code, 0, 0] ++ b32 param ++ (q.bytes ++ env.beyond).take (quoteLen p) }

/-- The tests for packets that must not be answered (src/ofp_icmp6.c:301-312). -/
def errQuiet (p : Pkt) (type code : Nat) : Bool :=
  (isMulticast p.dst && (type != 2 && (type != 4 || code != 2))) || decide (p.src = any) || isMulticast p.src

/-- `ofp_icmp6_error` (src/ofp_icmp6.c:264-402): it frees the packet in every case. -/
def icmpError (env : Env) (id : Nat) (p : Pkt) (type code param : Nat) (s : St) : St :=
  if errQuiet p type code then s.emit (.free id)
  else if env.allocOk s.next = false then s.emit (.free id)
  else
    let s1 := if p.bytes.length < quoteLen p then s.alloc.emit (.outside id) else s.alloc
    reflect env s.next (errPkt env p type code param) (s1.emit (.free id))

/-- The loop of `icmp6_notify_error` over the headers of the quoted packet (src/ofp_icmp6.c:923-1018): offset of the next
header and its type; `none` when the packet ends too early.  `b` is the memory from the IPv6 header on, of which `n`
bytes belong to the packet.  The result is the protocol and the final destination of a
routing header. -/
def walk (b : List UInt8) (n eoff nxt : Nat) (fin : Option Addr) : Option (Nat × Option Addr) :=
  if nxt = 0 ∨ nxt = 60 ∨ nxt = 51 then
    if n < eoff + 2 then none
    else
      let l := (b.getD (eoff + 1) 0).toNat
      walk b n (eoff + (if nxt = 51 then (l + 2) * 4 else (l + 1) * 8)) (b.getD eoff 0).toNat fin
  else if nxt = 43 then
    if n < eoff + 4 then none
    else
      let l := (b.getD (eoff + 1) 0).toNat
      if (b.getD (eoff + 3) 0).toNat ≠ 0 ∧ (b.getD (eoff + 2) 0).toNat = 0 then
        if n < eoff + (l + 1) * 8 then none
        else
          walk b n (eoff + (l + 1) * 8) (b.getD eoff 0).toNat
            (if l % 2 = 0 ∧ l / 2 ≠ 0 then some ((b.drop (eoff + 8 + 16 * (l / 2 - 1))).take 16) else fin)
      else walk b n (eoff + (l + 1) * 8) (b.getD eoff 0).toNat fin
  else if nxt = 44 then
    if n < eoff + 8 then none
    else if (b.getD (eoff + 2) 0).toNat ≠ 0 ∨ (b.getD (eoff + 3) 0).toNat / 8 ≠ 0 then some (nxt, fin)
    else walk b n (eoff + 8) (b.getD eoff 0).toNat fin
  else some (nxt, fin)
termination_by n - eoff
decreasing_by all_goals (first | (split <;> omega) | omega)

/-- `icmp6_notify_error` (src/ofp_icmp6.c:881-1080). -/
def notifyError (env : Env) (p : Pkt) (s : St) : St :=
  if p.body.length < 48 then s
  else
    match walk (p.bytes ++ env.beyond) p.bytes.length 88 ((mem env p).getD 14 0).toNat none with
    | none => s
    | some (proto, fin) => s.emit (.notify proto (fin.getD (((mem env p).drop 32).take 16)))

/-- Codes that exist for the ICMPv6 error types (src/ofp_icmp6.c:506-574). -/
def errorCode (type code : Nat) : Bool :=
  (type == 1 && decide (code ≤ 4)) || type == 2 || (type == 3 && decide (code ≤ 1)) || (type == 4 && decide (code ≤ 2))

/-- The `switch` of `ofp_icmp6_input` (src/ofp_icmp6.c:505-862). -/
def icmpType (env : Env) (id d : Nat) (smac : Mac) (p : Pkt) (type code : Nat) (s : St) : Code × St :=
  if type = 1 ∨ type = 2 ∨ type = 3 ∨ type = 4 then
    if errorCode type code then (.drop, notifyError env p s) else (.drop, s)
  else if type = 128 then
    if code ≠ 0 then (.drop, s)
    else (.processed, reflect env id { p with body := (p.body.set 0 129).set 1 0 } s)
  else if type = 129 then (if code ≠ 0 then (.drop, s) else (.processed, s))
  else if type = 135 then
    if code ≠ 0 ∨ p.body.length < 24 then (.drop, s)
    else
      let s1 := nsInput env d smac p (touch id p 25 s)
      if env.sp then (.cont, s1)
      else if p.body.length < 32 ∧ optType env p ≠ 1 then (.drop, s1)
      else (.processed, (naOutput env d p.src (target p) (optMac env p) (touch id p 32 s1)).emit (.free id))
  else if type = 136 then
    if code ≠ 0 ∨ p.body.length < 24 then (.drop, s)
    else (.cont, naInput env d smac p (touch id p 25 s))
  else if type = 138 then
    if 1 < code ∨ p.body.length < 16 then (.drop, s) else (.cont, s)
  else (.cont, s)

/-- `ofp_icmp6_input` (src/ofp_icmp6.c:418-880): `OFP_IP6_EXTHDR_CHECK` counts the L2 header too. -/
def icmpInput (env : Env) (id d : Nat) (smac : Mac) (p : Pkt) (s : St) : Code × St :=
  if env.l2 + p.bytes.length < 48 ∨ p.body.length < 8 then (.drop, s)
  else
    match in6Cksum env.al p 58 40 p.body.length with
    | .ok 0 => icmpType env id d smac p (p.body.getD 0 0).toNat (p.body.getD 1 0).toNat s
    | _ => (.drop, s)

/-! ## Input -/

/-- UDP input when no socket matches (src/ofp_udp6_usrreq.c:446-481). -/
def udpNoPort (env : Env) (id : Nat) (p : Pkt) (s : St) : Code × St :=
  if env.blackhole then (.drop, s)
  else if env.sp then (.cont, s)
  else (.processed, icmpError env id p 1 4 0 s)

/-- `ipv6_transport_classifier` (src/ofp_pkt_processing.c:222-236) with the table of `src/ofp_in6_proto.c:93-252`.
`ofp_icmp6_input` sets the next header to `OFP_IPPROTO_DONE` (257); when it returns `OFP_PKT_CONTINUE`, the loop goes on
and reads `ofp_ip6_protox[257]`, beyond the end of the table (256 entries).  The model takes that byte to be 0, which
leads to `ofp_ip6_input` and the slow path. -/
def classify (env : Env) (id d : Nat) (smac : Mac) (p : Pkt) (s : St) : Code × St :=
  if p.nxt = 58 then
    match icmpInput env id d smac p s with
    | (.cont, s1) => (.cont, s1.emit .wild)
    | r => r
  else if p.nxt = 17 then
    match env.udp p with
    | .taken => (.processed, s.emit (.taken id p))
    | .drop => (.drop, s)
    | .noPort => udpNoPort env id p s
  else if p.nxt = 6 then
    match env.tcp p with
    | .processed => (.processed, s.emit (.taken id p))
    | c => (c, s)
  else if p.nxt = 60 ∨ p.nxt = 43 ∨ p.nxt = 44 ∨ p.nxt = 0 then (.drop, icmpError env id p 4 1 0 s)
  else if p.nxt = 59 then (.processed, s)
  else (.cont, s)

/-- Is there a local route to the address (src/ofp_pkt_processing.c:488-492)? -/
def localRoute (env : Env) (s : St) (a : Addr) : Bool :=
  match look env s a with
  | some i => (s.nh i).isLocal
  | none => false

/-- Is the packet for this host (src/ofp_pkt_processing.c:478-493)? -/
def isOurs (env : Env) (d : Nat) (p : Pkt) (s : St) : Bool :=
  decide ((env.dev d).addr = p.dst) || isSolicited p.dst (env.dev d).addr ||
    decide ((env.dev d).ll.drop 8 = p.dst.drop 8) || localRoute env s p.dst

/-- `ofp_ipv6_processing` (src/ofp_pkt_processing.c:463-522). -/
def process (env : Env) (id d : Nat) (smac : Mac) (p : Pkt) (s : St) : Code × St :=
  if isOurs env d p s then
    match env.hookLocal p with
    | .drop => (.drop, s)
    | .processed => (.processed, s.emit (.taken id p))
    | .cont =>
      match env.hookLocal6 p with
      | .drop => (.drop, s)
      | .processed => (.processed, s.emit (.taken id p))
      | .cont => classify env id d smac p s
  else
    match env.hookFwd p with
    | .drop => (.drop, s)
    | .processed => (.processed, s.emit (.taken id p))
    | .cont =>
      match look env s p.dst with
      | none => (.cont, s)
      | some i => ip6Output env id p (some i) s

/-- The end of `ofp_packet_input` (src/ofp_pkt_processing.c:1480-1518). -/
def finish (env : Env) (id : Nat) (r : Code × St) : St :=
  match r.1 with
  | .drop => r.2.emit (.free id)
  | .processed => r.2
  | .cont => if env.sp && env.spOk id then r.2.emit (.slow id) else r.2.emit (.free id)

/-- `ofp_packet_input` for an IPv6 frame (src/ofp_pkt_processing.c:1428-1496). -/
def rx (env : Env) (f : Frame) (s : St) : St :=
  finish env s.next (if f.raw.length < 40 then (.drop, s.alloc.emit (.outside s.next))
    else process env s.next f.dev f.smac (parse f.raw) s.alloc)

/-- A packet of a local UDP socket (src/ofp_udp6_usrreq.c:836-841). -/
def send (env : Env) (p : Pkt) (s : St) : St :=
  let r := ip6Output env s.next p none s.alloc
  if r.1 = .drop then r.2.emit (.free s.next) else r.2

/-- What can happen. -/
inductive Op where
  | rx (f : Frame)
  | send (p : Pkt)
  | addRoute (dst : Addr) (len : Nat) (gw : Addr) (port vlan : Nat) (isLocal : Bool)
  | delRoute (dst : Addr) (len : Nat)

def step (env : Env) (s : St) : Op → St
  | .rx f => rx env f s
  | .send p => send env p s
  | .addRoute dst len gw port vlan l => addRoute env s dst len gw port vlan l
  | .delRoute dst len => delRoute env s dst len

def run (env : Env) (s : St) (ops : List Op) : St := ops.foldl (step env) s

/-- After initialisation (src/ofp_route.c:593-629): the root node only, `NUM_PKTS` (2048) free records for waiting
packets. -/
def init (nodes : Nat) : St :=
  { next := 0, evs := [], tab := Radix.init6 nodes, nh := fun _ => ⟨any, 0, 0, false, noMac, []⟩, nnh := 0, ents := 2048 }

end Verif.Ip6

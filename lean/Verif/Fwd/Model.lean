import Verif.Cksum.Model
import Verif.Frag.Model
/-!
# Model of the IPv4 path: `src/ofp_pkt_processing.c` and `src/ofp_icmp.c`

From `ofp_packet_input` through `ofp_ipv4_processing` (local delivery or forwarding), `ofp_ip_output`, fragmentation,
Ethernet/ARP output, and the ICMP code (`ofp_icmp_input`, `ofp_icmp_error`, `icmp_reflect`, `icmp_send`).

* Packet buffers are numbered: the received packet has the number 0, every allocation takes the next number.  The
  functions return the C return code and append events to a trace; the events record what became of which buffer.
* Everything outside these files is an oracle in `Env`: hooks, IPsec, the route table, interfaces, transport protocols,
  the ARP table, allocation and transmission.  Oracles about a buffer take its number, so that every combination of
  failures can be chosen.  Hooks may consume or drop a packet but are assumed not to modify it.
* IPv4 packets are the header fields, the option bytes and the bytes after the header (`body`).  `ip_hl` is determined
  by the option bytes (`5 + opts.length / 4`), so headers with `ip_hl < 5` are not represented
  (`ofp_ipv4_processing` has no check for them).  Packets occupy one segment.
* Not modelled: VXLAN input devices, statistics, redirects (`OFP_SEND_ICMP_REDIRECT` is off by default), transmit
  checksum offload, and IPsec tunnelling beyond its return code.
-/
namespace Verif.Fwd

/-- `enum ofp_return_code` (include/api/ofp_types.h:25-38). -/
inductive Code where
  | cont | processed | drop
deriving DecidableEq, Repr

/-- Header fields of `struct ofp_ip` (include/api/ofp_ip.h) in host order; `sum` is the checksum as read by a
little-endian host; addresses are host-order numbers. -/
structure Hdr where
  tos : Nat
  len : Nat
  id : Nat
  off : Nat
  ttl : Nat
  proto : Nat
  sum : Nat
  src : Nat
  dst : Nat
deriving DecidableEq, Repr

/-- A packet: header, options, the bytes after the header, the interface it belongs to (`odp_packet_user_ptr`). -/
structure Pkt where
  hdr : Hdr
  opts : List UInt8
  body : List UInt8
  dev : Nat
deriving DecidableEq, Repr

/-- `ip_hl`. -/
def Pkt.hl (p : Pkt) : Nat := 5 + p.opts.length / 4
/-- `ip_hl << 2`. -/
def Pkt.hlen (p : Pkt) : Nat := 20 + p.opts.length

def u8 (n : Nat) : UInt8 := UInt8.ofNat (n % 256)
/-- A 16-bit field on the wire (big-endian). -/
def b16 (n : Nat) : List UInt8 := [u8 (n / 256), u8 n]
/-- A 32-bit field on the wire (big-endian). -/
def b32 (n : Nat) : List UInt8 := [u8 (n / 16777216), u8 (n / 65536), u8 (n / 256), u8 n]

/-- The header (with options) as bytes on the wire; `sum` is stored little-endian. -/
def Pkt.header (p : Pkt) : List UInt8 :=
  u8 (64 + p.hl) :: u8 p.hdr.tos :: (b16 p.hdr.len ++ b16 p.hdr.id ++ b16 p.hdr.off ++
    [u8 p.hdr.ttl, u8 p.hdr.proto, u8 p.hdr.sum, u8 (p.hdr.sum / 256)] ++ b32 p.hdr.src ++ b32 p.hdr.dst ++ p.opts)

/-- All bytes from the L3 offset on. -/
def Pkt.bytes (p : Pkt) : List UInt8 := p.header ++ p.body

/-- What became of a buffer, and other observable effects. -/
inductive Ev where
  | alloc (id : Nat)                              -- a new buffer was allocated
  | free (id : Nat)                               -- `odp_packet_free`
  | tx (id dev gw : Nat) (p : Pkt)                -- handed to `send_pkt_out` on `dev`, next hop `gw`
  | loop (id dev : Nat) (p : Pkt)                 -- enqueued on the loopback queue of `dev`
  | wait (id dev gw : Nat) (p : Pkt)              -- queued until the MAC address of `gw` is known
  | tunnel (id dev : Nat) (p : Pkt)               -- taken by the GRE or VXLAN output
  | ipsec (id : Nat) (p : Pkt)                    -- taken by asynchronous IPsec processing
  | taken (id : Nat) (p : Pkt)                    -- taken by a hook or a transport protocol
  | held (id : Nat)                               -- kept by reassembly
  | slow (id : Nat)                               -- enqueued for the slow path
  | arp (dev gw : Nat)                            -- an ARP request was sent
  | notify (prc : Nat) (proto : Nat)              -- a transport protocol is told of an ICMP error
  | outside (id : Nat)                            -- memory outside the packet was accessed
  | crash                                         -- NULL dereference
  | stuck                                         -- endless loop
deriving DecidableEq, Repr

/-- Trace so far and next buffer number. -/
structure St where
  next : Nat
  evs : List Ev
deriving DecidableEq, Repr

def St.emit (s : St) (e : Ev) : St := { next := s.next, evs := s.evs ++ [e] }

/-- A new buffer, with the number `s.next`. -/
def St.alloc (s : St) : St := { next := s.next + 1, evs := s.evs ++ [.alloc s.next] }

inductive Kind where
  | ether | gre | vxlan | loopback
deriving DecidableEq, Repr

/-- `struct ofp_ifnet` (include/ofpi_portconf.h), the parts used here. `addr`, `bcast` are those of
`ip_addr_info[0]`; `addrs` is what `ofp_ifnet_ip_find` searches. -/
structure Dev where
  mtu : Nat
  addr : Nat
  bcast : Nat
  addrs : List Nat
  vrf : Nat
  kind : Kind

/-- `struct ofp_nh_entry`: gateway (0 = directly connected), the interface (`none`: it does not exist), whether
`OFP_RTF_LOCAL` is set. -/
structure Nh where
  gw : Nat
  dev : Option Nat
  isLocal : Bool
deriving DecidableEq

/-- Result of the outbound IPsec policy lookup together with that of `ofp_ipsec_output` for the SA found. -/
inductive Sa where
  | discard | bypass | protect (r : Code)
deriving DecidableEq

/-- `odp_packet_l3_chksum_status` when the interface validates checksums. -/
inductive HwSum where
  | none | ok | unknown | bad
deriving DecidableEq

/-- How UDP input ends (src/ofp_udp_usrreq.c:290-590): delivered or freed there, dropped, given to the slow path, or
no socket for the destination port. -/
inductive UdpRes where
  | taken | drop | cont | noPort
deriving DecidableEq

structure Env where
  dev : Nat → Dev
  route : Nat → Nat → Option Nh
  own : Nat → Nat → Bool                 -- `ofp_get_ifnet_match(addr, ifp->vrf, ifp->vlan) != NULL` for interface `ifp`
  hookLocal : Pkt → Code
  hookLocal4 : Pkt → Code
  hookFwd : Pkt → Code
  hookOut : Pkt → Code
  ipsecIn : Pkt → Bool → Bool            -- `ofp_ipsec_inbound_check` lets the packet pass
  ipsecOut : Pkt → Sa
  transport : Pkt → Code                 -- `pr_input` of the protocols other than ICMP and UDP
  udp : Pkt → UdpRes
  reass : Pkt → Option Pkt               -- the reassembled packet, if complete
  hwSum : Pkt → HwSum
  odd : Bool                             -- alignment of the IP header
  al : Nat → Bool × Bool                 -- alignment of the packet data
  mac : Nat → Nat → Bool                 -- is the MAC address of `gw` on `dev` known?
  saveOk : Nat → Bool                    -- `ofp_arp_save_ipv4_pkt` queues the buffer
  loopOk : Nat → Bool                    -- `odp_queue_enq` on the loopback queue succeeds
  tunnelOk : Nat → Bool                  -- the tunnel output takes the buffer
  roomOk : Nat → Bool                    -- `trim_for_output` finds room for the Ethernet header
  allocOk : Nat → Bool                   -- allocation of this buffer succeeds
  ipId : Nat → Nat                       -- value of the identification counter for this buffer
  now : Nat                              -- `iptime()`
  beyond : List UInt8                    -- memory after the end of the packet
  sp : Bool                              -- built with slow path
  spOk : Nat → Bool                      -- the slow path queue exists and accepts the buffer
  l2 : Nat                               -- length of the L2 header
  blackhole : Bool                       -- `ofp_udp_blackhole`

/-- `OFP_IN_MULTICAST` (include/api/ofp_in.h:341-345). -/
def multicast (a : Nat) : Bool := a / 268435456 = 14

/-- `ip->ip_sum = 0; ip->ip_sum = ofp_cksum_iph(ip, ip->ip_hl)` (e.g. src/ofp_pkt_processing.c:1141-1144). -/
def fillSum (env : Env) (p : Pkt) : Pkt :=
  let z : Pkt := { p with hdr := { p.hdr with sum := 0 } }
  { p with hdr := { p.hdr with sum := (Cksum.cksumIph env.odd z.hl z.header).getD 0 } }

/-- `trim_tail` (src/ofp_pkt_processing.c:946-953): bytes after the end of the datagram are cut off. -/
def trimTail (p : Pkt) : Pkt := { p with body := p.body.take (p.hdr.len - p.hlen) }

/-- The address looked up in the ARP table (src/ofp_pkt_processing.c:967-971). -/
def hop (gw : Nat) (p : Pkt) : Nat := if gw = 0 then p.hdr.dst else gw

/-- `ofp_ip_output_send` (src/ofp_pkt_processing.c:1025-1037) or, for VXLAN devices, `ofp_ip_output_vxlan`
(lines 1227-1230), for a frame with its MAC addresses filled in.  `send_pkt_out` always takes the packet
(src/ofp_pkt_send_burst.c:50-66). -/
def ethSend (env : Env) (id : Nat) (p : Pkt) (d gw : Nat) (toSelf : Bool) (s : St) : Code × St :=
  if (env.dev d).kind = .vxlan then
    if env.tunnelOk id then (.processed, s.emit (.tunnel id d p)) else (.drop, s)
  else if toSelf then
    if env.loopOk id then (.processed, s.emit (.loop id d p)) else (.drop, s)
  else (.processed, s.emit (.tx id d gw p))

/-- `ofp_ip_output_add_eth` (src/ofp_pkt_processing.c:955-1022) followed by the transmission.  The MAC addresses written
are not part of the model.  An ARP request is sent from a buffer of its own, which is sent or freed. -/
def addEth (env : Env) (id : Nat) (p : Pkt) (d gw : Nat) (s : St) : Code × St :=
  let q := trimTail p
  if env.roomOk id = false then (.drop, s)
  else if multicast q.hdr.dst then ethSend env id q d (hop gw q) false s
  else if q.hdr.dst ∈ (env.dev d).addrs ∨ (env.dev d).kind = .loopback then ethSend env id q d (hop gw q) true s
  else if env.mac d (hop gw q) then ethSend env id q d (hop gw q) false s
  else if env.saveOk id then (.processed, (s.emit (.arp d (hop gw q))).emit (.wait id d (hop gw q) q))
  else (.drop, s.emit (.arp d (hop gw q)))

/-- `ofp_ip_output_continue` (src/ofp_pkt_processing.c:1212-1238). -/
def outContinue (env : Env) (id : Nat) (p : Pkt) (d gw : Nat) (ins : Bool) (s : St) : Code × St :=
  let q := if ins then fillSum env p else p
  if (env.dev d).kind = .gre then
    if env.tunnelOk id then (.processed, s.emit (.tunnel id d q)) else (.drop, s)
  else addEth env id q d gw s

/-- The packet built for a fragment (src/ofp_pkt_processing.c:868-895): header copied, length, offset, options and
payload replaced. -/
def fragPkt (p : Pkt) (f : Frag.Fragment) : Pkt :=
  { p with hdr := { p.hdr with len := f.len, off := f.field }, opts := f.opts, body := f.data }

/-- The fragment loop of `ofp_fragment_pkt` with the allocation and output of each fragment
(src/ofp_pkt_processing.c:847-909).  `pos` is the payload position of the next fragment; copying fails when the packet
has fewer bytes than its header announces. -/
def sendFrags (env : Env) (id : Nat) (p : Pkt) (d gw : Nat) : List Frag.Fragment → Nat → St → Code × St
  | [], _, s => (.processed, s.emit (.free id))
  | f :: fs, pos, s =>
    if env.allocOk s.next = false then (.drop, s)
    else if p.body.length < pos + f.data.length then (.drop, s.alloc.emit (.free s.next))
    else
      let r := outContinue env s.next (fragPkt p f) d gw true s.alloc
      if r.1 = .drop then (.drop, r.2.emit (.free s.next))
      else sendFrags env id p d gw fs (pos + f.data.length) r.2

/-- `ofp_fragment_pkt` (src/ofp_pkt_processing.c:794-910).  The payload is what the header announces; a packet that is
shorter is padded for the computation of the fragments, none of which gets beyond the check in `sendFrags`. -/
def fragmentPkt (env : Env) (id : Nat) (p : Pkt) (d gw : Nat) (s : St) : Code × St :=
  let n := p.hdr.len - p.hlen
  match Frag.fragment (env.dev d).mtu p.opts p.hdr.off ((p.body ++ List.replicate n 0).take n) with
  | none => (.processed, s.emit .stuck)
  | some fs => sendFrags env id p d gw fs 0 s

/-- Memory from the start of the IP header on. -/
def Pkt.mem (env : Env) (p : Pkt) : List UInt8 := p.bytes ++ env.beyond

/-- How many bytes of payload `ofp_icmp_error` quotes (src/ofp_icmp.c:259-261):
`(8 > (ip_in->ip_len - ip_hlen)) ? (ip_in->ip_len - ip_hlen) : 8` with `ip_len` in network byte order, unsigned. -/
def quoteLen (p : Pkt) : Nat :=
  let x := (Cksum.swap16 p.hdr.len + 4294967296 - p.hlen) % 4294967296
  if 8 > x then x else 8

/-- Bytes 4-7 of an ICMP error (src/ofp_icmp.c:265-280). -/
def errWord (type code dest mtu : Nat) : List UInt8 :=
  if type = 5 then b32 dest
  else if type = 12 then [u8 code, 0, 0, 0]
  else if type = 3 ∧ code = 4 ∧ mtu ≠ 0 then [0, 0] ++ b16 mtu
  else [0, 0, 0, 0]

/-- Code byte of an ICMP error (src/ofp_icmp.c:275, 281). -/
def errCode (type code : Nat) : Nat := if type = 12 then 0 else code

/-- The ICMP error packet before it is reflected (src/ofp_icmp.c:242-286): the first `2 * hlen + 16` bytes are copied
from the original, then the quoted header and payload, then the fields are set.  The checksum bytes are whatever was
there. -/
def errPkt (env : Env) (p : Pkt) (type code dest mtu : Nat) : Pkt :=
  let m := p.mem env
  let q := quoteLen p
  { hdr := { p.hdr with len := (2 * p.hlen + 16) % 65536, proto := 1, tos := 0 }, opts := p.opts, dev := p.dev,
    body := u8 type :: u8 (errCode type code) :: (m.drop (p.hlen + 2)).headD 0 :: (m.drop (p.hlen + 3)).headD 0 ::
      (errWord type code dest mtu ++ p.header ++
        (m.drop p.hlen).take q ++ (m.drop (2 * p.hlen + 8 + q)).take (8 - q)) }

/-- `OFP_ICMP_INFOTYPE` (include/api/ofp_icmp.h:213-218). -/
def infoType (t : Nat) : Bool := [0, 8, 9, 10, 13, 14, 15, 16, 17, 18].contains t

/-- `OFP_IP_OFFMASK` part of `ip_off`. -/
def fragOff (p : Pkt) : Nat := p.hdr.off % 8192
/-- `OFP_IP_DF`. -/
def df (p : Pkt) : Bool := p.hdr.off / 16384 % 2 = 1

/-- The tests of `ofp_icmp_error` for packets that must not be answered (src/ofp_icmp.c:198-209); the packet length
counts the L2 header too. -/
def errQuiet (env : Env) (p : Pkt) (type : Nat) : Bool :=
  decide (fragOff p ≠ 0) ||
  (decide (p.hdr.proto = 1) && decide (type ≠ 5) && decide (p.hlen + 8 ≤ env.l2 + p.bytes.length) &&
    !infoType (((p.mem env).drop p.hlen).headD 0).toNat)

/-- An output function: buffer, packet, next hop if already known. -/
abbrev Out := Nat → Pkt → Option Nh → St → Code × St

/-- ICMP checksum of `icmp_send` (src/ofp_icmp.c:763-765) over `ip_len - hlen` bytes from the end of the header, stored
little-endian at bytes 2 and 3. -/
def fillIcmp (env : Env) (p : Pkt) : Pkt :=
  let z : Pkt := { p with body := (p.body.set 2 0).set 3 0 }
  match Cksum.cksum env.al [z.bytes] z.hlen (z.hdr.len - z.hlen) with
  | .ok c => { z with body := (z.body.set 2 (u8 c)).set 3 (u8 (c / 256)) }
  | _ => z

/-- The header written by `icmp_reflect` (src/ofp_icmp.c:648-738): new source address, destination is the old source,
TTL 64, options removed. -/
def replyPkt (p : Pkt) (srcA : Nat) : Pkt :=
  { p with hdr := { p.hdr with src := srcA, dst := p.hdr.src, ttl := 64,
                               len := (p.hdr.len + 65536 - p.opts.length) % 65536 }, opts := [] }

/-- The part of `icmp_reflect` from `match:` on (src/ofp_icmp.c:648-743), and `icmp_send` (lines 755-777):
checksum and output; the result of the output is ignored. -/
def reflectSend (env : Env) (out : Out) (id : Nat) (p : Pkt) (srcA : Nat) (nh : Option Nh) (s : St) : Code × St :=
  (.processed, (out id (fillIcmp env (replyPkt p srcA)) nh s).2)

/-- `icmp_reflect` (src/ofp_icmp.c:566-748). -/
def reflect (env : Env) (out : Out) (id : Nat) (p : Pkt) (s : St) : Code × St :=
  if env.own p.dev p.hdr.dst then reflectSend env out id p p.hdr.dst none s
  else
    match env.route (env.dev p.dev).vrf p.hdr.src with
    | none =>
      if (env.dev p.dev).addr ≠ 0 then reflectSend env out id p (env.dev p.dev).addr none s
      else (.drop, s)
    | some nh =>
      match nh.dev with
      | none => (.drop, s.emit .crash)
      | some d => reflectSend env out id p (env.dev d).addr (some nh) s

/-- `ofp_icmp_error` (src/ofp_icmp.c:167-291).  All callers ignore its result; when `icmp_reflect` returns
`OFP_PKT_DROP` nobody frees the new packet. -/
def icmpError (env : Env) (out : Out) (p : Pkt) (type code dest mtu : Nat) (s : St) : St :=
  if errQuiet env p type then s
  else if env.allocOk s.next = false then s
  else
    let s1 := if p.bytes.length < 2 * p.hlen + 16 then s.alloc.emit (.outside s.next) else s.alloc
    (reflect env out s.next (errPkt env (fillSum env p) type code dest mtu) s1).2

/-- `ofp_ip_id_assign` (include/ofpi_ip.h:26-33). -/
def setId (p : Pkt) (n : Nat) : Pkt := { p with hdr := { p.hdr with id := n % 65536 } }

/-- `ofp_ip_id_assign` is done for locally generated packets only (src/ofp_pkt_processing.c:1195-1196). -/
def outPkt (env : Env) (id : Nat) (isLocal : Bool) (q : Pkt) : Pkt := if isLocal then setId q (env.ipId id) else q

/-- The next hop given, or the one of the route (src/ofp_pkt_processing.c:1043-1047). -/
def pickNh (env : Env) (p : Pkt) : Option Nh → Option Nh
  | some n => some n
  | none => env.route (env.dev p.dev).vrf p.hdr.dst

/-- `ofp_ip_output_find_route` (src/ofp_pkt_processing.c:1039-1066): next hop, interface, and the packet with its
source address filled in. -/
def findRoute (env : Env) (p : Pkt) (nh : Option Nh) : Option (Nh × Nat × Pkt) :=
  match pickNh env p nh with
  | none => none
  | some n =>
    match n.dev with
    | none => none
    | some d =>
      some (n, d, if p.hdr.src = 0 then { p with hdr := { p.hdr with src := (env.dev d).addr } } else p)

/-- The part of `ofp_ip_output_common_inline` after the IPsec step (src/ofp_pkt_processing.c:1185-1209). -/
def outRoute (env : Env) (err : Pkt → Nat → St → St) (id : Nat) (p : Pkt) (nh : Option Nh) (isLocal : Bool) (s : St) :
    Code × St :=
  match findRoute env p nh with
  | none => (.drop, s)
  | some (n, d, q) =>
    if (outPkt env id isLocal q).hdr.len > (env.dev d).mtu then
      if df (outPkt env id isLocal q) then (.drop, err (outPkt env id isLocal q) (env.dev d).mtu s)
      else fragmentPkt env id (outPkt env id isLocal q) d n.gw s
    else outContinue env id (outPkt env id isLocal q) d n.gw isLocal s

/-- `ofp_ip_output_common_inline` (src/ofp_pkt_processing.c:1158-1210); `err p mtu` is the ICMP "fragmentation needed"
error about `p`. -/
def outCommon (env : Env) (err : Pkt → Nat → St → St) (id : Nat) (p : Pkt) (nh : Option Nh) (isLocal : Bool) (sa : Sa)
    (s : St) : Code × St :=
  match env.hookOut p with
  | .drop => (.drop, s)
  | .processed => (.processed, s.emit (.taken id p))
  | .cont =>
    match sa with
    | .protect .drop => (.drop, s)
    | .protect .processed => (.processed, s.emit (.ipsec id p))
    | _ => outRoute env err id p nh isLocal s

/-- `ofp_ip_output` (src/ofp_pkt_processing.c:1147-1156) for packets sent by the ICMP code, with the ICMP error code
inlined: an error about an ICMP message sent by the ICMP code is again output, hence the recursion, which is bounded by
the first argument. -/
def ipOutput (env : Env) : Nat → Out
  | 0, _, _, _, s => (.drop, s.emit .stuck)
  | n + 1, id, p, nh, s =>
    match env.ipsecOut p with
    | .discard => (.drop, s)
    | sa => outCommon env (fun p mtu s => icmpError env (ipOutput env n) p 3 4 0 mtu s) id p nh true sa s

/-- Depth of recursion used; `Verif.Fwd.no_icmp_recursion` shows it is enough. -/
def depth : Nat := 3

/-- `icmp_deliver` (src/ofp_icmp.c:309-348): the quoted header is read from the packet when the *IP* length is at least
36 bytes. -/
def icmpDeliver (env : Env) (id : Nat) (p : Pkt) (prc : Nat) (s : St) : Code × St :=
  let b := p.body ++ env.beyond
  if p.hdr.len < 36 then (.drop, s)
  else
    let s1 := if p.body.length < 9 then s.emit (.outside id) else s
    let qhl := ((b.drop 8).headD 0).toNat % 16
    if p.hdr.len < 16 + 4 * qhl ∨ qhl < 5 then (.drop, s1)
    else
      let s2 := if p.body.length < 28 then s1.emit (.outside id) else s1
      (.drop, s2.emit (.notify prc ((b.drop 17).headD 0).toNat))

/-- `OFP_PRC_*` codes for destination unreachable (src/ofp_icmp.c:350-389; include/ofpi_protosw.h:225-248). -/
def unreachPrc (code : Nat) : Option Nat :=
  if code ∈ [0, 1, 5, 6, 7, 8, 11, 12, 14, 15] then some 8
  else if code = 4 then some 5
  else if code = 2 ∨ code = 3 then some 11
  else if code ∈ [9, 10, 13] then some 21
  else none

/-- Timestamp reply (src/ofp_icmp.c:431-443): receive and transmit time at bytes 12-19 of the message. -/
def tstamp (env : Env) (p : Pkt) : Pkt :=
  { p with body := 14 :: (p.body.drop 1).take 11 ++ b32 env.now ++ b32 env.now ++ p.body.drop 20 }

/-- The `switch` of `_ofp_icmp_input` (src/ofp_icmp.c:526-555). -/
def icmpType (env : Env) (out : Out) (id : Nat) (p : Pkt) (type code : Nat) (s : St) : Code × St :=
  if type = 3 then
    match unreachPrc code with
    | some prc => icmpDeliver env id p prc s
    | none => (.drop, s)
  else if type = 11 then (if code > 1 then (.drop, s) else icmpDeliver env id p (code + 18) s)
  else if type = 12 then (if code > 1 then (.drop, s) else icmpDeliver env id p 20 s)
  else if type = 4 then (if code ≠ 0 then (.drop, s) else icmpDeliver env id p 4 s)
  else if type = 8 then reflect env out id { p with body := p.body.set 0 0 } s
  else if type = 13 then
    if p.hdr.len < 20 then (.drop, s)
    else reflect env out id (tstamp env p) (if p.body.length < 20 then s.emit (.outside id) else s)
  else if type = 17 ∨ type = 5 then (.drop, s)
  else (.cont, s)

/-- `_ofp_icmp_input` (src/ofp_icmp.c:493-561): note that `icmplen` is the length of the whole IP datagram. -/
def icmpSwitch (env : Env) (out : Out) (id : Nat) (p : Pkt) (s : St) : Code × St :=
  if p.hdr.len < 8 then (.drop, s)
  else icmpType env out id p ((p.body ++ env.beyond).headD 0).toNat (((p.body ++ env.beyond).drop 1).headD 0).toNat
    (if p.body.length < 2 then s.emit (.outside id) else s)

/-- `ofp_icmp_input` (src/ofp_icmp.c:297-307). -/
def icmpInput (env : Env) (out : Out) (id : Nat) (p : Pkt) (s : St) : Code × St :=
  match Cksum.cksum env.al [p.bytes] p.hlen (p.hdr.len - p.hlen) with
  | .ok 0 => icmpSwitch env out id p s
  | _ => (.drop, s)

/-- UDP input when no socket matches (src/ofp_udp_usrreq.c:540-570): in a build without slow path an ICMP port
unreachable is sent, `ip_len` having been increased by the header length in the wrong byte order, and the packet is
reported as processed. -/
def udpNoPort (env : Env) (out : Out) (p : Pkt) (s : St) : Code × St :=
  if env.blackhole then (.drop, s)
  else if env.sp then (.cont, s)
  else
    let l := Cksum.swap16 ((Cksum.swap16 p.hdr.len + p.hlen) % 65536)
    let q : Pkt := { p with hdr := { p.hdr with len := l } }
    (.processed, icmpError env out q 3 3 0 0 s)

/-- `ipv4_transport_classifier` (src/ofp_pkt_processing.c:198-207). -/
def transport (env : Env) (out : Out) (id : Nat) (p : Pkt) (s : St) : Code × St :=
  if p.hdr.proto = 1 then icmpInput env out id p s
  else if p.hdr.proto = 17 then
    match env.udp p with
    | .taken => (.processed, s.emit (.taken id p))
    | .drop => (.drop, s)
    | .cont => (.cont, s)
    | .noPort => udpNoPort env out p s
  else
    match env.transport p with
    | .processed => (.processed, s.emit (.taken id p))
    | c => (c, s)

/-- Header checks of `ofp_ipv4_processing` (src/ofp_pkt_processing.c:322-346). -/
def hdrOk (env : Env) (p : Pkt) : Bool :=
  match env.hwSum p with
  | .ok => true
  | .bad => false
  | _ => Cksum.cksumIph env.odd p.hl p.header == some 0

/-- Is the packet for this host (src/ofp_pkt_processing.c:349-369)? -/
def isOurs (env : Env) (p : Pkt) : Bool :=
  decide ((env.dev p.dev).addr = p.hdr.dst) || multicast p.hdr.dst ||
    (match env.route (env.dev p.dev).vrf p.hdr.dst with | some n => n.isLocal | none => false)

/-- Local delivery after reassembly (src/ofp_pkt_processing.c:381-400). -/
def deliverUp (env : Env) (out : Out) (id : Nat) (p : Pkt) (s : St) : Code × St :=
  if env.ipsecIn p true = false then (.drop, s)
  else match env.hookLocal p with
    | .drop => (.drop, s)
    | .processed => (.processed, s.emit (.taken id p))
    | .cont => match env.hookLocal4 p with
      | .drop => (.drop, s)
      | .processed => (.processed, s.emit (.taken id p))
      | .cont => transport env out id p s

/-- `is_ours` branch (src/ofp_pkt_processing.c:371-402): fragments go to reassembly. -/
def localIn (env : Env) (out : Out) (id : Nat) (p : Pkt) (s : St) : Code × St :=
  if p.hdr.off % 16384 ≠ 0 then
    match env.reass p with
    | none => (.processed, s.emit (.held id))
    | some p' => deliverUp env out id p' s
  else deliverUp env out id p s

/-- `ip->ip_ttl--` and the incremental checksum update (src/ofp_pkt_processing.c:430-435); `odp_cpu_to_be_16(1 << 8)`
is 1 on a little-endian host. -/
def decTtl (p : Pkt) : Pkt :=
  let c := if p.hdr.sum ≥ 65534 then p.hdr.sum - 65534 else p.hdr.sum + 1
  { p with hdr := { p.hdr with ttl := p.hdr.ttl - 1, sum := c } }

/-- Forwarding (src/ofp_pkt_processing.c:404-458). -/
def forward (env : Env) (out : Out) (id : Nat) (p : Pkt) (s : St) : Code × St :=
  let nh := env.route (env.dev p.dev).vrf p.hdr.dst
  if env.ipsecIn p false = false then (.drop, s)
  else match env.hookFwd p with
    | .drop => (.drop, s)
    | .processed => (.processed, s.emit (.taken id p))
    | .cont =>
      if env.ipsecOut p = .discard then (.drop, s)
      else if nh.isNone ∧ env.ipsecOut p = .bypass then (.cont, s)
      else if p.hdr.ttl ≤ 1 then (.drop, icmpError env out p 11 0 0 0 s)
      else outCommon env (fun q mtu s => icmpError env out q 3 4 0 mtu s) id (decTtl p) nh false (env.ipsecOut p) s

/-- `ofp_ipv4_processing` (src/ofp_pkt_processing.c:294-459). -/
def ipv4Input (env : Env) (id : Nat) (p : Pkt) (s : St) : Code × St :=
  if hdrOk env p = false then (.drop, s)
  else if (env.dev p.dev).bcast = p.hdr.dst then (.drop, s)
  else if isOurs env p then localIn env (ipOutput env depth) id p s
  else forward env (ipOutput env depth) id p s

/-- `ofp_packet_input` for an IPv4 packet (src/ofp_pkt_processing.c:1427-1518): a dropped packet is freed, one the fast
path does not want goes to the slow path or is freed. -/
def packetInput (env : Env) (p : Pkt) : Code × St :=
  let r := ipv4Input env 0 p ⟨1, []⟩
  match r.1 with
  | .drop => (.drop, r.2.emit (.free 0))
  | .processed => r
  | .cont =>
    if env.sp && env.spOk 0 then (.processed, r.2.emit (.slow 0))
    else (.drop, r.2.emit (.free 0))

end Verif.Fwd

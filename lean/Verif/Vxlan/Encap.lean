import Verif.Vxlan.Tab
/-!
# Tunnels and VLAN tags: what happens to the bytes of a packet

Model of `ofp_vxlan_input`, `ofp_vxlan_prepend_hdr` (src/ofp_vxlan.c), `ofp_gre_input`,
`ofp_output_ipv4_to_gre`, `ofp_output_ipv6_to_gre` (src/ofp_gre.c) and of the header part of
`ofp_send_frame` (src/ofp_pkt_processing.c).

A packet is a list of bytes (numbers below 256) preceded by its head room; pushing exposes the bytes
that are in the head room, pulling leaves the pulled bytes there.  Packets have one segment.  IPv4
addresses are numbers in host order.  A read beyond the end of the packet gives 0.  The machine is
little-endian.
-/

namespace Verif.Vxlan

/-- An ODP packet as far as the tunnel code uses it. -/
structure Pkt where
  head : List Nat
  data : List Nat
  l2 : Nat
  l3 : Nat
  hasL2 : Bool
  deriving Repr, DecidableEq

/-- `odp_packet_push_head`; NULL if the head room is too small. -/
def push (p : Pkt) (n : Nat) : Option Pkt :=
  if n ≤ p.head.length then
    some { p with head := p.head.take (p.head.length - n),
                  data := p.head.drop (p.head.length - n) ++ p.data }
  else none

/-- `odp_packet_pull_head`; NULL if the packet is too short. -/
def pull (p : Pkt) (n : Nat) : Option Pkt :=
  if n ≤ p.data.length then
    some { p with head := p.head ++ p.data.take n, data := p.data.drop n }
  else none

/-- Overwrite bytes at offset `k`. -/
def poke (d : List Nat) (k : Nat) (bs : List Nat) : List Nat :=
  d.take k ++ bs ++ d.drop (k + bs.length)

/-- Byte `k`. -/
def b8 (d : List Nat) (k : Nat) : Nat := d.getD k 0
/-- Big-endian 16-bit word at offset `k`. -/
def b16 (d : List Nat) (k : Nat) : Nat := 256 * b8 d k + b8 d (k + 1)
/-- Big-endian 32-bit word at offset `k`. -/
def b32 (d : List Nat) (k : Nat) : Nat := 65536 * b16 d k + b16 d (k + 2)

/-- The bytes of a 16-bit field; larger numbers are truncated. -/
def be16 (x : Nat) : List Nat := [x / 256 % 256, x % 256]
/-- The bytes of a 32-bit field; larger numbers are truncated. -/
def be32 (x : Nat) : List Nat := be16 (x / 65536) ++ be16 x

/-- The MAC address at offset `k`. -/
def macAt (d : List Nat) (k : Nat) : Mac :=
  Fin.ofNat (2 ^ 48) (b8 d k + 256 * b8 d (k + 1) + 65536 * b8 d (k + 2) + 16777216 * b8 d (k + 3) +
    4294967296 * b8 d (k + 4) + 1099511627776 * b8 d (k + 5))

/-- Return codes (include/api/ofp_types.h) with what they leave: `cont` hands the packet to
the next handler, `give dev` means that processing goes on with the packet on interface `dev`. -/
inductive Res where
  | drop
  | cont (p : Pkt)
  | give (dev : Nat) (p : Pkt)
  deriving Repr, DecidableEq

/-! ## VXLAN -/

/-- A VXLAN interface: its VNI (the sub-port number), and the multicast group. -/
structure VxDev where
  vni : Nat
  group : Nat

/-- `ofp_vxlan_prepend_hdr` (src/ofp_vxlan.c:222-279).  The destination is the known end point of
the destination MAC address of the frame, or the multicast group.  `ip_id` is not written. -/
def vxPrepend (t : Tab) (dev : VxDev) (p : Pkt) : Option Pkt :=
  let a := getMac t (macAt p.data 0)
  let gw := if a = 0 then dev.group else a
  let size := p.data.length
  match push p 36 with
  | none => none
  | some q =>
    let d := poke q.data 0 ([0x45, 0] ++ be16 (size + 36))
    let d := poke d 6 ([0, 0, 2, 17, 0, 0] ++ be32 0 ++ be32 gw)
    let d := poke d 20 (be16 17777 ++ be16 4789 ++ be16 (size + 8 + 8) ++ [0, 0])
    let d := poke d 28 (be32 0x08000000 ++ be32 (dev.vni * 256))
    some { q with data := d, l2 := 0, l3 := 0 }

/-- `ofp_vxlan_input` (src/ofp_vxlan.c:170-220).  `vx v` says whether sub-port `v` of the VXLAN port
exists; `ofp_get_ifnet` takes a 16-bit sub-port and answers sub-port 0 with the port itself
(src/ofp_portconf.c:1346-1370).  The second component is the MAC table. -/
def vxInput (t : Tab) (vx : Nat → Bool) (p : Pkt) : Res × Tab :=
  let ip := p.l3
  if b8 p.data (ip + 9) ≠ 17 then (.cont p, t)
  else
    let udp := ip + b8 p.data ip % 16 * 4
    if b16 p.data (udp + 2) ≠ 4789 then (.cont p, t)
    else
      let vni := b32 p.data (udp + 12) / 256
      let sub := vni % 65536
      if sub ≠ 0 ∧ ¬ vx sub then (.cont p, t)
      else
        let from' := b32 p.data (ip + 12)
        let vxlen := ip + b8 p.data ip % 16 * 4 + 8 + 8
        match pull p vxlen with
        | none => (.drop, t)
        | some q =>
          let l3 := if b16 q.data 12 = 0x8100 then 18 else 14
          (.give sub { q with l2 := 0, l3 := l3 }, setMac t (macAt q.data 6) from')

/-! ## GRE -/

/-- A GRE interface: sub-port number, end points, VRF. -/
structure Tun where
  id : Nat
  loc : Nat
  rem : Nat
  vrf : Nat
  deriving Repr, DecidableEq

/-- `ofp_get_ifnet_by_tunnel` and `vlan_match_tun` (src/ofp_portconf.c:1639-1671): the first match in
the order of the sub-port numbers, which is the order of the list; sub-port 0 does not count. -/
def byTunnel (ts : List Tun) (loc rem vrf : Nat) : Option Nat :=
  (ts.find? fun t => t.loc = loc ∧ t.rem = rem ∧ t.vrf = vrf ∧ t.id ≠ 0).map (·.id)

/-- The length of the GRE header as `ofp_gre_input` computes it (src/ofp_gre.c:68-76).  The flags are
tested in the byte order of the machine: the flag constants `0x8000`, ... meet the second byte. -/
def greLen (flags2 : Nat) : Nat :=
  4 + (if flags2 / 128 % 2 = 1 ∨ flags2 / 64 % 2 = 1 then 4 else 0) +
    (if flags2 / 32 % 2 = 1 then 4 else 0) + (if flags2 / 16 % 2 = 1 then 4 else 0)

/-- `ofp_gre_input` (src/ofp_gre.c:26-121) for a packet that arrived on an interface with VLAN `vlan`
(0: none) and VRF `vrf`.  `.cont` stands for the GRE hook and for an unknown protocol; the
fields of the GRE header are read at a fixed offset of 20 bytes. -/
def greInput (ts : List Tun) (vlan vrf : Nat) (p : Pkt) : Res :=
  let d := p.data
  match byTunnel ts (b32 d (p.l3 + 16)) (b32 d (p.l3 + 12)) vrf with
  | none => .cont p
  | some dev =>
    let dh := (d.drop p.l2).take 6
    let sh := (d.drop (p.l2 + 6)).take 6
    let ehl := if vlan ≠ 0 then 18 else 14
    let pt := [b8 d (p.l3 + 22), b8 d (p.l3 + 23)]
    let off := (p.l3 + b8 d p.l3 % 16 * 4 + greLen (b8 d (p.l3 + 21)) - ehl) % 65536
    match pull p off with
    | none => .drop
    | some q =>
      let d' :=
        if vlan ≠ 0 then
          let e := poke (poke q.data 0 dh) 0 sh
          poke e 12 ([0x81, 0x00] ++ be16 vlan ++ pt)
        else poke (poke (poke q.data 0 dh) 6 sh) 12 pt
      .give dev { q with data := d', l2 := 0, l3 := ehl }

/-- `ofp_output_ipv4_to_gre` (src/ofp_gre.c:123-164) up to the call of `ofp_ip_output_recurse`.
`ip_id` is not written; `l2_size` is an 8-bit variable. -/
def greOut4 (loc rem : Nat) (p : Pkt) : Option Pkt :=
  let ip := p.data.drop p.l3
  let l2size := if p.hasL2 then (p.l3 - p.l2) % 256 else 0
  match (if l2size ≤ 24 then push p (24 - l2size) else pull p (l2size - 24)) with
  | none => none
  | some q =>
    let d := poke q.data 20 (be16 0 ++ be16 0x0800)
    let d := poke d 0 ([0x45, b8 ip 1] ++ be16 (b16 ip 2 + 24))
    let d := poke d 6 ([0, 0, b8 ip 8, 47, 0, 0] ++ be32 loc ++ be32 rem)
    some { q with data := d, hasL2 := false, l3 := 0 }

/-- `ofp_output_ipv6_to_gre` (src/ofp_gre.c:166-214). -/
def greOut6 (loc rem : Nat) (p : Pkt) : Option Pkt :=
  let ip := p.data.drop p.l3
  let l2size := if p.hasL2 then (p.l3 - p.l2) % 256 else 0
  match (if l2size ≤ 24 then push p (24 - l2size) else pull p (l2size - 24)) with
  | none => none
  | some q =>
    let d := poke q.data 20 (be16 0 ++ be16 0x86dd)
    let d := poke d 0 ([0x45, 0] ++ be16 (b16 ip 4 + 40 + 24))
    let d := poke d 6 ([0, 0, b8 ip 7, 47, 0, 0] ++ be32 loc ++ be32 rem)
    some { q with data := d, hasL2 := false, l3 := 0 }

/-! ## VLAN tags -/

/-- `ofp_send_frame` (src/ofp_pkt_processing.c:715-786) for an interface that is not a GRE tunnel, up to
the transmission: `none` means `OFP_PKT_DROP`. -/
def sendFrame (vlan mtu : Nat) (p : Pkt) : Option Pkt :=
  let e := p.data.drop p.l2
  let r : Option Pkt :=
    if b16 e 12 = 0x8100 then
      if vlan ≠ 0 then
        some { p with data := poke p.data (p.l2 + 14) (be16 vlan) }
      else
        match pull p 4 with
        | none => none
        | some q => some { q with
            data := poke q.data 0 (e.take 12 ++ (e.drop 16).take 2), l3 := p.l3 - 4 }
    else
      if vlan ≠ 0 then
        match push p 4 with
        | none => none
        | some q => some { q with
            data := poke q.data 0 (e.take 12 ++ be16 0x8100 ++ be16 vlan ++ (e.drop 12).take 2),
            l3 := p.l3 + 4 }
      else some p
  match r with
  | none => none
  | some q =>
    let hl := if vlan ≠ 0 then 18 else 14
    if (q.data.length + 2 ^ 32 - hl) % 2 ^ 32 > mtu then none else some q

end Verif.Vxlan

/-!
# Interface and IPv4 address configuration

Model of the address configuration of src/ofp_portconf.c (`ofp_config_interface_up_v4`,
`_add_ip_v4`, `_del_ip_v4`, `_up_local`, `_down`, the interface look-ups, the list of interfaces
used by `bind`) together with the two route messages it is built from (`add_route`, `del_route` of
src/ofp_route.c).

Addresses are numbers in host order.  The IPv4 routing table is the table of stored prefixes, a
partial function of (VRF, network, length); that look-ups answer by longest prefix from it is
C12/C13 of the Mtrie and Radix models.  `ip_addr_info[8]` is the list of its entries before the
first one whose address is 0 (all later entries are 0).  Left out: GRE and VXLAN interfaces,
broadcast addresses, IPv6, reference counts of ARP entries, exhaustion of the routing table and the
`SP` commands.  A NULL dereference sets `crash`.
-/

namespace Verif.Ifcfg

/-- `struct ofp_ifnet_ipaddr` without the broadcast address (include/ofpi_portconf.h:110-114). -/
structure Ipa where
  ip : Nat
  mlen : Nat
  deriving Repr, DecidableEq

/-- `if_type` (include/ofpi_portconf.h): loopback interfaces are told apart from all others. -/
inductive Kind where
  | ether | loop
  deriving Repr, DecidableEq

/-- `struct ofp_ifnet` (include/ofpi_portconf.h:122-127): VRF, type, addresses. -/
structure Ifn where
  vrf : Nat
  kind : Kind
  addrs : List Ipa
  deriving Repr, DecidableEq

/-- `struct ofp_nh_entry` (include/api/ofp_types.h:40-46); `isLocal` is the flag `OFP_RTF_LOCAL`. -/
structure Nh where
  port : Nat
  vlan : Nat
  gw : Nat
  isLocal : Bool
  deriving Repr, DecidableEq

/-- A key of the routing table: VRF, network, prefix length. -/
abbrev Key := Nat × Nat × Nat

/-- An interface name: port and VLAN. -/
abbrev If := Nat × Nat

/-- Build options: `MTRIE` (configure.ac:272-281) and the number of VRFs. -/
structure Env where
  mtrie : Bool
  numVrf : Nat

/-- Configuration state: interfaces, routes, the list `in_ifaddrhead`, the number of free VLAN
records (src/ofp_portconf.c:40-75) and whether a NULL pointer has been dereferenced. -/
structure St where
  ifs : If → Option Ifn
  rt : Key → Option Nh
  ifq : List If
  pool : Nat
  crash : Bool

/-- `to_network_prefix` (src/ofp_rt_mtrie_lookup.c, src/ofp_rt_lookup.c): the first `m` bits. -/
def net (a m : Nat) : Nat := a / 2 ^ (32 - m) * 2 ^ (32 - m)

/-- `addr & mask` with `mask = ~0 << (32 - masklen)` in 32 bits; for length 0 the shift by 32 is
undefined and leaves all bits set on x86 (src/ofp_portconf.c:511-512). -/
def maskBy (a m : Nat) : Nat := if m = 0 then a else net a m

/-- `OFP_NUM_IFNET_IP_ADDRS` (include/api/ofp_config.h:106). -/
def maxIp : Nat := 8

/-- `OFP_FP_INTERFACE_MAX` (include/api/ofp_config.h), `NUM_PORTS`, `LOCAL_PORTS`
(include/ofpi_portconf.h:23-34). -/
def fpMax : Nat := 8
def numPorts : Nat := 11
def localPorts : Nat := 8

/-- `ofp_ifnet_ip_find` (src/ofp_portconf.c:2085-2093). -/
def ipFind (l : List Ipa) (a : Nat) : Option Nat := l.findIdx? (fun x => x.ip == a)

/-- `ofp_ifnet_ip_add` (src/ofp_portconf.c:2047-2059): the first free entry, whose mask is 0;
storing address 0 leaves the list as it is. -/
def ipAdd (a : Nat) (l : List Ipa) : List Ipa :=
  if a = 0 then l else if l.length < maxIp then l ++ [⟨a, 0⟩] else l

/-- `ofp_ifnet_ip_remove` (src/ofp_portconf.c:2061-2083): the last entry replaces the removed one;
nothing happens when the list is full. -/
def ipRemove (a : Nat) (l : List Ipa) : List Ipa :=
  match ipFind l a with
  | none => l
  | some i => if l.length = maxIp then l else (l.set i (l.getLast?.getD ⟨0, 0⟩)).dropLast

/-- `ofp_set_first_ifnet_addr` (src/ofp_portconf.c:2098-2125). -/
def setFirst (a m : Nat) (l : List Ipa) : List Ipa :=
  match ipFind l a with
  | none => l
  | some 0 => l.set 0 ⟨a, m⟩
  | some i => (l.set i (l.head?.getD ⟨0, 0⟩)).set 0 ⟨a, m⟩

/-- `ofp_ifnet_ip_find_update_fields` (src/ofp_portconf.c:2142-2155). -/
def updFields (a m : Nat) (l : List Ipa) : List Ipa :=
  match ipFind l a with
  | none => l
  | some i => l.set i ⟨a, m⟩

/-- Overwrite one interface record. -/
def modIf (s : St) (k : If) (f : Ifn → Ifn) : St :=
  { s with ifs := fun k' => if k' = k then (s.ifs k).map f else s.ifs k' }

/-- Overwrite one routing table entry. -/
def setRt (s : St) (k : Key) (v : Option Nh) : St :=
  { s with rt := fun k' => if k' = k then v else s.rt k' }

/-- `ofp_ifaddr_elem_add` (src/ofp_portconf.c:1957-1973). -/
def qAdd (s : St) (k : If) : St :=
  if k ∈ s.ifq then s else { s with ifq := s.ifq ++ [k] }

/-- `ofp_ifaddr_elem_del` (src/ofp_portconf.c:1975-1991). -/
def qDel (s : St) (k : If) : St := { s with ifq := s.ifq.erase k }

/-- `ofp_get_create_ifnet` (src/ofp_portconf.c:1372-1415).  With no free VLAN record
`ofp_vlan_alloc` returns NULL and `memset` writes to it. -/
def getCreate (s : St) (k : If) : St :=
  if k.2 ≠ 0 ∨ k.1 = localPorts then
    match s.ifs k with
    | some _ => s
    | none =>
      if s.pool = 0 then { s with crash := true }
      else
        let s1 := qAdd s k
        { s1 with pool := s.pool - 1,
                  ifs := fun k' => if k' = k then some ⟨0, .ether, []⟩ else s.ifs k' }
  else s

/-- `add_route` behind `ofp_set_route_msg` (src/ofp_route.c:180-241, 480-484).  The stored prefix
is overwritten if it exists; in the MTRIE build `ofp_rt_rule_add` then reports -1 and the address
list is left alone (src/ofp_rt_mtrie_lookup.c:247-254). -/
def addRoute (e : Env) (s : St) (vrf : Nat) (k : If) (dst m gw : Nat) (loc : Bool) : St :=
  if e.numVrf ≤ vrf then s
  else
    let key : Key := (vrf, net dst m, m)
    let old := s.rt key
    let s1 := setRt s key (some ⟨k.1, k.2, gw, loc⟩)
    if loc ∧ m = 32 ∧ (e.mtrie = false ∨ old = none) then
      modIf (getCreate s1 k) k (fun i => { i with addrs := ipAdd dst i.addrs })
    else s1

/-- `del_route` behind `ofp_set_route_msg` (src/ofp_route.c:243-283, 480-487): removing a local
route removes the address of the message from the interface named in the route. -/
def delRoute (e : Env) (s : St) (vrf dst m : Nat) : St :=
  if e.numVrf ≤ vrf then s
  else
    let key : Key := (vrf, net dst m, m)
    match s.rt key with
    | none => s
    | some nh =>
      let s1 := setRt s key none
      if nh.isLocal then
        modIf s1 (nh.port, nh.vlan) (fun i => { i with addrs := ipRemove dst i.addrs })
      else s1

/-- The addresses of an interface; none for an interface that does not exist. -/
def addrsOf (s : St) (k : If) : List Ipa := ((s.ifs k).map Ifn.addrs).getD []

/-- `ip_addr_info[i]`, zero beyond the last entry. -/
def infoAt (s : St) (k : If) (i : Nat) : Ipa := (addrsOf s k)[i]?.getD ⟨0, 0⟩

/-- `data->vrf`. -/
def vrfOf (s : St) (k : If) : Nat := ((s.ifs k).map Ifn.vrf).getD 0

/-- The loop of `ofp_free_ifnet_ip_list` (src/ofp_portconf.c:2180-2189) over the rest of the copy:
the mask is taken from the live list. -/
def freeLoop (e : Env) (k : If) : List Ipa → Nat → St → St
  | [], _, s => s
  | x :: rest, i, s =>
    let s1 := delRoute e s (vrfOf s k) (maskBy x.ip (infoAt s k i).mlen) x.mlen
    freeLoop e k rest (i + 1) (delRoute e s1 (vrfOf s1 k) x.ip 32)

/-- `ofp_free_ifnet_ip_list` (src/ofp_portconf.c:2157-2200). -/
def freeList (e : Env) (s : St) (k : If) : St := freeLoop e k (addrsOf s k) 0 s

/-- Answers of the configuration calls. -/
inductive Res where
  | ok | badPort | badVrf | badIf | already | failAdd | maskDiff | failDel | notFound
  deriving Repr, DecidableEq

/-- `vlan_ifnet_delete` with `free_key`: the record goes back to the pool. -/
def freeIf (s : St) (k : If) : St :=
  { s with ifs := fun k' => if k' = k then none else s.ifs k', pool := s.pool + 1 }

/-- `ofp_config_interface_down` (src/ofp_portconf.c:1179-1344), IPv4 part, GRE and VXLAN left out. -/
def down (e : Env) (s : St) (k : If) : St × Res :=
  if numPorts ≤ k.1 then (s, .badPort)
  else
    match s.ifs k with
    | none => (s, .badIf)
    | some i0 =>
      let s0 := qDel s k
      if k.2 ≠ 0 ∨ k.1 = localPorts then
        let s1 :=
          if addrsOf s0 k ≠ [] then
            let p := infoAt s0 k 0
            let sA :=
              if i0.kind = .loop then delRoute e s0 (vrfOf s0 k) p.ip p.mlen
              else delRoute e s0 (vrfOf s0 k) p.ip 32
            let sB := delRoute e sA (vrfOf sA k) (net p.ip p.mlen) p.mlen
            freeList e sB k
          else s0
        (freeIf s1 k, .ok)
      else
        let s1 :=
          if addrsOf s0 k ≠ [] then
            let p := infoAt s0 k 0
            let sA := delRoute e s0 (vrfOf s0 k) (net p.ip p.mlen) p.mlen
            let sB := delRoute e sA (vrfOf sA k) (infoAt sA k 0).ip 32
            freeList e sB k
          else s0
        (s1, .ok)

/-- The two deletions of the old primary address in `ofp_config_interface_up_v4`
(src/ofp_portconf.c:553-558, 586-592). -/
def delPrimary (e : Env) (s : St) (k : If) : St :=
  let s1 := delRoute e s (vrfOf s k) (infoAt s k 0).ip (infoAt s k 0).mlen
  delRoute e s1 (vrfOf s1 k) (infoAt s1 k 0).ip 32

/-- The two additions (src/ofp_portconf.c:560-565, 601-604, 648-652). -/
def addPair (e : Env) (s : St) (vrf : Nat) (k : If) (a m : Nat) : St :=
  addRoute e (addRoute e s vrf k a 32 0 true) vrf k (maskBy a m) m 0 false

/-- The last steps of `ofp_config_interface_up_v4` (src/ofp_portconf.c:559-566, 594-605). -/
def upTail (e : Env) (s : St) (k : If) (vrf a m : Nat) : St :=
  let s1 := modIf s k (fun i => { i with vrf := vrf })
  let s2 := if k.2 = 0 then qAdd s1 k else s1
  modIf (addPair e s2 vrf k a m) k (fun i => { i with addrs := setFirst a m i.addrs })

/-- `ofp_config_interface_up_v4` (src/ofp_portconf.c:490-626). -/
def upV4 (e : Env) (s : St) (k : If) (vrf a m : Nat) : St × Res :=
  if fpMax ≤ k.1 then (s, .badPort)
  else if e.numVrf ≤ vrf then (s, .badVrf)
  else
    let s0 :=
      match s.ifs k with
      | some i => if i.vrf ≠ vrf then getCreate (down e s k).1 k else s
      | none => s
    if k.2 ≠ 0 then
      match s0.ifs k with
      | none => (upTail e (getCreate s0 k) k vrf a m, .ok)
      | some _ => (upTail e (delPrimary e s0 k) k vrf a m, .ok)
    else
      let s1 := if addrsOf s0 k ≠ [] then delPrimary e s0 k else s0
      (upTail e s1 k vrf a m, .ok)

/-- `ofp_config_interface_add_ip_v4` (src/ofp_portconf.c:628-675). -/
def addIp (e : Env) (s : St) (k : If) (vrf a m : Nat) : St × Res :=
  if fpMax ≤ k.1 then (s, .badPort)
  else
    match s.ifs k with
    | none => (s, .badIf)
    | some i =>
      match ipFind i.addrs a with
      | some _ => (s, .already)
      | none =>
        let s1 := addPair e s vrf k a m
        match ipFind (addrsOf s1 k) a with
        | some _ => (modIf s1 k (fun i => { i with addrs := updFields a m i.addrs }), .ok)
        | none => (delRoute e (delRoute e s1 vrf (maskBy a m) m) vrf a 32, .failAdd)

/-- `ofp_config_interface_del_ip_v4` (src/ofp_portconf.c:677-736). -/
def delIp (e : Env) (s : St) (k : If) (a m : Nat) : St × Res :=
  if fpMax ≤ k.1 then (s, .badPort)
  else
    match s.ifs k with
    | none => (s, .badIf)
    | some i =>
      match ipFind i.addrs a with
      | none => (s, .notFound)
      | some idx =>
        if m ≠ (infoAt s k idx).mlen then (s, .maskDiff)
        else
          let s1 := delRoute e s i.vrf (maskBy a m) m
          let s2 := delRoute e s1 i.vrf a 32
          match ipFind (addrsOf s2 k) a with
          | some _ => (s2, .failDel)
          | none => (if addrsOf s2 k = [] then qDel s2 k else s2, .ok)

/-- `ofp_config_interface_up_local` (src/ofp_portconf.c:932-986). -/
def upLocal (e : Env) (s : St) (id vrf a m : Nat) : St × Res :=
  if e.numVrf ≤ vrf then (s, .badVrf)
  else
    let k : If := (localPorts, id)
    let s0 := match s.ifs k with
      | some _ => (down e s k).1
      | none => s
    let s1 := modIf (getCreate s0 k) k (fun i => { i with vrf := vrf, kind := .loop })
    let s2 := addRoute e s1 vrf k a m 0 true
    (modIf s2 k (fun i => { i with addrs := updFields a m i.addrs }), .ok)

/-- `ofp_delete_ifnet` (src/ofp_portconf.c:1417-1435); `false` is -1. -/
def deleteIf (s : St) (k : If) : St × Bool :=
  if k.2 ≠ 0 ∨ k.1 = localPorts then
    match s.ifs k with
    | none => (s, true)
    | some _ => (freeIf s k, true)
  else (s, false)

/-- `vlan_iterate_inorder` with a matching function (src/ofp_portconf.c:132-141, 1594-1604): the
first VLAN in ascending order for which it returns non-zero; 0 when there is none. -/
def firstVlan (s : St) (p : Nat) (f : Ifn → Bool) : Nat :=
  ((List.range 65536).find? (fun v => v ≠ 0 && ((s.ifs (p, v)).map f).getD false)).getD 0

/-- `ofp_get_ifnet_match` (src/ofp_portconf.c:1501-1527). -/
def ifMatch (s : St) (a vrf vlan : Nat) : Option If :=
  if vlan = 0 then
    ((List.range fpMax).find? (fun p => decide (vrfOf s (p, 0) = vrf)
      && (ipFind (addrsOf s (p, 0)) a).isSome)).map (fun p => (p, 0))
  else
    match (List.range fpMax).find? (fun p => firstVlan s p (fun i => (ipFind i.addrs a).isSome) ≠ 0) with
    | none => none
    | some p => if (s.ifs (p, vlan)).isSome then some (p, vlan) else none

/-- `ofp_get_ifnet_by_ip` (src/ofp_portconf.c:1606-1632). -/
def byIp (s : St) (a vrf : Nat) : Option If :=
  match (List.range fpMax).find? (fun p => decide ((infoAt s (p, 0) 0).ip = a)
      && decide (vrfOf s (p, 0) = vrf)) with
  | some p => some (p, 0)
  | none =>
    let f : Ifn → Bool := fun i => decide ((i.addrs[0]?.getD (Ipa.mk 0 0)).ip = a) && decide (i.vrf = vrf)
    ((List.range fpMax).find? (fun p => firstVlan s p f ≠ 0)).map (fun p => (p, firstVlan s p f))

/-- `ofp_ifaddr_elem_get` (src/ofp_portconf.c:1993-2008), the test of `bind`
(src/ofp_in_pcb.c:594-599). -/
def elemGet (s : St) (vrf a : Nat) : Option If :=
  s.ifq.find? (fun k => decide ((infoAt s k 0).ip = a) && decide (vrfOf s k = vrf))

/-- The state after `ofp_portconf_init_global` (src/ofp_portconf.c:1830-1890): the base interfaces
exist without address in VRF 0. -/
def init (pool : Nat) : St :=
  { ifs := fun k => if k.2 = 0 ∧ k.1 < numPorts ∧ k.1 ≠ localPorts then some ⟨0, .ether, []⟩ else none,
    rt := fun _ => none, ifq := [], pool := pool, crash := false }

end Verif.Ifcfg

import Verif.Ifcfg.Model

/-!
# What a consistent configuration is

`Owned` and `Good` describe the state an administrator expects: every address of an interface has
its host route, marked local, and its subnet route, both through that interface and in its VRF;
there is no other local route; and every interface with an address is on the list `bind` consults.
-/

namespace Verif.Ifcfg

/-- The two routes of an address in a VRF. -/
def keysOf (vrf : Nat) (x : Ipa) : List Key := [(vrf, net x.ip x.mlen, x.mlen), (vrf, x.ip, 32)]

/-- The addresses `L` of interface `k` in VRF `vrf` have their routes, and no two share an address
or a subnet. -/
structure Owned (R : Key → Option Nh) (k : If) (vrf : Nat) (L : List Ipa) : Prop where
  loc : ∀ x ∈ L, R (vrf, x.ip, 32) = some ⟨k.1, k.2, 0, true⟩
  sub : ∀ x ∈ L, x.mlen ≠ 32 ∧ R (vrf, net x.ip x.mlen, x.mlen) = some ⟨k.1, k.2, 0, false⟩
  nip : (L.map Ipa.ip).Nodup
  nnet : (L.map (fun x => (net x.ip x.mlen, x.mlen))).Nodup

/-- A consistent configuration in which no address list is full. -/
structure Good (e : Env) (s : St) : Prop where
  base : ∀ p, p < 8 → ∃ i, s.ifs (p, 0) = some i
  eth : ∀ k i, s.ifs k = some i → i.kind = .ether → Owned s.rt k i.vrf i.addrs
  lp : ∀ k i, s.ifs k = some i → i.kind = .loop → k.1 = 8 ∧
    (i.addrs = [] ∨ ∃ a, i.addrs = [⟨a, 32⟩] ∧ s.rt (i.vrf, a, 32) = some ⟨k.1, k.2, 0, true⟩)
  com : ∀ k i, s.ifs k = some i → i.vrf < e.numVrf ∧ i.addrs.length ≤ 7 ∧ (∀ x ∈ i.addrs, x.ip ≠ 0)
    ∧ (i.addrs ≠ [] → k ∈ s.ifq)
  locR : ∀ w a l nh, s.rt (w, a, l) = some nh → nh.isLocal = true → l = 32 ∧ ∃ i,
    s.ifs (nh.port, nh.vlan) = some i ∧ i.vrf = w ∧ ∃ x ∈ i.addrs, x.ip = a
  qex : ∀ k ∈ s.ifq, ∃ i, s.ifs k = some i
  qnd : s.ifq.Nodup

end Verif.Ifcfg

namespace Verif.Ifcfg

/-- The addresses `ofp_config_interface_up_v4` takes from an interface: the primary one, or all of
them when the interface moves to another VRF. -/
def taken (s : St) (k : If) (vrf : Nat) : List Ipa :=
  match s.ifs k with
  | none => []
  | some i => if i.vrf = vrf then i.addrs.take 1 else i.addrs

/-- The addresses that stay. -/
def kept (s : St) (k : If) (vrf : Nat) : List Ipa :=
  match s.ifs k with
  | none => []
  | some i => if i.vrf = vrf then i.addrs.drop 1 else []

/-- The routes of the addresses `L` of interface `k`. -/
def routesOf (s : St) (k : If) (L : List Ipa) : List Key :=
  match s.ifs k with
  | none => []
  | some i => L.flatMap (keysOf i.vrf)

/-- All routes of interface `k`. -/
def allRoutes (s : St) (k : If) : List Key := routesOf s k (addrsOf s k)

end Verif.Ifcfg

import Verif.Ifcfg.Props3

/-! # Configurations that go wrong, and examples meeting the hypotheses of the theorems -/

namespace Verif.Ifcfg

/-- Default build, two VRFs; the build without MTRIE. -/
def eM : Env := ⟨true, 2⟩
def eR : Env := ⟨false, 2⟩

/-- 10.x.0.y in host order. -/
def ip (x y : Nat) : Nat := 167772160 + x * 65536 + y

/-! ### Non-vacuity -/

/-- A history of every kind of call: an address on port 0, a second one, a VLAN interface in VRF 1
moved to VRF 0, a loopback interface, a static route, deletions. -/
def demo : List Op :=
  [.up (0, 0) 0 (ip 1 1) 24, .add (0, 0) 0 (ip 2 1) 24, .up (1, 5) 1 (ip 1 1) 24, .up (1, 5) 0 (ip 3 1) 16,
   .loop 7 0 (ip 9 9), .rtAdd 0 (ip 50 0) 24 (ip 1 254) (0, 0), .up (0, 0) 0 (ip 4 1) 24, .del (0, 0) (ip 2 1) 24,
   .del (0, 0) (ip 77 7) 24, .rtDel 0 (ip 50 0) 24, .down (1, 5), .up (2, 0) 7 (ip 1 1) 24]

/-- The interfaces that can hold an address in `demo`. -/
theorem demo_result :
    addrsOf (run eM (init 4) demo) (0, 0) = [⟨ip 4 1, 24⟩] ∧ addrsOf (run eM (init 4) demo) (8, 7) = [⟨ip 9 9, 32⟩]
    ∧ (run eM (init 4) demo).rt (0, ip 4 1, 32) = some ⟨0, 0, 0, true⟩
    ∧ (run eM (init 4) demo).rt (0, ip 4 0, 24) = some ⟨0, 0, 0, false⟩
    ∧ (run eM (init 4) demo).rt (0, ip 1 1, 32) = none ∧ (run eM (init 4) demo).rt (0, ip 3 1, 32) = none
    ∧ elemGet (run eM (init 4) demo) 0 (ip 4 1) = some (0, 0) := by decide +kernel

/-- A history meeting the hypotheses of the theorems, call by call. -/
example : AllAllowed eM (init 4) [.up (0, 0) 0 (ip 1 1) 24, .add (0, 0) 0 (ip 2 1) 24, .up (1, 5) 1 (ip 1 1) 24,
    .loop 7 0 (ip 9 9), .up (0, 0) 0 (ip 4 1) 24, .del (0, 0) (ip 2 1) 24, .down (1, 5)] := by
  refine ⟨fun _ _ => ⟨by decide, by decide, by decide, by decide, .inl (by decide +kernel), .inl (by decide +kernel),
      by decide, by decide, by decide, by decide⟩,
    ⟨by decide, by decide, by decide +kernel, by decide +kernel, fun i _ hi => ?_⟩,
    fun _ _ => ⟨by decide, by decide, by decide, by decide, .inl (by decide +kernel), .inl (by decide +kernel),
      fun _ _ => by decide +kernel, fun _ i hi => ?_, fun _ i hi => ?_, fun _ i hi => ?_⟩,
    fun _ => ⟨by decide, .inl (by decide +kernel), fun _ => by decide +kernel⟩,
    fun _ _ => ⟨by decide, by decide, by decide, by decide, .inl (by decide +kernel), .inl (by decide +kernel),
      by decide, by decide, by decide, by decide⟩, trivial, trivial, trivial⟩
  · have h : (step eM (init 4) (.up (0, 0) 0 (ip 1 1) 24)).ifs (0, 0) = some ⟨0, .ether, [⟨ip 1 1, 24⟩]⟩ := by
      decide +kernel
    rw [h] at hi
    simp only [Option.some.injEq] at hi; subst hi
    exact ⟨rfl, by decide, by decide +kernel⟩
  all_goals
    have h : (step eM (step eM (init 4) (.up (0, 0) 0 (ip 1 1) 24)) (.add (0, 0) 0 (ip 2 1) 24)).ifs (1, 5) = none := by
      decide +kernel
    rw [h] at hi; cases hi

/-! ### An interface with eight addresses -/

/-- Port 0 with `n` addresses in different subnets. -/
def many (n : Nat) : List Op :=
  .up (0, 0) 0 (ip 1 1) 24 :: (List.range (n - 1)).map (fun j => .add (0, 0) 0 (ip (j + 2) 1) 24)

/-- **An address of a full interface cannot be removed**: the call reports failure, the routes of the
address are gone, and the address stays; `down` succeeds and leaves all eight addresses. -/
theorem full_list_violated (e : Env) (he : e = eM ∨ e = eR) :
    let s := run e (init 4) (many 8)
    (addrsOf s (0, 0)).length = 8 ∧ s.rt (0, ip 3 1, 32) = some ⟨0, 0, 0, true⟩ ∧
    (delIp e s (0, 0) (ip 3 1) 24).2 = .failDel ∧
    (delIp e s (0, 0) (ip 3 1) 24).1.rt (0, ip 3 1, 32) = none ∧
    (delIp e s (0, 0) (ip 3 1) 24).1.rt (0, ip 3 0, 24) = none ∧
    ⟨ip 3 1, 24⟩ ∈ addrsOf (delIp e s (0, 0) (ip 3 1) 24).1 (0, 0) ∧
    (down e s (0, 0)).2 = .ok ∧ (addrsOf (down e s (0, 0)).1 (0, 0)).length = 8 := by
  rcases he with rfl | rfl <;> decide +kernel

/-! ### Two addresses in one subnet -/

/-- **Removing one of two addresses in a subnet removes the subnet route of the other**, on the same
interface or on another one. -/
theorem shared_subnet_violated (e : Env) (he : e = eM ∨ e = eR) :
    (let s := run e (init 4) [.up (0, 0) 0 (ip 1 1) 24, .add (0, 0) 0 (ip 1 2) 24]
     (delIp e s (0, 0) (ip 1 2) 24).2 = .ok ∧ addrsOf (delIp e s (0, 0) (ip 1 2) 24).1 (0, 0) = [⟨ip 1 1, 24⟩] ∧
     (delIp e s (0, 0) (ip 1 2) 24).1.rt (0, ip 1 0, 24) = none) ∧
    (let s := run e (init 4) [.up (0, 0) 0 (ip 1 1) 24, .up (1, 0) 0 (ip 1 2) 24, .down (1, 0)]
     addrsOf s (0, 0) = [⟨ip 1 1, 24⟩] ∧ s.rt (0, ip 1 0, 24) = none) := by
  rcases he with rfl | rfl <;> decide +kernel

/-! ### Default routes deleted by configuring a VLAN interface -/

/-- **Configuring a VLAN interface that has no address deletes the default route of its VRF.** -/
theorem vlan_up_default_route_violated (e : Env) (he : e = eM ∨ e = eR) :
    let s := run e (init 4) [.up (0, 0) 0 (ip 1 1) 24, .rtAdd 0 0 0 (ip 1 254) (0, 0), .up (0, 5) 0 (ip 2 1) 24,
      .del (0, 5) (ip 2 1) 24]
    s.rt (0, 0, 0) = some ⟨0, 0, ip 1 254, false⟩ ∧ (upV4 e s (0, 5) 0 (ip 2 1) 24).2 = .ok ∧
    (upV4 e s (0, 5) 0 (ip 2 1) 24).1.rt (0, 0, 0) = none := by
  rcases he with rfl | rfl <;> decide +kernel

/-- **Moving a VLAN interface from VRF 0 to VRF 1 deletes the default route of VRF 0.** -/
theorem vlan_move_default_route_violated (e : Env) (he : e = eM ∨ e = eR) :
    let s := run e (init 4) [.up (0, 0) 0 (ip 1 1) 24, .rtAdd 0 0 0 (ip 1 254) (0, 0), .up (0, 5) 0 (ip 2 1) 24]
    s.rt (0, 0, 0) = some ⟨0, 0, ip 1 254, false⟩ ∧ (upV4 e s (0, 5) 1 (ip 2 1) 24).2 = .ok ∧
    (upV4 e s (0, 5) 1 (ip 2 1) 24).1.rt (0, 0, 0) = none := by
  rcases he with rfl | rfl <;> decide +kernel

/-! ### An address another interface has -/

/-- **A failed `add_ip` deletes the routes of the interface that has the address** (default build);
that interface keeps the address but is no longer reached at it. -/
theorem add_foreign_address_violated :
    let s := run eM (init 4) [.up (0, 0) 0 (ip 1 1) 24, .up (1, 0) 0 (ip 2 1) 24]
    (addIp eM s (1, 0) 0 (ip 1 1) 24).2 = .failAdd ∧
    s.rt (0, ip 1 1, 32) = some ⟨0, 0, 0, true⟩ ∧ (addIp eM s (1, 0) 0 (ip 1 1) 24).1.rt (0, ip 1 1, 32) = none ∧
    (addIp eM s (1, 0) 0 (ip 1 1) 24).1.rt (0, ip 1 0, 24) = none ∧
    addrsOf (addIp eM s (1, 0) 0 (ip 1 1) 24).1 (0, 0) = [⟨ip 1 1, 24⟩] := by decide +kernel

/-- Without MTRIE the same call succeeds and both interfaces have the address. -/
theorem add_foreign_address_radix_violated :
    let s := run eR (init 4) [.up (0, 0) 0 (ip 1 1) 24, .up (1, 0) 0 (ip 2 1) 24]
    (addIp eR s (1, 0) 0 (ip 1 1) 24).2 = .ok ∧
    ⟨ip 1 1, 24⟩ ∈ addrsOf (addIp eR s (1, 0) 0 (ip 1 1) 24).1 (0, 0) ∧
    ⟨ip 1 1, 24⟩ ∈ addrsOf (addIp eR s (1, 0) 0 (ip 1 1) 24).1 (1, 0) := by decide +kernel

/-- **`up_v4` reports success although the interface did not get the address** (default build),
and takes over the host route of the interface that has it. -/
theorem up_success_without_address_violated :
    let s := run eM (init 4) [.up (0, 0) 0 (ip 1 1) 24]
    (upV4 eM s (1, 0) 0 (ip 1 1) 24).2 = .ok ∧ addrsOf (upV4 eM s (1, 0) 0 (ip 1 1) 24).1 (1, 0) = [] ∧
    addrsOf (upV4 eM s (1, 0) 0 (ip 1 1) 24).1 (0, 0) = [⟨ip 1 1, 24⟩] ∧
    (upV4 eM s (1, 0) 0 (ip 1 1) 24).1.rt (0, ip 1 1, 32) = some ⟨1, 0, 0, true⟩ := by decide +kernel

/-! ### Prefix length 32 -/

/-- **An address with prefix length 32 is not local**: its subnet route overwrites the local host
route, so packets to it are not delivered; and it cannot be removed. -/
theorem mask32_violated (e : Env) (he : e = eM ∨ e = eR) :
    let s := (upV4 e (init 4) (0, 0) 0 (ip 1 1) 32).1
    (upV4 e (init 4) (0, 0) 0 (ip 1 1) 32).2 = .ok ∧ addrsOf s (0, 0) = [⟨ip 1 1, 32⟩] ∧
    s.rt (0, ip 1 1, 32) = some ⟨0, 0, 0, false⟩ ∧
    (delIp e s (0, 0) (ip 1 1) 32).2 = .failDel ∧ (down e s (0, 0)).2 = .ok ∧
    addrsOf (down e s (0, 0)).1 (0, 0) = [⟨ip 1 1, 32⟩] := by
  rcases he with rfl | rfl <;> decide +kernel

/-! ### Secondary address in another VRF -/

/-- **An address added with a VRF other than the interface's cannot be removed**, and its local
route is in a VRF the interface is not in. -/
theorem foreign_vrf_violated (e : Env) (he : e = eM ∨ e = eR) :
    let s := run e (init 4) [.up (0, 0) 0 (ip 1 1) 24, .add (0, 0) 1 (ip 2 1) 24]
    addrsOf s (0, 0) = [⟨ip 1 1, 24⟩, ⟨ip 2 1, 24⟩] ∧ vrfOf s (0, 0) = 0 ∧
    s.rt (1, ip 2 1, 32) = some ⟨0, 0, 0, true⟩ ∧ s.rt (0, ip 2 1, 32) = none ∧
    (delIp e s (0, 0) (ip 2 1) 24).2 = .failDel := by
  rcases he with rfl | rfl <;> decide +kernel

/-! ### `bind` -/

/-- **After its last address was removed a VLAN interface can no longer be bound to**, although a new
address was configured on it; the same holds for a port given an address by `add_ip`. -/
theorem bind_list_violated (e : Env) (he : e = eM ∨ e = eR) :
    (let s := run e (init 4) [.up (0, 5) 0 (ip 2 1) 24, .del (0, 5) (ip 2 1) 24, .up (0, 5) 0 (ip 2 1) 24]
     addrsOf s (0, 5) = [⟨ip 2 1, 24⟩] ∧ s.rt (0, ip 2 1, 32) = some ⟨0, 5, 0, true⟩ ∧ elemGet s 0 (ip 2 1) = none) ∧
    (let s := run e (init 4) [.up (0, 0) 0 (ip 2 1) 24, .del (0, 0) (ip 2 1) 24, .add (0, 0) 0 (ip 3 1) 24]
     addrsOf s (0, 0) = [⟨ip 3 1, 24⟩] ∧ elemGet s 0 (ip 3 1) = none) := by
  rcases he with rfl | rfl <;> decide +kernel

theorem not_primary {e : Env} {s : St} (hg : Good e s) {k : If} {i : Ifn} (hk : s.ifs k = some i) {x : Ipa}
    (hx : x ∈ i.addrs) (hh : ∀ m, i.addrs.head? ≠ some ⟨x.ip, m⟩) (k' : If) : ¬ Primary s k' i.vrf x.ip := by
  rintro ⟨i', hk', hv, m, h2⟩
  have := owner_unique hg hk hk' hv.symm hx (List.mem_of_head? h2) rfl
  subst this
  rw [hk] at hk'
  simp only [Option.some.injEq] at hk'
  subst hk'
  exact hh m h2

/-- **Secondary addresses cannot be bound to, and are not found by address**: in every consistent
state, for every address of an interface that is not its first. -/
theorem secondary_address_violated {e : Env} {s : St} (hg : Good e s) {k : If} {i : Ifn} (hk : s.ifs k = some i)
    {x : Ipa} (hx : x ∈ i.addrs) (hh : ∀ m, i.addrs.head? ≠ some ⟨x.ip, m⟩) :
    elemGet s i.vrf x.ip = none ∧ byIp s x.ip i.vrf = none := by
  have h0 := (hg.com k i hk).2.2.1 x hx
  have hnp := not_primary hg hk hx hh
  constructor
  · cases h : elemGet s i.vrf x.ip with
    | none => rfl
    | some k' => exact absurd ((bind_finds_primary_partial hg _ _ h0 k').1 h) (hnp k')
  · cases h : byIp s x.ip i.vrf with
    | none => rfl
    | some k' => exact absurd ((by_ip_exact hg _ _ h0 k').1 h).2.2 (hnp k')

/-- Such an address exists. -/
example : let s := run eM (init 4) [.up (0, 0) 0 (ip 1 1) 24, .add (0, 0) 0 (ip 2 1) 24]
    s.ifs (0, 0) = some ⟨0, .ether, [⟨ip 1 1, 24⟩, ⟨ip 2 1, 24⟩]⟩ := by decide +kernel

/-! ### VLAN records -/

/-- **Configuring a VLAN interface when all records are in use dereferences NULL.** -/
theorem vlan_pool_exhausted_violated (e : Env) (he : e = eM ∨ e = eR) :
    let s := run e (init 1) [.up (0, 5) 0 (ip 2 1) 24]
    s.crash = false ∧ (upV4 e s (0, 6) 0 (ip 3 1) 24).1.crash = true := by
  rcases he with rfl | rfl <;> decide +kernel

/-! ### `ofp_get_ifnet_match` with a VLAN -/

/-- **With a VLAN the look-up ignores the VRF and can return an interface without the address.** -/
theorem match_vlan_violated :
    let s := run eM (init 4) [.up (0, 5) 1 (ip 2 1) 24, .up (0, 6) 0 (ip 3 1) 24]
    ifMatch s (ip 2 1) 0 6 = some (0, 6) ∧ vrfOf s (0, 5) = 1 ∧ addrsOf s (0, 6) = [⟨ip 3 1, 24⟩] := by
  refine ⟨?_, by decide +kernel, by decide +kernel⟩
  generalize hs : run eM (init 4) [.up (0, 5) 1 (ip 2 1) 24, .up (0, 6) 0 (ip 3 1) 24] = s
  have h5 : s.ifs (0, 5) = some ⟨1, .ether, [⟨ip 2 1, 24⟩]⟩ := by rw [← hs]; decide +kernel
  have h6 : (s.ifs (0, 6)).isSome = true := by rw [← hs]; decide +kernel
  have hf : firstVlan s 0 (fun i => (ipFind i.addrs (ip 2 1)).isSome) ≠ 0 :=
    firstVlan_ne.2 ⟨5, _, by omega, by omega, h5, by decide⟩
  unfold ifMatch
  rw [if_neg (by decide)]
  have : (List.range fpMax).find? (fun p => firstVlan s p (fun i => (ipFind i.addrs (ip 2 1)).isSome) ≠ 0) = some 0 := by
    rw [show List.range fpMax = 0 :: [1, 2, 3, 4, 5, 6, 7] from rfl, List.find?_cons_of_pos]
    exact decide_eq_true hf
  rw [this]
  simp only [h6, if_true]

/-! ### Loopback interfaces -/

/-- **A loopback interface configured with a prefix shorter than 32** has a local route for the whole
prefix but no address, and the route survives `down`. -/
theorem loop_prefix_violated (e : Env) (he : e = eM ∨ e = eR) :
    let s := (upLocal e (init 4) 1 0 (ip 1 1) 24).1
    (upLocal e (init 4) 1 0 (ip 1 1) 24).2 = .ok ∧ addrsOf s (8, 1) = [] ∧
    s.rt (0, ip 1 0, 24) = some ⟨8, 1, 0, true⟩ ∧ (down e s (8, 1)).2 = .ok ∧ (down e s (8, 1)).1.ifs (8, 1) = none ∧
    (down e s (8, 1)).1.rt (0, ip 1 0, 24) = some ⟨8, 1, 0, true⟩ := by
  rcases he with rfl | rfl <;> decide +kernel

/-! ### `ofp_delete_ifnet` -/

/-- **`ofp_delete_ifnet` frees an interface that is still on the list of `bind` and still has its
routes.** -/
theorem delete_ifnet_violated (e : Env) (he : e = eM ∨ e = eR) :
    let s := run e (init 4) [.up (0, 5) 0 (ip 2 1) 24]
    (deleteIf s (0, 5)).2 = true ∧ (deleteIf s (0, 5)).1.ifs (0, 5) = none ∧ (0, 5) ∈ (deleteIf s (0, 5)).1.ifq ∧
    (deleteIf s (0, 5)).1.rt (0, ip 2 1, 32) = some ⟨0, 5, 0, true⟩ := by
  rcases he with rfl | rfl <;> decide +kernel

end Verif.Ifcfg

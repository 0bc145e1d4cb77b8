import Verif.Ifcfg.Keep

/-! # What the configuration calls do, for every consistent state -/

namespace Verif.Ifcfg

theorem setFirst_add {l : List Ipa} {a : Nat} (h : ∀ x ∈ l, x.ip ≠ a) (m : Nat) :
    (setFirst a m (l ++ [⟨a, 0⟩])).Perm (⟨a, m⟩ :: l) ∧ (setFirst a m (l ++ [⟨a, 0⟩])).head? = some ⟨a, m⟩ := by
  cases l with
  | nil => simp [setFirst_nil]
  | cons y t =>
    rw [setFirst_cons h]
    exact ⟨List.Perm.cons _ List.perm_append_comm, rfl⟩

theorem qAdd_ifs (s : St) (k k' : If) : (qAdd s k).ifs k' = s.ifs k' := by unfold qAdd; split <;> rfl
theorem qAdd_rt (s : St) (k : If) : (qAdd s k).rt = s.rt := by unfold qAdd; split <;> rfl
theorem qAdd_crash (s : St) (k : If) : (qAdd s k).crash = s.crash := by unfold qAdd; split <;> rfl
theorem qAdd_mem (s : St) (k : If) : k ∈ (qAdd s k).ifq := by unfold qAdd; split <;> simp_all
theorem qAdd_ifq (s : St) (k : If) : (qAdd s k).ifq = s.ifq ∨ (qAdd s k).ifq = s.ifq ++ [k] ∧ k ∉ s.ifq := by
  unfold qAdd; split <;> simp_all

theorem upTail_good {e : Env} {s : St} (hg : Good e s) {k : If} {i : Ifn} (hk : s.ifs k = some i)
    (hkd : i.kind = .ether) {vrf a m : Nat} (hvrf : i.vrf = vrf ∨ i.addrs = []) (hv : vrf < e.numVrf) (ha : a ≠ 0)
    (hm : m ≠ 32) (f1 : s.rt (vrf, a, 32) = none) (f2 : s.rt (vrf, net a m, m) = none) (hlen : i.addrs.length ≤ 6)
    (hq : k.2 ≠ 0 → k ∈ s.ifq) :
    Good e (upTail e s k vrf a m) ∧ (∃ L', (upTail e s k vrf a m).ifs k = some ⟨vrf, .ether, L'⟩ ∧
      L'.Perm (⟨a, m⟩ :: i.addrs) ∧ L'.head? = some ⟨a, m⟩) ∧
    (∀ k', k' ≠ k → (upTail e s k vrf a m).ifs k' = s.ifs k') ∧
    (upTail e s k vrf a m).rt = ins (ins s.rt (vrf, a, 32) ⟨k.1, k.2, 0, true⟩) (vrf, net a m, m) ⟨k.1, k.2, 0, false⟩ ∧
    (upTail e s k vrf a m).crash = s.crash := by
  let s2 : St := if k.2 = 0 then qAdd (modIf s k (fun i => { i with vrf := vrf })) k
    else modIf s k (fun i => { i with vrf := vrf })
  have hmod : modIf s k (fun i => { i with vrf := vrf }) = put s s.rt k { i with vrf := vrf } := modIf_put s hk _
  have h2k : s2.ifs k = some ⟨vrf, .ether, i.addrs⟩ := by
    have : (⟨vrf, .ether, i.addrs⟩ : Ifn) = { i with vrf := vrf } := by rw [← hkd]
    simp only [s2, hmod, this]
    split
    · rw [qAdd_ifs]; simp
    · simp
  have h2o : ∀ k', k' ≠ k → s2.ifs k' = s.ifs k' := by
    intro k' h
    simp only [s2, hmod]
    split
    · rw [qAdd_ifs]; simp [put, h]
    · simp [put, h]
  have h2r : s2.rt = s.rt := by
    simp only [s2, hmod]; split
    · rw [qAdd_rt]; rfl
    · rfl
  have h2c : s2.crash = s.crash := by
    simp only [s2, hmod]; split
    · rw [qAdd_crash]; rfl
    · rfl
  have h2q : k ∈ s2.ifq := by
    simp only [s2]; split
    · exact qAdd_mem _ _
    · next h => rw [hmod]; exact hq h
  have h2qq : s2.ifq = s.ifq ∨ s2.ifq = s.ifq ++ [k] ∧ k ∉ s.ifq := by
    simp only [s2, hmod]; split
    · exact qAdd_ifq _ _
    · exact .inl rfl
  have hg2 : Good e s2 := by
    refine hg.relabel hk h2r h2o h2k ?_ h2qq
    rcases hvrf with h | h
    · left; rw [← h, ← hkd]
    · right; exact ⟨h, h, hv, by intro h; cases h⟩
  have hna : ∀ x ∈ i.addrs, x.ip ≠ a := by
    intro x hx hxa
    rcases hvrf with h | h
    · have := (hg.eth k i hk hkd).loc x hx
      rw [hxa, h, f1] at this; cases this
    · rw [h] at hx; cases hx
  have hadd : addPair e s2 vrf k a m = put s2 (ins (ins s2.rt (vrf, a, 32) ⟨k.1, k.2, 0, true⟩) (vrf, net a m, m)
      ⟨k.1, k.2, 0, false⟩) k ⟨vrf, .ether, i.addrs ++ [⟨a, 0⟩]⟩ := by
    rw [addPair_eq h2k hv (by rw [h2r]; exact f1)]
    simp only
    rw [ipAdd_ok ha (by omega)]
  have hfin : upTail e s k vrf a m = put s2 (ins (ins s2.rt (vrf, a, 32) ⟨k.1, k.2, 0, true⟩) (vrf, net a m, m)
      ⟨k.1, k.2, 0, false⟩) k ⟨vrf, .ether, setFirst a m (i.addrs ++ [⟨a, 0⟩])⟩ := by
    show modIf (addPair e s2 vrf k a m) k _ = _
    rw [hadd, modIf_put _ (put_ifs _ _ _ _), put_put]
    rfl
  have hsf := setFirst_add hna m
  rw [hfin]
  refine ⟨?_, ⟨_, by simp, hsf.1, hsf.2⟩, ?_, by simp [h2r], by simp [put, h2c]⟩
  · exact hg2.added h2k rfl hsf.1 ha hm (by rw [h2r]; exact f1) (by rw [h2r]; exact f2) hlen h2q
  · intro k' h; simp [put, h, h2o k' h]

theorem drop_none {R : Key → Option Nh} {K : List Key} {q : Key} (h : R q = none ∨ q ∈ K) : drop R K q = none := by
  unfold drop; split
  · rfl
  · rcases h with h | h
    · exact h
    · contradiction

theorem kind_fp {e : Env} {s : St} (hg : Good e s) {k : If} {i : Ifn} (hk : s.ifs k = some i) (hp : k.1 < 8) :
    i.kind = .ether := by
  cases h : i.kind with
  | ether => rfl
  | loop => have := (hg.lp k i hk h).1; omega

/-- After `ofp_config_interface_down` the configuration is consistent, the interface has no address
(a VLAN or loopback interface no longer exists) and is off the list of `bind`, exactly the routes of
its addresses are gone, and every other interface and route is as before. -/
theorem down_exact {e : Env} {s : St} (hg : Good e s) {k : If} {i : Ifn} (hk : s.ifs k = some i) (hp : k.1 < 11) :
    (down e s k).2 = .ok ∧ Good e (down e s k).1 ∧
    (∀ q, (down e s k).1.rt q = if q ∈ allRoutes s k then none else s.rt q) ∧
    (∀ k', k' ≠ k → (down e s k).1.ifs k' = s.ifs k') ∧
    (down e s k).1.ifs k = (if k.2 ≠ 0 ∨ k.1 = 8 then none else some { i with addrs := [] }) ∧
    (∀ k', k' ∈ (down e s k).1.ifq ↔ k' ∈ s.ifq ∧ k' ≠ k) ∧
    (down e s k).1.pool = (if k.2 ≠ 0 ∨ k.1 = 8 then s.pool + 1 else s.pool) ∧
    (down e s k).1.crash = s.crash := by
  have hall : allRoutes s k = i.addrs.flatMap (keysOf i.vrf) := by simp [allRoutes, routesOf, addrsOf, hk]
  have hq : ∀ k', k' ∈ s.ifq.erase k ↔ k' ∈ s.ifq ∧ k' ≠ k := by
    intro k'; rw [hg.qnd.mem_erase_iff]; exact And.comm
  by_cases hv : k.2 ≠ 0 ∨ k.1 = 8
  · rw [down_vlan_eq hg hk hp hv, hall]
    refine ⟨rfl, ?_, fun q => rfl, fun k' h => by simp [h], by simp [hv], hq, by simp [hv], rfl⟩
    refine hg.removed hk (D := i.addrs) (L' := []) (by simp) rfl (fun k' h => by simp [h])
      (.inl ⟨by simp, rfl, by omega⟩) (fun k' h => ?_) (fun _ => ?_) (fun h => absurd rfl h) (hg.qnd.erase k)
    · simp only [hq k', h, ne_eq, not_false_eq_true, and_true]
    · simp only [hq k]; simp
  · have hv0 : k.2 = 0 := by omega
    have h8 : k.1 ≠ 8 := by omega
    rw [down_base_eq hg hk hp hv0 h8, hall]
    refine ⟨rfl, ?_, fun q => rfl, fun k' h => by simp [h], by simp [hv0, h8], hq, by simp [hv], rfl⟩
    refine hg.removed hk (D := i.addrs) (L' := []) (by simp) rfl (fun k' h => by simp [h])
      (.inr ⟨{ i with addrs := [] }, by simp, rfl, rfl, (hg.com k i hk).1, fun h => absurd rfl h⟩)
      (fun k' h => ?_) (fun h => ?_) (fun h => absurd rfl h) (hg.qnd.erase k)
    · simp only [hq k', h, ne_eq, not_false_eq_true, and_true]
    · simp at h

/-- What `ofp_config_interface_up_v4` needs to work as described: a valid port, VRF, address and
prefix length; routes for the new address that are free (or those of the address being replaced);
for a VLAN interface that is to be created, or moved to another VRF, a free record; for an existing
VLAN interface, that it is on the list of `bind` and, when it has no address or moves to another
VRF, that the VRF it is in then (0 after a move) has no route to 0.0.0.0/0 and 0.0.0.0/32. -/
structure UpPre (e : Env) (s : St) (k : If) (vrf a m : Nat) : Prop where
  port : k.1 < 8
  vrfOk : vrf < e.numVrf
  addr : a ≠ 0
  len : m ≤ 31
  free1 : s.rt (vrf, a, 32) = none ∨ (vrf, a, 32) ∈ routesOf s k (taken s k vrf)
  free2 : s.rt (vrf, net a m, m) = none ∨ (vrf, net a m, m) ∈ routesOf s k (taken s k vrf)
  record : k.2 ≠ 0 → s.ifs k = none → s.pool ≠ 0
  listed : k.2 ≠ 0 → ∀ i, s.ifs k = some i → i.vrf = vrf → k ∈ s.ifq
  noDefault : k.2 ≠ 0 → ∀ i, s.ifs k = some i → i.vrf = vrf → i.addrs = [] →
    s.rt (vrf, 0, 0) = none ∧ s.rt (vrf, 0, 32) = none
  noDefault0 : k.2 ≠ 0 → ∀ i, s.ifs k = some i → i.vrf ≠ vrf → s.rt (0, 0, 0) = none ∧ s.rt (0, 0, 32) = none

theorem delPrimary_none {e : Env} {s : St} {k : If} {i : Ifn} (hk : s.ifs k = some i) (hL : i.addrs = [])
    (h0 : s.rt (i.vrf, 0, 0) = none) (h32 : s.rt (i.vrf, 0, 32) = none) : delPrimary e s k = s := by
  have h0' : infoAt s k 0 = ⟨0, 0⟩ := by rw [infoAt_eq hk, hL]; rfl
  have hn : net 0 0 = 0 := by simp [net]
  unfold delPrimary
  rw [h0', vrfOf_eq hk]
  have h1 : delRoute e s i.vrf 0 0 = s := delRoute_none (by rw [hn]; exact h0)
  simp only [h1, h0', vrfOf_eq hk]
  exact delRoute_none (by rw [net_32]; exact h32)

/-- `ofp_config_interface_up_v4` makes the address the primary one of the interface in the given
VRF; the previous primary address (all addresses, if the VRF changes) goes with its routes; the
new address has its local host route and its subnet route; nothing else changes. -/
theorem up_exact {e : Env} {s : St} (hg : Good e s) {k : If} {vrf a m : Nat} (hp : UpPre e s k vrf a m) :
    (upV4 e s k vrf a m).2 = .ok ∧ Good e (upV4 e s k vrf a m).1 ∧
    (∃ L, (upV4 e s k vrf a m).1.ifs k = some ⟨vrf, .ether, L⟩ ∧ L.head? = some ⟨a, m⟩ ∧
      L.Perm (⟨a, m⟩ :: kept s k vrf)) ∧
    (∀ k', k' ≠ k → (upV4 e s k vrf a m).1.ifs k' = s.ifs k') ∧
    (∀ q, (upV4 e s k vrf a m).1.rt q =
      if q = (vrf, net a m, m) then some ⟨k.1, k.2, 0, false⟩
      else if q = (vrf, a, 32) then some ⟨k.1, k.2, 0, true⟩
      else if q ∈ routesOf s k (taken s k vrf) then none else s.rt q) ∧
    (upV4 e s k vrf a m).1.crash = s.crash := by
  have hm : m ≠ 32 := by have := hp.len; omega
  have hV : 0 < e.numVrf := by have := hp.vrfOk; omega
  have main : ∀ s1, Good e s1 → ∀ i1, s1.ifs k = some i1 → (i1.vrf = vrf ∨ i1.addrs = []) → i1.addrs.length ≤ 6 →
      i1.addrs.Perm (kept s k vrf) → (∀ q, s1.rt q = drop s.rt (routesOf s k (taken s k vrf)) q) →
      (∀ k', k' ≠ k → s1.ifs k' = s.ifs k') → s1.crash = s.crash → (k.2 ≠ 0 → k ∈ s1.ifq) →
      Good e (upTail e s1 k vrf a m) ∧
      (∃ L, (upTail e s1 k vrf a m).ifs k = some ⟨vrf, .ether, L⟩ ∧ L.head? = some ⟨a, m⟩ ∧
        L.Perm (⟨a, m⟩ :: kept s k vrf)) ∧
      (∀ k', k' ≠ k → (upTail e s1 k vrf a m).ifs k' = s.ifs k') ∧
      (∀ q, (upTail e s1 k vrf a m).rt q =
        if q = (vrf, net a m, m) then some ⟨k.1, k.2, 0, false⟩
        else if q = (vrf, a, 32) then some ⟨k.1, k.2, 0, true⟩
        else if q ∈ routesOf s k (taken s k vrf) then none else s.rt q) ∧
      (upTail e s1 k vrf a m).crash = s.crash := by
    intro s1 hg1 i1 hk1 hv1 hl1 hp1 hr1 ho1 hc1 hq1
    obtain ⟨t1, ⟨L, t2, t3, t4⟩, t5, t6, t7⟩ := upTail_good hg1 hk1 (kind_fp hg1 hk1 hp.port) hv1 hp.vrfOk hp.addr hm
      (by rw [hr1]; exact drop_none hp.free1) (by rw [hr1]; exact drop_none hp.free2) hl1 hq1
    refine ⟨t1, ⟨L, t2, t4, t3.trans (List.Perm.cons _ hp1)⟩, fun k' h => by rw [t5 k' h, ho1 k' h], fun q => ?_, by rw [t7, hc1]⟩
    rw [t6]
    simp only [ins, hr1 q, drop]
  unfold upV4
  rw [if_neg (by unfold fpMax; have := hp.port; omega), if_neg (by have := hp.vrfOk; omega)]
  cases hk : s.ifs k with
  | none =>
    have hk2 : k.2 ≠ 0 := by
      intro h
      obtain ⟨i, hi⟩ := hg.base k.1 hp.port
      rw [show ((k.1, 0) : If) = k from by rw [← h], hk] at hi
      cases hi
    simp only [hk2, ne_eq, not_false_eq_true, if_true, hk]
    have hpool := hp.record hk2 hk
    have hkept : kept s k vrf = [] := by simp [kept, hk]
    have htak : routesOf s k (taken s k vrf) = [] := by simp [routesOf, hk]
    refine ⟨trivial, main (getCreate s k) (hg.created hk (.inl hk2) hpool hV) ⟨0, .ether, []⟩ ?_ (.inr rfl) (by simp)
      (by rw [hkept]) ?_ ?_ ?_ ?_⟩
    all_goals rw [getCreate_none hk (.inl hk2) hpool]
    · simp
    · intro q; simp only [qAdd_rt]; rw [htak, drop_nil]
    · intro k' h; simp [h]
    · simp only [qAdd_crash]
    · intro _; exact qAdd_mem s k
  | some i =>
    have hc := hg.com k i hk
    have hkd := kind_fp hg hk hp.port
    have ho := hg.eth k i hk hkd
    by_cases hvv : i.vrf = vrf
    · -- same VRF
      simp only [hvv, ne_eq, not_true_eq_false, if_false, hk]
      have hkept : kept s k vrf = i.addrs.drop 1 := by simp [kept, hk, hvv]
      have htak : taken s k vrf = i.addrs.take 1 := by simp [taken, hk, hvv]
      have hemp : i.addrs = [] → Good e (upTail e s k vrf a m) ∧
          (∃ L, (upTail e s k vrf a m).ifs k = some ⟨vrf, .ether, L⟩ ∧ L.head? = some ⟨a, m⟩ ∧
            L.Perm (⟨a, m⟩ :: kept s k vrf)) ∧
          (∀ k', k' ≠ k → (upTail e s k vrf a m).ifs k' = s.ifs k') ∧
          (∀ q, (upTail e s k vrf a m).rt q =
            if q = (vrf, net a m, m) then some ⟨k.1, k.2, 0, false⟩
            else if q = (vrf, a, 32) then some ⟨k.1, k.2, 0, true⟩
            else if q ∈ routesOf s k (taken s k vrf) then none else s.rt q) ∧
          (upTail e s k vrf a m).crash = s.crash := by
        intro hL
        refine main s hg i hk (.inl hvv) (by rw [hL]; simp) (by rw [hkept, hL]; simp) (fun q => ?_) (fun _ _ => rfl) rfl
          (fun h => hp.listed h i hk hvv)
        rw [htak, hL]; simp [routesOf, hk, drop_nil]
      have hfull : ∀ x t, i.addrs = x :: t → Good e (upTail e (delPrimary e s k) k vrf a m) ∧
          (∃ L, (upTail e (delPrimary e s k) k vrf a m).ifs k = some ⟨vrf, .ether, L⟩ ∧ L.head? = some ⟨a, m⟩ ∧
            L.Perm (⟨a, m⟩ :: kept s k vrf)) ∧
          (∀ k', k' ≠ k → (upTail e (delPrimary e s k) k vrf a m).ifs k' = s.ifs k') ∧
          (∀ q, (upTail e (delPrimary e s k) k vrf a m).rt q =
            if q = (vrf, net a m, m) then some ⟨k.1, k.2, 0, false⟩
            else if q = (vrf, a, 32) then some ⟨k.1, k.2, 0, true⟩
            else if q ∈ routesOf s k (taken s k vrf) then none else s.rt q) ∧
          (upTail e (delPrimary e s k) k vrf a m).crash = s.crash := by
        intro x t hL
        rw [delPrimary_eq hk hc.1 ho hL]
        have hr := ipRemove_perm ho.nip hc.2.1 (x := x) (by rw [hL]; simp)
        have hqm : k ∈ s.ifq := hc.2.2.2 (by rw [hL]; simp)
        refine main _ ?_ { i with addrs := ipRemove x.ip i.addrs } (put_ifs _ _ _ _) (.inl hvv) ?_ ?_ (fun q => ?_)
          (fun k' h => by simp [put, h]) rfl (fun _ => hqm)
        · refine hg.removed hk (D := [x]) (L' := ipRemove x.ip i.addrs) (by simpa using hr) (by simp) (fun k' h => by simp [put, h])
            (.inr ⟨_, put_ifs _ _ _ _, rfl, rfl, hc.1, fun _ => rfl⟩) (fun k' _ => Iff.rfl) (fun h => by simp at h)
            (fun _ => hqm) hg.qnd
        · have := hr.length_eq; simp only [List.length_cons] at this; simp only; omega
        · rw [hkept, hL]
          rw [hL] at hr
          exact (List.perm_cons x).1 hr
        · rw [htak, hL]; simp [routesOf, hk, put_rt]
      by_cases hk2 : k.2 = 0
      · have hk2' : (¬ k.2 = 0) = False := by simp [hk2]
        simp only [hk2', if_false, addrsOf_eq hk]
        cases hL : i.addrs with
        | nil => simp only [not_true_eq_false, if_false]; exact ⟨trivial, hemp hL⟩
        | cons x t => simp only [reduceCtorEq, not_false_eq_true, if_true]; exact ⟨trivial, hfull x t hL⟩
      · simp only [hk2, not_false_eq_true, if_true, hk]
        cases hL : i.addrs with
        | nil =>
          have hnd := hp.noDefault hk2 i hk hvv hL
          rw [delPrimary_none hk hL (by rw [hvv]; exact hnd.1) (by rw [hvv]; exact hnd.2)]
          exact ⟨trivial, hemp hL⟩
        | cons x t => exact ⟨trivial, hfull x t hL⟩
    · -- VRF change
      obtain ⟨_, d2, d3, d4, d5, d6, d7, d8⟩ := down_exact hg hk (by have := hp.port; omega)
      have h8 : k.1 ≠ 8 := by have := hp.port; omega
      have hkept : kept s k vrf = [] := by simp [kept, hk, hvv]
      have htak : routesOf s k (taken s k vrf) = allRoutes s k := by simp [taken, hk, hvv, allRoutes, addrsOf]
      simp only [hvv, ne_eq, not_false_eq_true, if_true]
      generalize hsd : (down e s k).1 = sd at *
      have hrt : ∀ q, sd.rt q = drop s.rt (routesOf s k (taken s k vrf)) q := by
        intro q; rw [d3, htak]; rfl
      by_cases hk2 : k.2 = 0
      · rw [if_neg (by omega)] at d5
        rw [getCreate_some d5]
        have hk2' : (¬ k.2 = 0) = False := by simp [hk2]
        simp only [hk2', not_true_eq_false, if_false, addrsOf_eq d5]
        exact ⟨trivial, main sd d2 _ d5 (.inr rfl) (by simp) (by rw [hkept]) hrt d4 d8 (fun h => absurd hk2 h)⟩
      · rw [if_pos (.inl hk2)] at d5 d7
        have hpool : sd.pool ≠ 0 := by omega
        have hg2 := d2.created d5 (.inl hk2) hpool hV
        have hgc := getCreate_none d5 (.inl hk2) hpool
        have hck : (getCreate sd k).ifs k = some ⟨0, .ether, []⟩ := by rw [hgc]; simp
        have hcr : (getCreate sd k).rt = sd.rt := by rw [hgc]; simp only [qAdd_rt]
        simp only [hk2, not_false_eq_true, if_true, hck]
        have hnd := hp.noDefault0 hk2 i hk hvv
        rw [delPrimary_none hck rfl (by rw [hcr, hrt]; exact drop_none (.inl hnd.1))
          (by rw [hcr, hrt]; exact drop_none (.inl hnd.2))]
        refine ⟨trivial, main _ hg2 _ hck (.inr rfl) (by simp) (by rw [hkept]) (by rw [hcr]; exact hrt) ?_ ?_ ?_⟩
        · intro k' h; rw [hgc]; simp [h, d4 k' h]
        · rw [hgc]; simp only [qAdd_crash]; exact d8
        · intro _; rw [hgc]; exact qAdd_mem sd k

end Verif.Ifcfg

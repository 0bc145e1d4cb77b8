import Verif.Ifcfg.Remove

/-! Exact effects of the configuration calls on a consistent state. -/

namespace Verif.Ifcfg

theorem drop_congr (R : Key → Option Nh) {K K' : List Key} (h : ∀ q, q ∈ K ↔ q ∈ K') : drop R K = drop R K' := by
  funext q; unfold drop; simp only [h q]

theorem qDel_ifs (s : St) (k k' : If) : (qDel s k).ifs k' = s.ifs k' := rfl

theorem flat_perm {L L' : List Ipa} (h : L.Perm L') (v : Nat) (q : Key) :
    q ∈ L.flatMap (keysOf v) ↔ q ∈ L'.flatMap (keysOf v) := by
  simp only [List.mem_flatMap, h.mem_iff]

/-- Both deletions of the primary address followed by the loop remove every route of the list. -/
theorem clear_eq {e : Env} {s sB : St} {k : If} {i : Ifn} {x : Ipa} (hv : i.vrf < e.numVrf)
    (ho : Owned s.rt k i.vrf i.addrs) (hl : i.addrs.length ≤ 7) (hx : x ∈ i.addrs)
    (hB : sB = put s (drop s.rt (keysOf i.vrf x)) k { i with addrs := ipRemove x.ip i.addrs }) :
    freeList e sB k = put s (drop s.rt (i.addrs.flatMap (keysOf i.vrf))) k { i with addrs := [] } := by
  subst hB
  have hr := ipRemove_perm ho.nip hl hx
  rw [freeList_eq (i := { i with addrs := ipRemove x.ip i.addrs }) (by simp) hv (by simpa using ho.rm hr)
    (by have := hr.length_eq; simp only [List.length_cons] at this; simp only; omega)]
  rw [put_put]
  simp only [put_rt, drop_drop]
  congr 1
  apply drop_congr
  intro q
  rw [← flat_perm hr]
  simp

/-- `ofp_config_interface_down` on a VLAN or loopback interface. -/
theorem down_vlan_eq {e : Env} {s : St} (hg : Good e s) {k : If} {i : Ifn} (hk : s.ifs k = some i)
    (hp : k.1 < 11) (hv : k.2 ≠ 0 ∨ k.1 = 8) :
    down e s k = ({ s with rt := drop s.rt (i.addrs.flatMap (keysOf i.vrf)), ifq := s.ifq.erase k,
                           pool := s.pool + 1,
                           ifs := fun k' => if k' = k then none else s.ifs k' }, .ok) := by
  have hc := hg.com k i hk
  have hk0 : (qDel s k).ifs k = some i := hk
  have fin : ∀ R, freeIf (put (qDel s k) R k { i with addrs := [] }) k =
      { s with rt := R, ifq := s.ifq.erase k, pool := s.pool + 1,
               ifs := fun k' => if k' = k then none else s.ifs k' } := by
    intro R
    apply St.ext' <;> simp only [freeIf, put, qDel]
    funext k'; split <;> rfl
  unfold down
  rw [if_neg (by unfold numPorts; omega)]
  simp only [hk]
  rw [if_pos (by unfold localPorts; exact hv)]
  simp only [addrsOf_eq hk0, infoAt_eq hk0]
  cases hL : i.addrs with
  | nil =>
    have hi : ({ i with addrs := [] } : Ifn) = i := by cases i; simp_all
    simp only [ne_eq, not_true_eq_false, if_false, List.flatMap_nil, drop_nil]
    rw [← fin s.rt, hi]
    rw [show put (qDel s k) s.rt k i = qDel s k from put_self (qDel s k) hk0]
  | cons x t =>
    simp only [ne_eq, reduceCtorEq, not_false_eq_true, if_true, List.getElem?_cons_zero, Option.getD_some]
    cases hkd : i.kind with
    | ether =>
      have ho := hg.eth k i hk hkd
      have hx : x ∈ i.addrs := by rw [hL]; simp
      simp only [reduceCtorEq, if_false]
      rw [vrfOf_delRoute, vrfOf_eq hk0]
      rw [clear_eq (s := qDel s k) hc.1 (by exact ho) hc.2.1 hx (delPair' hk0 hc.1 (by exact ho) hx (net_net _ _))]
      rw [fin, hL]; rfl
    | loop =>
      obtain ⟨_, h⟩ := hg.lp k i hk hkd
      rw [hL] at h
      rcases h with h | ⟨a, h, hr⟩
      · cases h
      · simp only [List.cons.injEq] at h
        obtain ⟨rfl, rfl⟩ := h
        simp only [if_true, vrfOf_eq hk0, vrfOf_delRoute]
        rw [delRoute_local (s := qDel s k) (k := k) (i := i) (g := 0) hc.1 (by exact hr) hk0]
        rw [delRoute_none (by simp [drop, net_32])]
        have hz : ({ i with addrs := ipRemove a i.addrs } : Ifn) = { i with addrs := [] } := by
          rw [hL]; simp [ipRemove, ipFind, maxIp]
        rw [hz]
        have hf : ∀ R, freeList e (put (qDel s k) R k { i with addrs := [] }) k = put (qDel s k) R k { i with addrs := [] } := by
          intro R; unfold freeList; rw [addrsOf_eq (put_ifs _ _ _ _)]; rfl
        rw [hf, fin]
        have : drop (qDel s k).rt [(i.vrf, a, 32)] = drop s.rt (List.flatMap (keysOf i.vrf) [⟨a, 32⟩]) := by
          apply drop_congr; intro q; simp [keysOf, net_32]
        rw [this]

/-- `ofp_config_interface_down` on a port. -/
theorem down_base_eq {e : Env} {s : St} (hg : Good e s) {k : If} {i : Ifn} (hk : s.ifs k = some i)
    (hp : k.1 < 11) (hv : k.2 = 0) (h8 : k.1 ≠ 8) :
    down e s k = ({ s with rt := drop s.rt (i.addrs.flatMap (keysOf i.vrf)), ifq := s.ifq.erase k,
                           ifs := fun k' => if k' = k then some { i with addrs := [] } else s.ifs k' }, .ok) := by
  have hc := hg.com k i hk
  have hk0 : (qDel s k).ifs k = some i := hk
  have hkd : i.kind = .ether := by
    cases h : i.kind with
    | ether => rfl
    | loop => exact absurd (hg.lp k i hk h).1 h8
  have ho := hg.eth k i hk hkd
  unfold down
  rw [if_neg (by unfold numPorts; omega)]
  simp only [hk]
  rw [if_neg (by unfold localPorts; omega)]
  simp only [addrsOf_eq hk0, infoAt_eq hk0]
  cases hL : i.addrs with
  | nil =>
    have hi : ({ i with addrs := [] } : Ifn) = i := by cases i; simp_all
    simp only [ne_eq, not_true_eq_false, if_false, List.flatMap_nil, drop_nil, hi]
    congr 1
    exact (put_self (qDel s k) hk0).symm
  | cons x t =>
    simp only [ne_eq, reduceCtorEq, not_false_eq_true, if_true, List.getElem?_cons_zero, Option.getD_some]
    have hx : x ∈ i.addrs := by rw [hL]; simp
    have hxl := ho.sub x hx
    have hn : delRoute e (qDel s k) i.vrf (net x.ip x.mlen) x.mlen
        = { qDel s k with rt := drop s.rt [(i.vrf, net x.ip x.mlen, x.mlen)] } := by
      rw [delRoute_net (s := qDel s k) (nh := ⟨k.1, k.2, 0, false⟩) hc.1 (by rw [net_net]; exact hxl.2) rfl, net_net]
      rfl
    have hx0 : (infoAt (delRoute e (qDel s k) i.vrf (net x.ip x.mlen) x.mlen) k 0).ip = x.ip := by
      rw [hn, infoAt_eq (i := i) (by exact hk), hL]; rfl
    rw [vrfOf_eq hk0, vrfOf_delRoute, vrfOf_eq hk0, hx0]
    rw [clear_eq (s := qDel s k) hc.1 (by exact ho) hc.2.1 hx (delPair hk0 hc.1 (by exact ho) hx (net_net _ _))]
    rw [hL]; rfl

/-- The old primary address goes. -/
theorem delPrimary_eq {e : Env} {s : St} {k : If} {i : Ifn} {x : Ipa} {t : List Ipa} (hk : s.ifs k = some i)
    (hv : i.vrf < e.numVrf) (ho : Owned s.rt k i.vrf i.addrs) (hL : i.addrs = x :: t) :
    delPrimary e s k = put s (drop s.rt (keysOf i.vrf x)) k { i with addrs := ipRemove x.ip i.addrs } := by
  have hx : x ∈ i.addrs := by rw [hL]; simp
  have hxl := ho.sub x hx
  unfold delPrimary
  have h0 : infoAt s k 0 = x := by rw [infoAt_eq hk, hL]; rfl
  simp only [h0, vrfOf_delRoute, vrfOf_eq hk]
  have hx0 : (infoAt (delRoute e s i.vrf x.ip x.mlen) k 0).ip = x.ip := by
    rw [delRoute_net (s := s) (nh := ⟨k.1, k.2, 0, false⟩) hv hxl.2 rfl, infoAt_eq (i := i) (by exact hk), hL]; rfl
  rw [hx0, delPair hk hv ho hx rfl]

theorem getCreate_some {s : St} {k : If} {i : Ifn} (hk : s.ifs k = some i) : getCreate s k = s := by
  unfold getCreate; split
  · simp only [hk]
  · rfl

/-- Adding an address with fresh routes. -/
theorem addPair_eq {e : Env} {s : St} {k : If} {i : Ifn} {vrf a m : Nat} (hk : s.ifs k = some i)
    (hv : vrf < e.numVrf) (h1 : s.rt (vrf, a, 32) = none) :
    addPair e s vrf k a m =
      put s (ins (ins s.rt (vrf, a, 32) ⟨k.1, k.2, 0, true⟩) (vrf, net a m, m) ⟨k.1, k.2, 0, false⟩) k
        { i with addrs := ipAdd a i.addrs } := by
  unfold addPair
  rw [addRoute_local hv h1 hk, addRoute_net _ _ _ _ hv, net_mask]
  rfl

end Verif.Ifcfg

import Verif.Ifcfg.Props

/-! # Adding and removing addresses, loopback interfaces, failed calls, histories -/

namespace Verif.Ifcfg

/-- `ofp_config_interface_add_ip_v4` of a fresh address in the VRF of the interface adds exactly
that address and its two routes. -/
theorem addIp_exact {e : Env} {s : St} (hg : Good e s) {k : If} {i : Ifn} (hk : s.ifs k = some i) (hp : k.1 < 8)
    {a m : Nat} (ha : a ≠ 0) (hm : m ≤ 31) (f1 : s.rt (i.vrf, a, 32) = none) (f2 : s.rt (i.vrf, net a m, m) = none)
    (hlen : i.addrs.length ≤ 6) (hq : k ∈ s.ifq) :
    (addIp e s k i.vrf a m).2 = .ok ∧ Good e (addIp e s k i.vrf a m).1 ∧
    (addIp e s k i.vrf a m).1.ifs k = some { i with addrs := i.addrs ++ [⟨a, m⟩] } ∧
    (∀ k', k' ≠ k → (addIp e s k i.vrf a m).1.ifs k' = s.ifs k') ∧
    (∀ q, (addIp e s k i.vrf a m).1.rt q =
      if q = (i.vrf, net a m, m) then some ⟨k.1, k.2, 0, false⟩
      else if q = (i.vrf, a, 32) then some ⟨k.1, k.2, 0, true⟩ else s.rt q) ∧
    (addIp e s k i.vrf a m).1.ifq = s.ifq ∧ (addIp e s k i.vrf a m).1.crash = s.crash := by
  have hkd := kind_fp hg hk hp
  have ho := hg.eth k i hk hkd
  have hc := hg.com k i hk
  have hna : ∀ x ∈ i.addrs, x.ip ≠ a := by
    intro x hx hxa
    have := ho.loc x hx
    rw [hxa, f1] at this; cases this
  have hadd : addPair e s i.vrf k a m = put s (ins (ins s.rt (i.vrf, a, 32) ⟨k.1, k.2, 0, true⟩) (i.vrf, net a m, m)
      ⟨k.1, k.2, 0, false⟩) k { i with addrs := i.addrs ++ [⟨a, 0⟩] } := by
    rw [addPair_eq hk hc.1 f1, ipAdd_ok ha (by omega)]
  have hfin : addIp e s k i.vrf a m = (put s (ins (ins s.rt (i.vrf, a, 32) ⟨k.1, k.2, 0, true⟩) (i.vrf, net a m, m)
      ⟨k.1, k.2, 0, false⟩) k { i with addrs := i.addrs ++ [⟨a, m⟩] }, .ok) := by
    unfold addIp
    rw [if_neg (by unfold fpMax; omega)]
    simp only [hk, ipFind_none.2 hna, hadd, addrsOf_eq (put_ifs _ _ _ _), ipFind_append hna]
    rw [modIf_put _ (put_ifs _ _ _ _), put_put]
    simp only [put_rt, updFields_append hna]
  rw [hfin]
  refine ⟨rfl, ?_, by simp, fun k' h => by simp [put, h], fun q => rfl, rfl, rfl⟩
  exact hg.added hk hkd (List.perm_append_comm (l₁ := i.addrs) (l₂ := [(⟨a, m⟩ : Ipa)])) ha (by omega) f1 f2 hlen hq

/-- `ofp_config_interface_del_ip_v4` of an address of the interface, given with its prefix length,
removes exactly that address and its two routes; the interface leaves the list of `bind` with its
last address. -/
theorem delIp_exact {e : Env} {s : St} (hg : Good e s) {k : If} {i : Ifn} (hk : s.ifs k = some i) (hp : k.1 < 8)
    {x : Ipa} (hx : x ∈ i.addrs) :
    (delIp e s k x.ip x.mlen).2 = .ok ∧ Good e (delIp e s k x.ip x.mlen).1 ∧
    (∃ L, (delIp e s k x.ip x.mlen).1.ifs k = some { i with addrs := L } ∧ (x :: L).Perm i.addrs ∧
      (∀ k', k' ∈ (delIp e s k x.ip x.mlen).1.ifq ↔ k' ∈ s.ifq ∧ ¬ (k' = k ∧ L = []))) ∧
    (∀ k', k' ≠ k → (delIp e s k x.ip x.mlen).1.ifs k' = s.ifs k') ∧
    (∀ q, (delIp e s k x.ip x.mlen).1.rt q =
      if q = (i.vrf, x.ip, 32) ∨ q = (i.vrf, net x.ip x.mlen, x.mlen) then none else s.rt q) ∧
    (delIp e s k x.ip x.mlen).1.crash = s.crash := by
  have hkd := kind_fp hg hk hp
  have ho := hg.eth k i hk hkd
  have hc := hg.com k i hk
  have hr := ipRemove_perm ho.nip hc.2.1 hx
  obtain ⟨j, hj, hjx⟩ := List.getElem_of_mem hx
  have hfj : ipFind i.addrs x.ip = some j := by rw [← hjx]; exact ipFind_at ho.nip hj
  have hij : infoAt s k j = x := by rw [infoAt_eq hk, List.getElem?_eq_getElem hj, hjx]; rfl
  have hpair := delPair (e := e) (d := maskBy x.ip x.mlen) hk hc.1 ho hx (net_mask _ _)
  have hnf : ipFind (ipRemove x.ip i.addrs) x.ip = none := by
    rw [ipFind_none]
    intro y hy hyx
    have hn := (ho.perm hr.symm).nip
    simp only [List.map_cons, List.nodup_cons, List.mem_map, not_exists, not_and] at hn
    exact hn.1 y hy hyx
  let s2 : St := put s (drop s.rt (keysOf i.vrf x)) k { i with addrs := ipRemove x.ip i.addrs }
  have hfin : delIp e s k x.ip x.mlen = (if ipRemove x.ip i.addrs = [] then qDel s2 k else s2, .ok) := by
    unfold delIp
    rw [if_neg (by unfold fpMax; omega)]
    simp only [hk, hfj, hij, ne_eq, not_true_eq_false, if_false, hpair]
    simp only [addrsOf_eq (put_ifs _ _ _ _), hnf]
    rfl
  have hkeys : ∀ q, drop s.rt (keysOf i.vrf x) q =
      if q = (i.vrf, x.ip, 32) ∨ q = (i.vrf, net x.ip x.mlen, x.mlen) then none else s.rt q := by
    intro q; simp [drop, keysOf, or_comm]
  have hqe : ∀ k', k' ∈ s.ifq.erase k ↔ k' ∈ s.ifq ∧ k' ≠ k := by
    intro k'; rw [hg.qnd.mem_erase_iff]; exact And.comm
  rw [hfin]
  by_cases hL : ipRemove x.ip i.addrs = []
  · rw [if_pos hL]
    refine ⟨rfl, ?_, ⟨ipRemove x.ip i.addrs, by simp [s2, qDel, put], hr, ?_⟩, fun k' h => by simp [s2, put, qDel, h], hkeys, rfl⟩
    · refine hg.removed hk (D := [x]) (L' := ipRemove x.ip i.addrs) (by simpa using hr) (by simp [s2, qDel])
        (fun k' h => by simp [s2, put, qDel, h]) (.inr ⟨{ i with addrs := ipRemove x.ip i.addrs }, by simp [s2, qDel, put], rfl, rfl, hc.1, fun _ => rfl⟩) (fun k' h => ?_)
        (fun h => by simp [s2, put, qDel] at h) (fun h => absurd hL h) (hg.qnd.erase k)
      simp only [s2, qDel, put, hqe, h, ne_eq, not_false_eq_true, and_true]
    · intro k'; simp only [s2, qDel, put, hqe, hL, and_true, ne_eq]
  · rw [if_neg hL]
    have hqm : k ∈ s.ifq := hc.2.2.2 (by intro h; rw [h] at hx; cases hx)
    refine ⟨rfl, ?_, ⟨ipRemove x.ip i.addrs, by simp [s2, qDel, put], hr, ?_⟩, fun k' h => by simp [s2, put, h], hkeys, rfl⟩
    · refine hg.removed hk (D := [x]) (L' := ipRemove x.ip i.addrs) (by simpa using hr) (by simp [s2])
        (fun k' h => by simp [s2, put, h]) (.inr ⟨{ i with addrs := ipRemove x.ip i.addrs }, by simp [s2, qDel, put], rfl, rfl, hc.1, fun _ => rfl⟩) (fun k' h => Iff.rfl)
        (fun h => by simp [s2] at h) (fun _ => hqm) hg.qnd
    · intro k'; simp [s2, put, hL]

/-- `ofp_config_interface_up_local` with prefix length 32: the loopback interface has exactly this
address and its local route; a previous address of the interface is gone. -/
theorem upLocal_exact {e : Env} {s : St} (hg : Good e s) {id vrf a : Nat} (hv : vrf < e.numVrf) (ha : a ≠ 0)
    (hf : s.rt (vrf, a, 32) = none ∨ (vrf, a, 32) ∈ allRoutes s (8, id))
    (hpool : s.ifs (8, id) = none → s.pool ≠ 0) :
    (upLocal e s id vrf a 32).2 = .ok ∧ Good e (upLocal e s id vrf a 32).1 ∧
    (upLocal e s id vrf a 32).1.ifs (8, id) = some ⟨vrf, .loop, [⟨a, 32⟩]⟩ ∧
    (∀ k', k' ≠ (8, id) → (upLocal e s id vrf a 32).1.ifs k' = s.ifs k') ∧
    (∀ q, (upLocal e s id vrf a 32).1.rt q =
      if q = (vrf, a, 32) then some ⟨8, id, 0, true⟩
      else if q ∈ allRoutes s (8, id) then none else s.rt q) ∧
    (upLocal e s id vrf a 32).1.crash = s.crash := by
  have hV : 0 < e.numVrf := by omega
  have main : ∀ s0, Good e s0 → s0.ifs (8, id) = none → s0.pool ≠ 0 →
      (∀ q, s0.rt q = drop s.rt (allRoutes s (8, id)) q) → (∀ k', k' ≠ (8, id) → s0.ifs k' = s.ifs k') →
      s0.crash = s.crash →
      ∀ s', s' = modIf (addRoute e (modIf (getCreate s0 (8, id)) (8, id) (fun i => { i with vrf := vrf, kind := .loop }))
          vrf (8, id) a 32 0 true) (8, id) (fun i => { i with addrs := updFields a 32 i.addrs }) →
      Good e s' ∧ s'.ifs (8, id) = some ⟨vrf, .loop, [⟨a, 32⟩]⟩ ∧ (∀ k', k' ≠ (8, id) → s'.ifs k' = s.ifs k') ∧
      (∀ q, s'.rt q = if q = (vrf, a, 32) then some ⟨8, id, 0, true⟩
        else if q ∈ allRoutes s (8, id) then none else s.rt q) ∧ s'.crash = s.crash := by
    intro s0 hg0 h0 hp0 hr0 ho0 hc0 s' hs'
    have hf0 : s0.rt (vrf, a, 32) = none := by rw [hr0]; exact drop_none hf
    have hg1 := hg0.created h0 (.inr rfl) hp0 hV
    have hgc := getCreate_none h0 (.inr rfl) hp0
    have hck : (getCreate s0 (8, id)).ifs (8, id) = some ⟨0, .ether, []⟩ := by rw [hgc]; simp
    have hcr : (getCreate s0 (8, id)).rt = s0.rt := by rw [hgc]; simp only [qAdd_rt]
    have hco : ∀ k', k' ≠ (8, id) → (getCreate s0 (8, id)).ifs k' = s0.ifs k' := by intro k' h; rw [hgc]; simp [h]
    have hcc : (getCreate s0 (8, id)).crash = s0.crash := by rw [hgc]; simp only [qAdd_crash]
    have hcq : ((8, id) : If) ∈ (getCreate s0 (8, id)).ifq := by rw [hgc]; exact qAdd_mem s0 _
    generalize getCreate s0 (8, id) = s1 at *
    rw [modIf_put _ hck] at hs'
    have hg2 : Good e (put s1 s1.rt (8, id) ⟨vrf, .loop, []⟩) :=
      hg1.relabel hck rfl (fun k' h => by simp [put, h]) (put_ifs _ _ _ _) (.inr ⟨rfl, rfl, hv, fun _ => rfl⟩) (.inl rfl)
    have hf2 : (put s1 s1.rt (8, id) ⟨vrf, .loop, []⟩).rt (vrf, a, 32) = none := by rw [put_rt, hcr]; exact hf0
    rw [addRoute_local (i := ⟨vrf, .loop, []⟩) hv hf2 (put_ifs _ _ _ _), modIf_put _ (put_ifs _ _ _ _), put_put, put_put] at hs'
    have hup : updFields a 32 (ipAdd a []) = [⟨a, 32⟩] := by
      rw [ipAdd_ok ha (by simp)]
      exact updFields_append (l := []) (by simp) 32
    simp only [put_rt, hup] at hs'
    subst hs'
    refine ⟨?_, put_ifs _ _ _ _, fun k' h => by simp [put, h, hco k' h, ho0 k' h], fun q => ?_, by simp [put, hcc, hc0]⟩
    · have hR : ∀ q nh, s1.rt q = some nh → ins s1.rt (vrf, a, 32) ⟨8, id, 0, true⟩ q = some nh :=
        fun q nh h => ins_keep (by rw [hcr]; exact hf0) h
      have hOk : ∀ (k' : If) (j : Ifn), k' ≠ (8, id) →
          (put s1 (ins s1.rt (vrf, a, 32) ⟨8, id, 0, true⟩) (8, id) ⟨vrf, .loop, [⟨a, 32⟩]⟩).ifs k' = some j →
          s1.ifs k' = some j := by intro k' j h hj; simpa [put, h] using hj
      refine ⟨?_, ?_, ?_, ?_, ?_, ?_, hg1.qnd⟩
      · intro p hp
        obtain ⟨i, hi⟩ := hg1.base p hp
        have : ((p, 0) : If) ≠ (8, id) := by intro h; have := congrArg Prod.fst h; simp only at this; omega
        exact ⟨i, by simp only [put, if_neg this]; exact hi⟩
      · intro k' j hj hjk
        by_cases h : k' = (8, id)
        · subst h; rw [put_ifs] at hj; simp only [Option.some.injEq] at hj; subst hj; cases hjk
        · have ho := hg1.eth k' j (hOk k' j h hj) hjk
          exact ⟨fun x hx => hR _ _ (ho.loc x hx), fun x hx => ⟨(ho.sub x hx).1, hR _ _ (ho.sub x hx).2⟩, ho.nip, ho.nnet⟩
      · intro k' j hj hjk
        by_cases h : k' = (8, id)
        · subst h; rw [put_ifs] at hj; simp only [Option.some.injEq] at hj; subst hj
          exact ⟨rfl, .inr ⟨a, rfl, by simp [ins]⟩⟩
        · obtain ⟨h8, hl⟩ := hg1.lp k' j (hOk k' j h hj) hjk
          refine ⟨h8, ?_⟩
          rcases hl with hl | ⟨b, hl, hr⟩
          · exact .inl hl
          · exact .inr ⟨b, hl, hR _ _ hr⟩
      · intro k' j hj
        by_cases h : k' = (8, id)
        · subst h; rw [put_ifs] at hj; simp only [Option.some.injEq] at hj; subst hj
          exact ⟨hv, by simp, by simpa using ha, fun _ => hcq⟩
        · exact hg1.com k' j (hOk k' j h hj)
      · intro w b l nh hr hl
        simp only [put_rt, ins] at hr
        split at hr
        · next hq' =>
          simp only [Option.some.injEq] at hr; subst hr
          simp only [Prod.mk.injEq] at hq'
          exact ⟨hq'.2.2, ⟨vrf, .loop, [⟨a, 32⟩]⟩, by simp [put], hq'.1.symm, ⟨a, 32⟩, by simp, hq'.2.1.symm⟩
        · obtain ⟨h32, j, hj, hw, x, hx, hxa⟩ := hg1.locR w b l nh hr hl
          refine ⟨h32, j, ?_, hw, x, hx, hxa⟩
          by_cases h : ((nh.port, nh.vlan) : If) = (8, id)
          · rw [h, hck] at hj; simp only [Option.some.injEq] at hj; subst hj; cases hx
          · simp only [put, if_neg h]; exact hj
      · intro k' hk'
        by_cases h : k' = (8, id)
        · exact ⟨_, by rw [h]; exact put_ifs _ _ _ _⟩
        · simp only [put, if_neg h]; exact hg1.qex k' hk'
    · simp only [put_rt, ins, hcr, hr0]
      rfl
  unfold upLocal
  rw [if_neg (by omega)]
  simp only [show localPorts = 8 from rfl]
  cases hk : s.ifs (8, id) with
  | none =>
    have hall : allRoutes s (8, id) = [] := by simp [allRoutes, routesOf, hk]
    have := main s hg hk (hpool hk) (fun q => by rw [hall, drop_nil]) (fun _ _ => rfl) rfl _ rfl
    exact ⟨trivial, this⟩
  | some i =>
    obtain ⟨_, d2, d3, d4, d5, d6, d7, d8⟩ := down_exact hg hk (by simp)
    rw [if_pos (.inr rfl)] at d5 d7
    have := main (down e s (8, id)).1 d2 d5 (by omega) d3 d4 d8 _ rfl
    exact ⟨trivial, this⟩

/-! ### Static routes -/

/-- `q` is not the route of an address. -/
def NotOwned (s : St) (q : Key) : Prop := ∀ k i, s.ifs k = some i → ∀ x ∈ i.addrs, q ∉ keysOf i.vrf x

theorem Good.route {e : Env} {s : St} (hg : Good e s) {q : Key} (hq : NotOwned s q) {v : Option Nh}
    (hv : ∀ nh, v = some nh → nh.isLocal = false) : Good e (setRt s q v) := by
  have hkeep : ∀ k i, s.ifs k = some i → ∀ x ∈ i.addrs, ∀ q' ∈ keysOf i.vrf x, (setRt s q v).rt q' = s.rt q' := by
    intro k i hk x hx q' hq'
    have : q' ≠ q := by rintro rfl; exact hq k i hk x hx hq'
    simp [setRt, this]
  refine ⟨hg.base, ?_, ?_, hg.com, ?_, hg.qex, hg.qnd⟩
  · intro k i hk hkd
    have ho := hg.eth k i hk hkd
    exact ⟨fun x hx => by rw [hkeep k i hk x hx _ (by simp [keysOf])]; exact ho.loc x hx,
      fun x hx => ⟨(ho.sub x hx).1, by rw [hkeep k i hk x hx _ (by simp [keysOf])]; exact (ho.sub x hx).2⟩, ho.nip, ho.nnet⟩
  · intro k i hk hkd
    obtain ⟨h8, hl⟩ := hg.lp k i hk hkd
    refine ⟨h8, ?_⟩
    rcases hl with hl | ⟨a, hl, hr⟩
    · exact .inl hl
    · exact .inr ⟨a, hl, by rw [hkeep k i hk ⟨a, 32⟩ (by rw [hl]; simp) _ (by simp [keysOf])]; exact hr⟩
  · intro w a l nh hr hl
    simp only [setRt] at hr
    split at hr
    · exact absurd hl (by rw [hv nh hr]; simp)
    · exact hg.locR w a l nh hr hl

/-- Adding a static route on a prefix that is not an interface's. -/
theorem static_add {e : Env} {s : St} (hg : Good e s) {vrf dst m gw : Nat} {k : If}
    (hq : NotOwned s (vrf, net dst m, m)) (hv : vrf < e.numVrf) :
    Good e (addRoute e s vrf k dst m gw false) ∧
    (addRoute e s vrf k dst m gw false).ifs = s.ifs ∧
    (∀ q, (addRoute e s vrf k dst m gw false).rt q =
      if q = (vrf, net dst m, m) then some ⟨k.1, k.2, gw, false⟩ else s.rt q) := by
  rw [addRoute_net _ _ _ _ hv]
  exact ⟨hg.route hq (v := some ⟨k.1, k.2, gw, false⟩) (by simp), rfl, fun q => rfl⟩

/-- Deleting a static route. -/
theorem static_del {e : Env} {s : St} (hg : Good e s) {vrf dst m : Nat}
    (hq : NotOwned s (vrf, net dst m, m)) (hv : vrf < e.numVrf) :
    Good e (delRoute e s vrf dst m) ∧ (delRoute e s vrf dst m).ifs = s.ifs ∧
    (∀ q, (delRoute e s vrf dst m).rt q = if q = (vrf, net dst m, m) then none else s.rt q) := by
  cases hr : s.rt (vrf, net dst m, m) with
  | none =>
    rw [delRoute_none hr]
    refine ⟨hg, rfl, fun q => ?_⟩
    split
    · next h => rw [h, hr]
    · rfl
  | some nh =>
    have hl : nh.isLocal = false := by
      cases h : nh.isLocal with
      | false => rfl
      | true =>
        obtain ⟨h32, i, hi, hw, x, hx, hxa⟩ := hg.locR _ _ _ nh hr h
        exact absurd (by rw [hw, ← hxa]; simp [keysOf, h32]) (hq _ i hi x hx)
    rw [delRoute_net hv hr hl]
    have heq : ({ s with rt := drop s.rt [(vrf, net dst m, m)] } : St) = setRt s (vrf, net dst m, m) none := by
      apply St.ext' <;> simp only [setRt]
      funext q; simp [drop]
    rw [heq]
    exact ⟨hg.route hq (v := none) (by simp), rfl, fun q => rfl⟩

end Verif.Ifcfg

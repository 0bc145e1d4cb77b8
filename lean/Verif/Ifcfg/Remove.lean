import Verif.Ifcfg.Lemmas
import Verif.Ifcfg.Spec

/-! Removing addresses: one pair of routes, and the loop over a whole list. -/

namespace Verif.Ifcfg

theorem Owned.perm {R : Key → Option Nh} {k : If} {vrf : Nat} {L L' : List Ipa} (h : Owned R k vrf L)
    (hp : L.Perm L') : Owned R k vrf L' :=
  ⟨fun x hx => h.loc x (hp.mem_iff.2 hx), fun x hx => h.sub x (hp.mem_iff.2 hx),
   ((hp.map _).nodup_iff).1 h.nip, ((hp.map _).nodup_iff).1 h.nnet⟩

theorem Owned.rm {R : Key → Option Nh} {k : If} {vrf : Nat} {L L' : List Ipa} {x : Ipa} (h : Owned R k vrf L)
    (hp : (x :: L').Perm L) : Owned (drop R (keysOf vrf x)) k vrf L' := by
  have h' := h.perm hp.symm
  have hi := h'.nip; have hn := h'.nnet
  simp only [List.map_cons, List.nodup_cons, List.mem_map, not_exists, not_and] at hi hn
  have hx := h'.sub x (by simp)
  refine ⟨fun y hy => ?_, fun y hy => ⟨(h'.sub y (by simp [hy])).1, ?_⟩, hi.2, hn.2⟩
  · have : (vrf, y.ip, 32) ∉ keysOf vrf x := by
      simp only [keysOf, List.mem_cons, Prod.mk.injEq, true_and, List.not_mem_nil, or_false, not_or, not_and]
      exact ⟨fun _ => Ne.symm hx.1, fun e => absurd e (hi.1 y hy)⟩
    simp only [drop, if_neg this]; exact h'.loc y (by simp [hy])
  · have : (vrf, net y.ip y.mlen, y.mlen) ∉ keysOf vrf x := by
      simp only [keysOf, List.mem_cons, Prod.mk.injEq, true_and, List.not_mem_nil, or_false, not_or, not_and]
      refine ⟨fun e1 e2 => hn.1 y hy (by rw [e1, e2]), fun _ => (h'.sub y (by simp [hy])).1⟩
    simp only [drop, if_neg this]; exact (h'.sub y (by simp [hy])).2

/-- Deleting the subnet route and then the host route of an address. -/
theorem delPair {e : Env} {s : St} {k : If} {i : Ifn} {x : Ipa} {d : Nat} (hk : s.ifs k = some i)
    (hv : i.vrf < e.numVrf) (ho : Owned s.rt k i.vrf i.addrs) (hx : x ∈ i.addrs)
    (hd : net d x.mlen = net x.ip x.mlen) :
    delRoute e (delRoute e s i.vrf d x.mlen) i.vrf x.ip 32 =
      put s (drop s.rt (keysOf i.vrf x)) k { i with addrs := ipRemove x.ip i.addrs } := by
  have hs := ho.sub x hx
  rw [delRoute_net (s := s) (dst := d) (m := x.mlen) (nh := ⟨k.1, k.2, 0, false⟩) hv (by rw [hd]; exact hs.2) rfl, hd]
  rw [delRoute_local (a := x.ip) (k := k) (i := i) (g := 0) hv ?_ (by exact hk)]
  · apply St.ext' <;> simp only [put]
    rw [drop_drop]; rfl
  · simp only [drop]
    rw [if_neg ?_]
    · exact ho.loc x hx
    · simp only [List.mem_singleton, Prod.mk.injEq, not_and]
      exact fun _ _ => Ne.symm hs.1

/-- Deleting the host route and then the subnet route. -/
theorem delPair' {e : Env} {s : St} {k : If} {i : Ifn} {x : Ipa} {d : Nat} (hk : s.ifs k = some i)
    (hv : i.vrf < e.numVrf) (ho : Owned s.rt k i.vrf i.addrs) (hx : x ∈ i.addrs)
    (hd : net d x.mlen = net x.ip x.mlen) :
    delRoute e (delRoute e s i.vrf x.ip 32) i.vrf d x.mlen =
      put s (drop s.rt (keysOf i.vrf x)) k { i with addrs := ipRemove x.ip i.addrs } := by
  have hs := ho.sub x hx
  rw [delRoute_local (k := k) (i := i) (g := 0) hv (ho.loc x hx) hk]
  rw [delRoute_net (nh := ⟨k.1, k.2, 0, false⟩) hv ?_ rfl, hd]
  · apply St.ext' <;> simp only [put]
    rw [drop_drop]
    funext q; simp [drop, keysOf, or_comm]
  · simp only [put, drop, hd]
    rw [if_neg ?_]
    · exact hs.2
    · simp only [List.mem_singleton, Prod.mk.injEq, not_and]
      exact fun _ _ => hs.1

theorem infoAt_eq {s : St} {k : If} {i : Ifn} (hk : s.ifs k = some i) (j : Nat) :
    infoAt s k j = i.addrs[j]?.getD ⟨0, 0⟩ := by simp [infoAt, addrsOf, hk]

theorem vrfOf_eq {s : St} {k : If} {i : Ifn} (hk : s.ifs k = some i) : vrfOf s k = i.vrf := by simp [vrfOf, hk]

theorem addrsOf_eq {s : St} {k : If} {i : Ifn} (hk : s.ifs k = some i) : addrsOf s k = i.addrs := by
  simp [addrsOf, hk]

/-- Deleting a route leaves the VRF of every interface alone. -/
theorem vrfOf_delRoute (e : Env) (s : St) (v d m : Nat) (k : If) : vrfOf (delRoute e s v d m) k = vrfOf s k := by
  unfold delRoute
  split
  · rfl
  · simp only
    split
    · rfl
    · split
      · simp only [vrfOf, modIf, setRt]
        split
        · next h => subst h; cases s.ifs _ <;> rfl
        · rfl
      · rfl

theorem freeLoop_eq (e : Env) (k : If) : ∀ (rest : List Ipa) (idx : Nat) (s : St) (i : Ifn), s.ifs k = some i →
    i.vrf < e.numVrf → Owned s.rt k i.vrf i.addrs → i.addrs.length ≤ 7 → i.addrs.Perm rest →
    (∀ j, idx ≤ j → j < i.addrs.length → i.addrs[j]? = rest[j - idx]?) →
    freeLoop e k rest idx s = put s (drop s.rt (rest.flatMap (keysOf i.vrf))) k { i with addrs := [] }
  | [], idx, s, i, hk, _, _, _, hp, _ => by
    have : i.addrs = [] := List.Perm.eq_nil hp
    have hi : ({ i with addrs := [] } : Ifn) = i := by cases i; simp_all
    simp only [freeLoop, List.flatMap_nil, drop_nil, hi, put_self s hk]
  | x :: rest, idx, s, i, hk, hv, ho, hl, hp, hpos => by
    have hx : x ∈ i.addrs := hp.mem_iff.2 (by simp)
    simp only [freeLoop]
    have hd : net (maskBy x.ip (infoAt s k idx).mlen) x.mlen = net x.ip x.mlen := by
      by_cases h : idx < i.addrs.length
      · have := hpos idx (Nat.le_refl _) h
        rw [Nat.sub_self, List.getElem?_cons_zero] at this
        rw [infoAt_eq hk, this]; exact net_mask _ _
      · rw [infoAt_eq hk, List.getElem?_eq_none (by omega)]; rfl
    rw [vrfOf_delRoute, vrfOf_eq hk, delPair hk hv ho hx hd]
    have hr := ipRemove_perm ho.nip hl hx
    rw [freeLoop_eq e k rest (idx + 1) _ { i with addrs := ipRemove x.ip i.addrs } (by simp) hv]
    · rw [put_put]
      simp only [put_rt, drop_drop, List.flatMap_cons]
    · simp only [put_rt]; exact ho.rm hr
    · have := hr.length_eq; simp only [List.length_cons] at this; simp only; omega
    · exact (List.perm_cons x).1 (hr.trans hp)
    · intro j hj hjl
      simp only at hjl ⊢
      have hlen := hr.length_eq; simp only [List.length_cons] at hlen
      by_cases h : idx < i.addrs.length
      · have hxi := hpos idx (Nat.le_refl _) h
        rw [Nat.sub_self, List.getElem?_cons_zero, List.getElem?_eq_getElem h] at hxi
        have hxe : i.addrs[idx] = x := by simpa using hxi
        rw [← hxe, ipRemove_at ho.nip hl h]
        rw [swap_get (by omega) (by omega), hpos j (by omega) (by omega)]
        have : j - idx = (j - (idx + 1)) + 1 := by omega
        rw [this, List.getElem?_cons_succ]
      · omega

theorem freeList_eq {e : Env} {k : If} {s : St} {i : Ifn} (hk : s.ifs k = some i) (hv : i.vrf < e.numVrf)
    (ho : Owned s.rt k i.vrf i.addrs) (hl : i.addrs.length ≤ 7) :
    freeList e s k = put s (drop s.rt (i.addrs.flatMap (keysOf i.vrf))) k { i with addrs := [] } := by
  unfold freeList
  rw [addrsOf_eq hk]
  exact freeLoop_eq e k i.addrs 0 s i hk hv ho hl (List.Perm.refl _) (fun j _ _ => by rw [Nat.sub_zero])

end Verif.Ifcfg

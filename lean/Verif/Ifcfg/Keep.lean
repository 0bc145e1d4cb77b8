import Verif.Ifcfg.Effect

/-! The calls keep a configuration consistent: removal, addition, creation. -/

namespace Verif.Ifcfg

theorem Owned.rms {k : If} {vrf : Nat} : ∀ (D : List Ipa) {R : Key → Option Nh} {L L' : List Ipa}, Owned R k vrf L →
    (D ++ L').Perm L → Owned (drop R (D.flatMap (keysOf vrf))) k vrf L'
  | [], R, L, L', h, hp => by simpa [drop_nil] using h.perm (by simpa using hp.symm)
  | x :: D, R, L, L', h, hp => by
    have h1 : Owned (drop R (keysOf vrf x)) k vrf (D ++ L') := h.rm (by simpa using hp)
    have h2 := Owned.rms D h1 (List.Perm.refl _)
    rwa [drop_drop, ← List.flatMap_cons] at h2

/-- A route of an address of interface `k` leads through `k`. -/
theorem key_owner {e : Env} {s : St} (hg : Good e s) {k : If} {i : Ifn} (hk : s.ifs k = some i) {D : List Ipa}
    (hD : ∀ x ∈ D, x ∈ i.addrs) {q : Key} (hq : q ∈ D.flatMap (keysOf i.vrf)) :
    ∃ b, s.rt q = some ⟨k.1, k.2, 0, b⟩ := by
  rw [List.mem_flatMap] at hq
  obtain ⟨x, hx, hq⟩ := hq
  have hx := hD x hx
  simp only [keysOf, List.mem_cons, List.not_mem_nil, or_false] at hq
  cases hkd : i.kind with
  | ether =>
    have ho := hg.eth k i hk hkd
    rcases hq with rfl | rfl
    · exact ⟨false, (ho.sub x hx).2⟩
    · exact ⟨true, ho.loc x hx⟩
  | loop =>
    obtain ⟨_, h | ⟨a, h, hr⟩⟩ := hg.lp k i hk hkd
    · rw [h] at hx; cases hx
    · rw [h] at hx
      simp only [List.mem_singleton] at hx
      subst hx
      rw [net_32] at hq
      rcases hq with rfl | rfl <;> exact ⟨true, hr⟩

theorem drop_keep {e : Env} {s : St} (hg : Good e s) {k : If} {i : Ifn} (hk : s.ifs k = some i) {D : List Ipa}
    (hD : ∀ x ∈ D, x ∈ i.addrs) {q : Key} {k' : If} {g : Nat} {b : Bool} (hq : s.rt q = some ⟨k'.1, k'.2, g, b⟩)
    (hne : k' ≠ k) : drop s.rt (D.flatMap (keysOf i.vrf)) q = some ⟨k'.1, k'.2, g, b⟩ := by
  unfold drop
  rw [if_neg, hq]
  intro hm
  obtain ⟨b', hb⟩ := key_owner hg hk hD hm
  rw [hq] at hb
  simp only [Option.some.injEq, Nh.mk.injEq] at hb
  exact hne (Prod.ext hb.1 hb.2.1)

theorem Owned.others {e : Env} {s : St} (hg : Good e s) {k : If} {i : Ifn} (hk : s.ifs k = some i) {D : List Ipa}
    (hD : ∀ x ∈ D, x ∈ i.addrs) {k' : If} (hne : k' ≠ k) {v : Nat} {L : List Ipa} (ho : Owned s.rt k' v L) :
    Owned (drop s.rt (D.flatMap (keysOf i.vrf))) k' v L :=
  ⟨fun x hx => drop_keep hg hk hD (ho.loc x hx) hne,
   fun x hx => ⟨(ho.sub x hx).1, drop_keep hg hk hD (ho.sub x hx).2 hne⟩, ho.nip, ho.nnet⟩

/-- Removing the addresses `D` of interface `k` (and possibly the interface). -/
theorem Good.removed {e : Env} {s s' : St} (hg : Good e s) {k : If} {i : Ifn} (hk : s.ifs k = some i)
    {D L' : List Ipa} (hp : (D ++ L').Perm i.addrs)
    (hR : s'.rt = drop s.rt (D.flatMap (keysOf i.vrf))) (hO : ∀ k', k' ≠ k → s'.ifs k' = s.ifs k')
    (hK : (s'.ifs k = none ∧ L' = [] ∧ ¬ (k.2 = 0 ∧ k.1 < 8)) ∨
      ∃ i', s'.ifs k = some i' ∧ i'.addrs = L' ∧ i'.kind = i.kind ∧ i'.vrf < e.numVrf ∧ (L' ≠ [] → i'.vrf = i.vrf))
    (hq : ∀ k', k' ≠ k → (k' ∈ s'.ifq ↔ k' ∈ s.ifq)) (hqk : s'.ifs k = none → k ∉ s'.ifq)
    (hqL : L' ≠ [] → k ∈ s'.ifq) (hnd : s'.ifq.Nodup) : Good e s' := by
  have hD : ∀ x ∈ D, x ∈ i.addrs := fun x hx => hp.mem_iff.1 (by simp [hx])
  have hL : ∀ x ∈ L', x ∈ i.addrs := fun x hx => hp.mem_iff.1 (by simp [hx])
  have hcom := hg.com k i hk
  have hlen : L'.length ≤ i.addrs.length := by have := hp.length_eq; simp only [List.length_append] at this; omega
  refine ⟨?_, ?_, ?_, ?_, ?_, ?_, hnd⟩
  · intro p hp8
    by_cases h : ((p, 0) : If) = k
    · rcases hK with ⟨_, _, h3⟩ | ⟨i', h1, _⟩
      · exact absurd ⟨by rw [← h], by rw [← h]; exact hp8⟩ h3
      · exact ⟨i', by rw [h]; exact h1⟩
    · rw [hO _ h]; exact hg.base p hp8
  · intro k' j hj hjk
    by_cases h : k' = k
    · subst h
      rcases hK with ⟨h1, _⟩ | ⟨i', h1, h2, h3, h4, h5⟩
      · rw [h1] at hj; cases hj
      · rw [h1] at hj
        simp only [Option.some.injEq] at hj; subst hj
        have ho := hg.eth k' i hk (by rw [← h3]; exact hjk)
        have ho' := Owned.rms D ho hp
        rw [hR, h2]
        by_cases hn : L' = []
        · subst hn; exact ⟨by simp, by simp, by simp, by simp⟩
        · rw [h5 hn]; exact ho'
    · rw [hO _ h] at hj
      rw [hR]
      exact (hg.eth k' j hj hjk).others hg hk hD h
  · intro k' j hj hjk
    by_cases h : k' = k
    · subst h
      rcases hK with ⟨h1, _⟩ | ⟨i', h1, h2, h3, h4, h5⟩
      · rw [h1] at hj; cases hj
      · rw [h1] at hj
        simp only [Option.some.injEq] at hj; subst hj
        obtain ⟨h8, hl⟩ := hg.lp k' i hk (by rw [← h3]; exact hjk)
        refine ⟨h8, ?_⟩
        rcases hl with hl | ⟨a, hl, hr⟩
        · left; rw [hl] at hlen; rw [h2]; exact List.length_eq_zero_iff.1 (by simpa using hlen)
        · by_cases hn : L' = []
          · left; rw [h2, hn]
          · right
            rw [hl] at hp
            have hl' : L'.length = 1 := by
              have := List.length_pos_iff.2 hn; rw [hl] at hlen; simp only [List.length_singleton] at hlen; omega
            have hDn : D = [] := by
              have := hp.length_eq; simp only [List.length_append, List.length_singleton] at this
              exact List.length_eq_zero_iff.1 (by omega)
            subst hDn
            refine ⟨a, by rw [h2]; exact List.perm_singleton.1 (by simpa using hp), ?_⟩
            rw [hR, h5 hn]; simpa [drop_nil] using hr
    · rw [hO _ h] at hj
      obtain ⟨h8, hl⟩ := hg.lp k' j hj hjk
      refine ⟨h8, ?_⟩
      rcases hl with hl | ⟨a, hl, hr⟩
      · exact .inl hl
      · exact .inr ⟨a, hl, by rw [hR]; exact drop_keep hg hk hD hr h⟩
  · intro k' j hj
    by_cases h : k' = k
    · subst h
      rcases hK with ⟨h1, _⟩ | ⟨i', h1, h2, h3, h4, h5⟩
      · rw [h1] at hj; cases hj
      · rw [h1] at hj
        simp only [Option.some.injEq] at hj; subst hj
        rw [h2]
        exact ⟨h4, by omega, fun x hx => hcom.2.2.1 x (hL x hx), hqL⟩
    · rw [hO _ h] at hj
      have := hg.com k' j hj
      exact ⟨this.1, this.2.1, this.2.2.1, fun hn => (hq k' h).2 (this.2.2.2 hn)⟩
  · intro w a l nh hr hl
    rw [hR] at hr
    unfold drop at hr
    split at hr
    · cases hr
    · next hnm =>
      obtain ⟨h32, j, hj, hw, x, hx, hxa⟩ := hg.locR w a l nh hr hl
      refine ⟨h32, ?_⟩
      by_cases h : ((nh.port, nh.vlan) : If) = k
      · rw [h, hk] at hj
        simp only [Option.some.injEq] at hj
        subst hj
        have hxL : x ∈ L' := by
          rcases List.mem_append.1 (hp.mem_iff.2 hx) with hd | hl'
          · exfalso; apply hnm
            rw [List.mem_flatMap]
            exact ⟨x, hd, by simp [keysOf, ← hw, ← hxa, h32]⟩
          · exact hl'
        have hn : L' ≠ [] := by intro h0; rw [h0] at hxL; cases hxL
        rcases hK with ⟨_, h2, _⟩ | ⟨i', h1, h2, h3, h4, h5⟩
        · exact absurd h2 hn
        · exact ⟨i', by rw [h]; exact h1, by rw [h5 hn]; exact hw, x, by rw [h2]; exact hxL, hxa⟩
      · exact ⟨j, by rw [hO _ h]; exact hj, hw, x, hx, hxa⟩
  · intro k' hk'
    by_cases h : k' = k
    · subst h
      rcases hK with ⟨h1, _⟩ | ⟨i', h1, _⟩
      · exact absurd hk' (hqk h1)
      · exact ⟨i', h1⟩
    · rw [hO _ h]; exact hg.qex k' ((hq k' h).1 hk')

theorem ins_ne {R : Key → Option Nh} {k q : Key} {nh : Nh} (h : q ≠ k) : ins R k nh q = R q := by
  simp [ins, h]

theorem ins_keep {R : Key → Option Nh} {k q : Key} {nh nh' : Nh} (hf : R k = none) (h : R q = some nh') :
    ins R k nh q = some nh' := by
  rw [ins_ne, h]; intro e; rw [e, hf] at h; cases h

/-- Adding a fresh address to an interface. -/
theorem Good.added {e : Env} {s : St} (hg : Good e s) {k : If} {i : Ifn} (hk : s.ifs k = some i)
    (hkd : i.kind = .ether) {a m : Nat} {L' : List Ipa} (hL : L'.Perm (⟨a, m⟩ :: i.addrs)) (ha : a ≠ 0) (hm : m ≠ 32)
    (f1 : s.rt (i.vrf, a, 32) = none) (f2 : s.rt (i.vrf, net a m, m) = none) (hlen : i.addrs.length ≤ 6)
    (hq : k ∈ s.ifq) :
    Good e (put s (ins (ins s.rt (i.vrf, a, 32) ⟨k.1, k.2, 0, true⟩) (i.vrf, net a m, m) ⟨k.1, k.2, 0, false⟩) k
      { i with addrs := L' }) := by
  have hne : ((i.vrf, net a m, m) : Key) ≠ (i.vrf, a, 32) := by simp [hm]
  have hcom := hg.com k i hk
  have hkeep : ∀ q nh, s.rt q = some nh →
      ins (ins s.rt (i.vrf, a, 32) ⟨k.1, k.2, 0, true⟩) (i.vrf, net a m, m) ⟨k.1, k.2, 0, false⟩ q = some nh := by
    intro q nh h
    apply ins_keep
    · rw [ins_ne hne, f2]
    · exact ins_keep f1 h
  have hO : ∀ k', k' ≠ k → (put s (ins (ins s.rt (i.vrf, a, 32) ⟨k.1, k.2, 0, true⟩) (i.vrf, net a m, m) ⟨k.1, k.2, 0, false⟩) k
      { i with addrs := L' }).ifs k' = s.ifs k' := by intro k' h; simp [put, h]
  refine ⟨?_, ?_, ?_, ?_, ?_, ?_, hg.qnd⟩
  · intro p hp
    by_cases h : ((p, 0) : If) = k
    · exact ⟨_, by rw [h]; simp [put]; rfl⟩
    · rw [hO _ h]; exact hg.base p hp
  · intro k' j hj hjk
    simp only [put_rt]
    by_cases h : k' = k
    · subst h
      simp only [put_ifs, Option.some.injEq] at hj
      subst hj
      simp only
      apply Owned.perm _ hL.symm
      have ho := hg.eth k' i hk hkd
      refine ⟨?_, ?_, ?_, ?_⟩
      · intro x hx
        rcases List.mem_cons.1 hx with rfl | hx
        · rw [ins_ne hne.symm]; simp [ins]
        · exact hkeep _ _ (ho.loc x hx)
      · intro x hx
        rcases List.mem_cons.1 hx with rfl | hx
        · exact ⟨hm, by simp [ins]⟩
        · exact ⟨(ho.sub x hx).1, hkeep _ _ (ho.sub x hx).2⟩
      · simp only [List.map_cons, List.nodup_cons, List.mem_map, not_exists, not_and]
        refine ⟨fun x hx hxa => ?_, ho.nip⟩
        have := ho.loc x hx
        rw [hxa, f1] at this; cases this
      · simp only [List.map_cons, List.nodup_cons, List.mem_map, not_exists, not_and, Prod.mk.injEq]
        refine ⟨fun x hx hxa hxm => ?_, ho.nnet⟩
        have := (ho.sub x hx).2
        rw [hxa, hxm, f2] at this; cases this
    · rw [hO _ h] at hj
      have ho := hg.eth k' j hj hjk
      exact ⟨fun x hx => hkeep _ _ (ho.loc x hx), fun x hx => ⟨(ho.sub x hx).1, hkeep _ _ (ho.sub x hx).2⟩, ho.nip, ho.nnet⟩
  · intro k' j hj hjk
    by_cases h : k' = k
    · subst h
      simp only [put_ifs, Option.some.injEq] at hj
      subst hj
      rw [hkd] at hjk; cases hjk
    · rw [hO _ h] at hj
      obtain ⟨h8, hl⟩ := hg.lp k' j hj hjk
      refine ⟨h8, ?_⟩
      rcases hl with hl | ⟨b, hl, hr⟩
      · exact .inl hl
      · exact .inr ⟨b, hl, hkeep _ _ hr⟩
  · intro k' j hj
    by_cases h : k' = k
    · subst h
      simp only [put_ifs, Option.some.injEq] at hj
      subst hj
      refine ⟨hcom.1, ?_, ?_, fun _ => hq⟩
      · have := hL.length_eq; simp only [List.length_cons] at this; simp only; omega
      · intro x hx
        rcases List.mem_cons.1 (hL.mem_iff.1 hx) with rfl | hx
        · exact ha
        · exact hcom.2.2.1 x hx
    · rw [hO _ h] at hj
      exact hg.com k' j hj
  · intro w b l nh hr hl
    simp only [put_rt, ins] at hr
    split at hr
    · simp only [Option.some.injEq] at hr; subst hr; simp at hl
    · split at hr
      · next hq' =>
        simp only [Option.some.injEq] at hr; subst hr
        simp only [Prod.mk.injEq] at hq'
        refine ⟨hq'.2.2, { i with addrs := L' }, by simp [put], hq'.1.symm, ⟨a, m⟩, hL.mem_iff.2 (by simp), hq'.2.1.symm⟩
      · obtain ⟨h32, j, hj, hw, x, hx, hxa⟩ := hg.locR w b l nh hr hl
        refine ⟨h32, ?_⟩
        by_cases h : ((nh.port, nh.vlan) : If) = k
        · rw [h, hk] at hj
          simp only [Option.some.injEq] at hj; subst hj
          exact ⟨{ i with addrs := L' }, by rw [h]; simp, hw, x, hL.mem_iff.2 (by simp [hx]), hxa⟩
        · exact ⟨j, by rw [hO _ h]; exact hj, hw, x, hx, hxa⟩
  · intro k' hk'
    by_cases h : k' = k
    · exact ⟨_, by rw [h]; simp [put]; rfl⟩
    · rw [hO _ h]; exact hg.qex k' hk'

/-- Replacing an empty interface record, or its VRF by the same, and putting it on the list. -/
theorem Good.relabel {e : Env} {s s' : St} (hg : Good e s) {k : If} {i i' : Ifn} (hk : s.ifs k = some i)
    (hR : s'.rt = s.rt) (hO : ∀ k', k' ≠ k → s'.ifs k' = s.ifs k') (hK : s'.ifs k = some i')
    (h : i' = i ∨ i.addrs = [] ∧ i'.addrs = [] ∧ i'.vrf < e.numVrf ∧ (i'.kind = .loop → k.1 = 8))
    (hq : s'.ifq = s.ifq ∨ s'.ifq = s.ifq ++ [k] ∧ k ∉ s.ifq) : Good e s' := by
  have hqm : ∀ k', k' ∈ s.ifq → k' ∈ s'.ifq := by
    intro k' hk'; rcases hq with hq | ⟨hq, _⟩ <;> rw [hq] <;> simp [hk']
  have hind : ∀ j, s'.ifs k = some j → j = i' := by intro j hj; rw [hK] at hj; simpa using hj.symm
  refine ⟨?_, ?_, ?_, ?_, ?_, ?_, ?_⟩
  · intro p hp
    by_cases h' : ((p, 0) : If) = k
    · exact ⟨i', by rw [h']; exact hK⟩
    · rw [hO _ h']; exact hg.base p hp
  · intro k' j hj hjk
    rw [hR]
    by_cases h' : k' = k
    · subst h'; rw [hind j hj] at hjk ⊢
      rcases h with rfl | ⟨_, h2, _⟩
      · exact hg.eth k' _ hk hjk
      · rw [h2]; exact ⟨by simp, by simp, by simp, by simp⟩
    · rw [hO _ h'] at hj; exact hg.eth k' j hj hjk
  · intro k' j hj hjk
    rw [hR]
    by_cases h' : k' = k
    · subst h'; rw [hind j hj] at hjk ⊢
      rcases h with rfl | ⟨_, h2, _, h4⟩
      · exact hg.lp k' _ hk hjk
      · exact ⟨h4 hjk, .inl h2⟩
    · rw [hO _ h'] at hj; exact hg.lp k' j hj hjk
  · intro k' j hj
    by_cases h' : k' = k
    · subst h'; rw [hind j hj]
      rcases h with rfl | ⟨_, h2, h3, _⟩
      · have := hg.com k' _ hk
        exact ⟨this.1, this.2.1, this.2.2.1, fun hn => hqm _ (this.2.2.2 hn)⟩
      · rw [h2]; exact ⟨h3, by simp, by simp, by simp⟩
    · rw [hO _ h'] at hj
      have := hg.com k' j hj
      exact ⟨this.1, this.2.1, this.2.2.1, fun hn => hqm _ (this.2.2.2 hn)⟩
  · intro w a l nh hr hl
    rw [hR] at hr
    obtain ⟨h32, j, hj, hw, x, hx, hxa⟩ := hg.locR w a l nh hr hl
    refine ⟨h32, ?_⟩
    by_cases h' : ((nh.port, nh.vlan) : If) = k
    · rw [h', hk] at hj
      simp only [Option.some.injEq] at hj; subst hj
      rcases h with rfl | ⟨h1, _⟩
      · exact ⟨i', by rw [h']; exact hK, hw, x, hx, hxa⟩
      · rw [h1] at hx; cases hx
    · exact ⟨j, by rw [hO _ h']; exact hj, hw, x, hx, hxa⟩
  · intro k' hk'
    by_cases h' : k' = k
    · exact ⟨i', by rw [h']; exact hK⟩
    · rw [hO _ h']
      rcases hq with hq | ⟨hq, _⟩ <;> rw [hq] at hk'
      · exact hg.qex k' hk'
      · rcases List.mem_append.1 hk' with h1 | h1
        · exact hg.qex k' h1
        · exact absurd (List.mem_singleton.1 h1) h'
  · rcases hq with hq | ⟨hq, hn⟩ <;> rw [hq]
    · exact hg.qnd
    · rw [List.nodup_append]
      exact ⟨hg.qnd, by simp, by intro a h1 b h2; simp only [List.mem_singleton] at h2; subst h2; intro h3; exact hn (h3 ▸ h1)⟩

theorem getCreate_none {s : St} {k : If} (hk : s.ifs k = none) (hv : k.2 ≠ 0 ∨ k.1 = 8) (hp : s.pool ≠ 0) :
    getCreate s k = { qAdd s k with pool := s.pool - 1,
                                    ifs := fun k' => if k' = k then some ⟨0, .ether, []⟩ else s.ifs k' } := by
  unfold getCreate
  rw [if_pos (by unfold localPorts; exact hv)]
  simp only [hk, if_neg hp]

/-- Creating an interface. -/
theorem Good.created {e : Env} {s : St} (hg : Good e s) {k : If} (hk : s.ifs k = none) (hv : k.2 ≠ 0 ∨ k.1 = 8)
    (hp : s.pool ≠ 0) (hV : 0 < e.numVrf) : Good e (getCreate s k) := by
  have hkq : k ∉ s.ifq := by intro h; obtain ⟨i, hi⟩ := hg.qex k h; rw [hk] at hi; cases hi
  rw [getCreate_none hk hv hp]
  have hq : qAdd s k = { s with ifq := s.ifq ++ [k] } := by unfold qAdd; rw [if_neg hkq]
  rw [hq]
  have hO : ∀ (k' : If) (j : Ifn), s.ifs k' = some j → k' ≠ k := by rintro k' j h rfl; rw [hk] at h; cases h
  refine ⟨?_, ?_, ?_, ?_, ?_, ?_, ?_⟩
  · intro p hp8
    obtain ⟨i, hi⟩ := hg.base p hp8
    exact ⟨i, by simp only [if_neg (hO _ _ hi)]; exact hi⟩
  · intro k' j hj hjk
    simp only at hj
    split at hj
    · simp only [Option.some.injEq] at hj; subst hj; exact ⟨by simp, by simp, by simp, by simp⟩
    · exact hg.eth k' j hj hjk
  · intro k' j hj hjk
    simp only at hj
    split at hj
    · simp only [Option.some.injEq] at hj; subst hj; cases hjk
    · exact hg.lp k' j hj hjk
  · intro k' j hj
    simp only at hj
    split at hj
    · simp only [Option.some.injEq] at hj; subst hj; exact ⟨hV, by simp, by simp, by simp⟩
    · have := hg.com k' j hj
      exact ⟨this.1, this.2.1, this.2.2.1, fun hn => by simp [this.2.2.2 hn]⟩
  · intro w a l nh hr hl
    obtain ⟨h32, j, hj, hw, x, hx, hxa⟩ := hg.locR w a l nh hr hl
    exact ⟨h32, j, by simp only [if_neg (hO _ _ hj)]; exact hj, hw, x, hx, hxa⟩
  · intro k' hk'
    simp only at hk' ⊢
    split
    · exact ⟨_, rfl⟩
    · next h =>
      rcases List.mem_append.1 hk' with h1 | h1
      · exact hg.qex k' h1
      · exact absurd (List.mem_singleton.1 h1) h
  · simp only
    rw [List.nodup_append]
    exact ⟨hg.qnd, by simp, by intro a h1 b h2; simp only [List.mem_singleton] at h2; subst h2; intro h3; exact hkq (h3 ▸ h1)⟩

end Verif.Ifcfg

import Verif.Ip6.World
/-! # Buffers that are freed twice or lost; neighbour resolution -/
namespace Verif.Ip6
open Verif Radix

/-! ## C155 -/

/-- A packet from :: to this host with a hop-by-hop header. -/
def hopPkt : Pkt := ⟨[96, 0, 0, 0], 8, 0, 64, any, addrOf 0 1, [58, 0, 0, 0, 0, 0, 0, 0]⟩

/-- **C155 refuted.** A packet with a hop-by-hop header (the same with a routing, fragment or destination options header)
for this host is freed twice: by the code that sends the ICMPv6 error and by the caller. -/
theorem ip6_double_free_violated : ∃ (env : Env) (f : Frame),
    (rx env f (init 1)).evs = [.alloc 0, .free 0, .free 0] :=
  ⟨env0, frameOf 0 (macOf 9) hopPkt, by decide +kernel⟩

/-- In general: a packet with an extension header that is delivered locally is disposed of at least twice. -/
theorem ip6_ext_double_free (env : Env) (d : Nat) (smac : Mac) (p : Pkt) (s : St) (h : p.wf) (h1 : p.plen < 65536)
    (h3 : p.hlim < 256) (hx : isExt p) (ho : isOurs env d p s.alloc = true)
    (hk : env.hookLocal p = .cont ∧ env.hookLocal6 p = .cont) :
    rx env (frameOf d smac p) s = (icmpError env s.next p 4 1 0 s.alloc).emit (.free s.next) := by
  have h2 : p.nxt < 256 := by unfold isExt at hx; omega
  rw [rx_process env d smac p s h h1 h2 h3]
  unfold process
  rw [ho]
  simp only [if_true, hk.1, hk.2]
  unfold classify isExt at *
  rw [if_neg (by omega), if_neg (by omega), if_neg (by omega), if_pos (by omega)]
  rfl

/-- **C155 refuted.** A packet without next header (59) for this host is never freed. -/
theorem ip6_leak_violated : ∃ (env : Env) (f : Frame), (rx env f (init 1)).evs = [.alloc 0] ∧ waiting 0 (rx env f (init 1)) = 0 :=
  ⟨env0, frameOf 0 (macOf 9) { hopPkt with nxt := 59 }, by decide +kernel, by decide +kernel⟩

/-- **C155 refuted.** An echo reply for this host is never freed. -/
theorem ip6_echo_reply_leak_violated : ∃ (env : Env) (f : Frame),
    (rx env f (init 1)).evs = [.alloc 0] ∧ waiting 0 (rx env f (init 1)) = 0 := by
  have hr : rx env0 (frameOf 0 (macOf 9) (icmp6 (addrOf 0 2) (addrOf 0 1) 64 [129, 0, 0, 0, 0, 1, 0, 1])) (init 1) = _ :=
    rx_icmp env0 0 (macOf 9) (icmp6 (addrOf 0 2) (addrOf 0 1) 64 [129, 0, 0, 0, 0, 1, 0, 1]) (init 1)
      (by decide +kernel) (by decide +kernel) (by decide +kernel) (by decide +kernel) (by decide +kernel)
      (by decide +kernel) (by decide +kernel) (by decide +kernel) (by decide +kernel)
  refine ⟨env0, frameOf 0 (macOf 9) (icmp6 (addrOf 0 2) (addrOf 0 1) 64 [129, 0, 0, 0, 0, 1, 0, 1]), ?_, ?_⟩
  · rw [hr]; decide +kernel
  · rw [hr]; decide +kernel

example : (∀ op ∈ [Op.addRoute (addrOf 0 0) 64 any 0 0 false, .send (pktTo (addrOf 0 7)),
      .rx (frameOf 1 (macOf 9) (pktTo (addrOf 0 8)))], op.wf ∧ op.pkt (plain { env0 with blackhole := true }) ∧
      op.pkt (fun p => ¬ isExt p)) := by
  intro op h
  simp only [List.mem_cons, List.not_mem_nil, or_false] at h
  rcases h with rfl | rfl | rfl
  · exact ⟨⟨by decide, by decide⟩, trivial, trivial⟩
  · exact ⟨by show (addrOf 0 7).length = 16; decide, trivial, trivial⟩
  · refine ⟨trivial, ?_, ?_⟩
    · show plain _ (parse _)
      unfold plain isExt; decide +kernel
    · show ¬ isExt (parse _)
      unfold isExt; decide +kernel

/-! ## Learning a neighbour -/

theorem byteBits_inj : ∀ a b : UInt8, Spec.byteBits a = Spec.byteBits b → a = b := by
  have key : ∀ i : Fin 256, (Spec.byteBits (UInt8.ofNat i)).foldl (fun x b => 2 * x + b.toNat) 0 = i.val := by decide +kernel
  intro a b h
  have ha := key ⟨a.toNat, a.toNat_lt⟩
  have hb := key ⟨b.toNat, b.toNat_lt⟩
  simp only [UInt8.ofNat_toNat] at ha hb
  rw [h, hb] at ha
  exact UInt8.toNat_inj.1 ha.symm

theorem byteBits_length (a : UInt8) : (Spec.byteBits a).length = 8 := by simp [Spec.byteBits]

theorem bits6_inj : ∀ a b : Addr, Spec.bits6 a = Spec.bits6 b → a = b
  | [], [], _ => rfl
  | [], b :: bs, h => by
    have := congrArg List.length h
    simp [bits6_length] at this
  | a :: as, [], h => by
    have := congrArg List.length h
    simp [bits6_length] at this
  | a :: as, b :: bs, h => by
    simp only [Spec.bits6, List.flatMap_cons] at h
    obtain ⟨h1, h2⟩ := List.append_inj h (by rw [byteBits_length, byteBits_length])
    rw [byteBits_inj a b h1, bits6_inj as bs h2]

theorem pfx6_full (a : Addr) (h : a.length = 16) : pfx6 a 128 = Spec.bits6 a := by
  unfold pfx6; apply List.take_of_length_le; rw [bits6_length]; omega

/-- A host route is used for its address. -/
theorem host_uses {T : Spec.Table Nat} {a : Addr} {i} (h : T (Spec.bits6 a) = some i) : Uses T a (some i) := by
  refine Or.inl ⟨i, (Spec.bits6 a).length, Nat.le_refl _, by rw [List.take_length]; exact h, ?_, rfl⟩
  intro m h1 h2; omega

/-- A host route for another address does not matter. -/
theorem uses_add_other {T : Spec.Table Nat} {a b : Addr} (ha : a.length = 16) (hb : b.length = 16) (hne : b ≠ a) (k r)
    (h : Uses T b r) : Uses (T.add (Spec.bits6 a) k) b r := by
  have key : ∀ n, n ≤ (Spec.bits6 b).length → (T.add (Spec.bits6 a) k) ((Spec.bits6 b).take n) = T ((Spec.bits6 b).take n) := by
    intro n hn
    simp only [Spec.Table.add]
    rw [if_neg]
    intro e
    have hl := congrArg List.length e
    rw [List.length_take, bits6_length, bits6_length] at hl
    rw [bits6_length] at hn
    have : n = 128 := by omega
    subst this
    rw [List.take_of_length_le (by rw [bits6_length]; omega)] at e
    exact hne (bits6_inj _ _ e)
  rcases h with ⟨d, n, h1, h2, h3, h4⟩ | ⟨h3, h4⟩
  · exact Or.inl ⟨d, n, h1, by rw [key n h1]; exact h2, fun m hm hm' => by rw [key m hm']; exact h3 m hm hm', h4⟩
  · exact Or.inr ⟨fun m hm => by rw [key m hm]; exact h3 m hm, h4⟩

/-- With a known Ethernet address, output changes neither routes nor next hops. -/
theorem output_static (env : Env) (id : Nat) (p : Pkt) (i : Nat) (s : St) (h : (s.nh i).mac ≠ noMac) :
    (ip6Output env id p (some i) s).2.tab = s.tab ∧ (ip6Output env id p (some i) s).2.nh = s.nh ∧
      (ip6Output env id p (some i) s).2.nnh = s.nnh := by
  unfold ip6Output pick
  dsimp only
  split
  · exact ⟨rfl, rfl, rfl⟩
  · exact ⟨rfl, rfl, rfl⟩
  · split
    · exact ⟨rfl, rfl, rfl⟩
    · unfold outDev
      rw [if_neg h]
      repeat' split
      all_goals exact ⟨rfl, rfl, rfl⟩

theorem sendHeld_static (env : Env) (i : Nat) : ∀ (l : List (Nat × Pkt)) (s : St), (s.nh i).mac ≠ noMac →
    (sendHeld env i l s).tab = s.tab ∧ (sendHeld env i l s).nh = s.nh ∧ (sendHeld env i l s).nnh = s.nnh := by
  intro l
  induction l with
  | nil => intro s _; exact ⟨rfl, rfl, rfl⟩
  | cons x l ih =>
    intro s h
    obtain ⟨id, p⟩ := x
    obtain ⟨e1, e2, e3⟩ := output_static env id p i s h
    unfold sendHeld
    dsimp only
    generalize ip6Output env id p (some i) s = r at *
    obtain ⟨c, s1⟩ := r
    dsimp only at e1 e2 e3 ⊢
    by_cases hc : c = .drop
    · simp only [hc, if_true]
      obtain ⟨a1, a2, a3⟩ := ih { s1.emit (.free id) with ents := (s1.emit (.free id)).ents + 1 }
        (by show (s1.nh i).mac ≠ noMac; rw [e2]; exact h)
      exact ⟨a1.trans e1, a2.trans e2, a3.trans e3⟩
    · simp only [hc, if_false]
      obtain ⟨a1, a2, a3⟩ := ih { s1 with ents := s1.ents + 1 } (by show (s1.nh i).mac ≠ noMac; rw [e2]; exact h)
      exact ⟨a1.trans e1, a2.trans e2, a3.trans e3⟩

/-- What learning a neighbour does to the next hops, when its host route exists or fits. -/
theorem learn_effect {nodes s T} (env : Env) (hi : Inv nodes s T) (d : Nat) (a : Addr) (ha : a.length = 16) (mac : Mac)
    (hm : mac ≠ noMac) (hf : T (Spec.bits6 a) ≠ none ∨ 128 ≤ s.tab.free) :
    ∃ T' i, Inv nodes (learn env d a mac s) T' ∧ T' (Spec.bits6 a) = some i ∧
      (∀ q, q ≠ Spec.bits6 a → T' q = T q) ∧
      (learn env d a mac s).nh i =
        { (if T (Spec.bits6 a) = none then ⟨any, (env.dev d).port, (env.dev d).vlan, false, mac, []⟩ else s.nh i) with
          mac := mac, hold := [] } ∧
      (T (Spec.bits6 a) ≠ none → T (Spec.bits6 a) = some i) ∧
      (∀ k, k ≠ i → k < s.nnh → (learn env d a mac s).nh k = s.nh k) := by
  have base : ∀ s1 T1, Inv nodes s1 T1 → ∀ i, T1 (Spec.bits6 a) = some i →
      (addMac env a mac s1).tab = s1.tab ∧ (addMac env a mac s1).nnh = s1.nnh ∧
      (addMac env a mac s1).nh i = { s1.nh i with mac := mac, hold := [] } ∧
      (∀ k, k ≠ i → (addMac env a mac s1).nh k = s1.nh k) ∧ Inv nodes (addMac env a mac s1) T1 := by
    intro s1 T1 hi1 i hT
    have hl : look env s1 a = some i := look_eq hi1 ha (host_uses hT)
    unfold addMac
    rw [hl]
    dsimp only
    obtain ⟨e1, e2, e3⟩ := sendHeld_static env i (s1.nh i).hold.reverse
      (s1.setNh i { s1.nh i with mac := mac, hold := [] }) (by rw [setNh_same]; exact hm)
    refine ⟨e1, e3, by rw [e2, setNh_same], fun k hk => by rw [e2, setNh_other _ _ _ _ hk], ?_⟩
    exact (hi1.setLive hT _ (by intro x hx; cases hx)).congr e1 e3 e2
  unfold learn
  rcases addRoute_cases env hi a ha 128 (Nat.le_refl _) any (env.dev d).port (env.dev d).vlan false with
    ⟨h, hn⟩ | ⟨hn, t, h, ht⟩
  · rw [pfx6_full a ha] at hn
    rw [h]
    cases hT : T (Spec.bits6 a) with
    | none =>
      rcases hf with hf | hf
      · exact absurd hT hf
      · have := hn hT; omega
    | some i =>
      obtain ⟨b1, b2, b3, b4, b5⟩ := base s T hi i hT
      refine ⟨T, i, b5, hT, fun _ _ => rfl, ?_, fun _ => rfl, fun k hk _ => b4 k hk⟩
      rw [b3]; simp
  · rw [pfx6_full a ha] at hn ht
    have hi1 : Inv nodes (addRoute env s a 128 any (env.dev d).port (env.dev d).vlan false)
        (T.add (Spec.bits6 a) s.nnh) := by
      rw [h]; exact inv_added hi hn ⟨any, (env.dev d).port, (env.dev d).vlan, false, noMac, []⟩ rfl ht
    obtain ⟨b1, b2, b3, b4, b5⟩ := base _ _ hi1 s.nnh (by simp [Spec.Table.add])
    refine ⟨_, s.nnh, b5, by simp [Spec.Table.add], ?_, ?_, fun hh => absurd hn hh, ?_⟩
    · intro q hq; simp [Spec.Table.add, hq]
    · rw [b3, h]; simp [hn]
    · intro k hk hlt; rw [b4 k hk, h]; simp [hk]

/-- The Ethernet addresses of other destinations do not change. -/
theorem learn_others {nodes s T} (env : Env) (hi : Inv nodes s T) (d : Nat) (a : Addr) (ha : a.length = 16) (mac : Mac)
    (hm : mac ≠ noMac) (hf : T (Spec.bits6 a) ≠ none ∨ 128 ≤ s.tab.free) (b : Addr) (hb : b.length = 16) (hne : b ≠ a) :
    look env (learn env d a mac s) b = look env s b ∧
      ∀ k, look env s b = some k → (learn env d a mac s).nh k = s.nh k := by
  obtain ⟨T', i, h1, h2, h3, h4, h5, h6⟩ := learn_effect env hi d a ha mac hm hf
  have hu := look_spec env hi b hb
  have key : ∀ n, n ≤ (Spec.bits6 b).length → (Spec.bits6 b).take n ≠ Spec.bits6 a := by
    intro n hn e
    have hl := congrArg List.length e
    rw [List.length_take, bits6_length, bits6_length] at hl
    rw [bits6_length] at hn
    have : n = 128 := by omega
    subst this
    rw [List.take_of_length_le (by rw [bits6_length]; omega)] at e
    exact hne (bits6_inj _ _ e)
  refine ⟨?_, ?_⟩
  · apply look_eq h1 hb
    rcases hu with ⟨e, n, x1, x2, x3, x4⟩ | ⟨x3, x4⟩
    · exact Or.inl ⟨e, n, x1, by rw [h3 _ (key n x1)]; exact x2, fun m hm hm' => by rw [h3 _ (key m hm')]; exact x3 m hm hm', x4⟩
    · exact Or.inr ⟨fun m hm => by rw [h3 _ (key m hm)]; exact x3 m hm, x4⟩
  · intro k hk
    rw [hk] at hu
    obtain ⟨n, hn, hT⟩ := uses_mem hu
    apply h6 k _ (hi.ids _ _ hT)
    intro e
    subst e
    have := h1.inj _ _ _ h2 (by rw [h3 _ (key n hn)]; exact hT)
    exact key n hn this.symm

/-- **C157 (partial: destinations on the link; a host route for the neighbour exists or there are 128 free tree nodes).**
After a neighbour advertisement for `a` with a target link-layer address was received from the Ethernet address `mac`
(not all zero), a packet for `a` is sent unchanged to `mac`, on the interface of the host route; when the neighbour is
new, this is the interface on which the advertisement arrived.  Packets for other addresses are routed and addressed as
before. -/
theorem ip6_neighbour_used_partial {nodes s T} (env : Env) (hi : Inv nodes s T) (d : Nat) (smac : Mac) (na p : Pkt)
    (ha : 24 ≤ na.body.length) (ho : optType env na = 2) (hm : smac ≠ noMac)
    (hf : T (Spec.bits6 (target na)) ≠ none ∨ 128 ≤ s.tab.free)
    (hp : p.dst = target na) (id : Nat) :
    (∀ dOut, (env.dev dOut).kind = .ether → Sendable env dOut id p →
      ((T (Spec.bits6 (target na)) = none ∧ dOut = d ∧ env.ifnet (env.dev d).port (env.dev d).vlan = some d) ∨
       (∃ i, T (Spec.bits6 (target na)) = some i ∧ env.ifnet (s.nh i).port (s.nh i).vlan = some dOut)) →
      ip6Output env id p none (naInput env d smac na s) =
        (.processed, (naInput env d smac na s).emit (.tx id dOut smac p))) ∧
    (∀ b : Addr, b.length = 16 → b ≠ target na →
      look env (naInput env d smac na s) b = look env s b ∧
        ∀ k, look env s b = some k → (naInput env d smac na s).nh k = s.nh k) := by
  have hl := target_length na ha
  unfold naInput
  rw [if_pos ho]
  refine ⟨?_, fun b hb hne => learn_others env hi d _ hl smac hm hf b hb hne⟩
  intro dOut hk hs hdo
  obtain ⟨T', i, h1, h2, h3, h4, h5, h6⟩ := learn_effect env hi d _ hl smac hm hf
  have hlook : look env (learn env d (target na) smac s) p.dst = some i := by
    rw [hp]; exact look_eq h1 hl (host_uses h2)
  apply output_known env (i := i) id p none hlook _ hk _ hm hs
  · rcases hdo with ⟨hn, rfl, he⟩ | ⟨k, hk', he⟩
    · rw [h4, if_pos hn]; exact he
    · have := h5 (by rw [hk']; intro h; cases h)
      rw [hk'] at this; cases this
      rw [h4, if_neg (by rw [hk']; intro h; cases h)]; exact he
  · rw [h4]

/-- A correct solicitation for `t` (RFC 4861, section 4.3). -/
def IsSolicitation (q : Pkt) (src dst t : Addr) (mac : Mac) : Prop :=
  q.src = src ∧ q.dst = dst ∧ q.nxt = 58 ∧ q.hlim = 255 ∧ q.plen = 32 ∧
  (∃ c0 c1, q.body = [135, 0, c0, c1, 0, 0, 0, 0] ++ t ++ [1, 1] ++ mac) ∧ transport6 src dst 58 q.body = 0

/-- **C157 (partial: destinations on the link; a free record for waiting packets).** When
the Ethernet address of the next hop is not known, one correct solicitation for the destination is sent on the
interface of the route, to the solicited-node group of the destination, and the packet waits. -/
theorem ip6_resolution_partial {nodes s T} (env : Env) (hi : Inv nodes s T) (id : Nat) (p : Pkt) (hp : p.dst.length = 16)
    (i d : Nat) (hu : Uses T p.dst (some i)) (hg : (s.nh i).gw = any)
    (hd : env.ifnet (s.nh i).port (s.nh i).vlan = some d) (hk : (env.dev d).kind = .ether) (hs : Sendable env d id p)
    (hm : (s.nh i).mac = noMac) (ha : env.allocOk s.next = true) (he : s.ents ≠ 0)
    (h1 : (env.dev d).addr.length = 16) (h2 : (env.dev d).mac.length = 6) :
    ∃ k q, (ip6Output env id p none s).1 = .processed ∧
      (ip6Output env id p none s).2.evs =
        s.evs ++ [.alloc s.next, .tx s.next d (List.replicate 6 255) q, .wait id k p] ∧
      IsSolicitation q (env.dev d).addr (solicited p.dst) p.dst (env.dev d).mac := by
  obtain ⟨f1, f2, f3, _⟩ := addRoute_frame env hi p.dst hp 128 (Nat.le_refl _) any (env.dev d).port (env.dev d).vlan false
  obtain ⟨k, hl1⟩ : ∃ k, look env (addRoute env s p.dst 128 any (env.dev d).port (env.dev d).vlan false) p.dst = some k := by
    rcases addRoute_cases env hi p.dst hp 128 (Nat.le_refl _) any (env.dev d).port (env.dev d).vlan false with
      ⟨h, _⟩ | ⟨hn, t, h, ht⟩
    · rw [h]; exact ⟨i, look_eq hi hp hu⟩
    · rw [h]
      refine ⟨s.nnh, look_eq (inv_added hi hn ⟨any, (env.dev d).port, (env.dev d).vlan, false, noMac, []⟩ rfl ht) hp
        (host_uses ?_)⟩
      rw [← pfx6_full p.dst hp]; simp [Spec.Table.add]
  have e := output_unresolved env id p s i d k (look_eq hi hp hu) hd hk hs hm ha he _ rfl f1 f2 f3 hl1
  refine ⟨k, nsPkt env d (s.nh i).gw p.dst, by rw [e], by rw [e], ?_⟩
  have hd' : nsDst (s.nh i).gw p.dst = solicited p.dst := by unfold nsDst; rw [if_pos hg]
  have hsl : (solicited p.dst).length = 16 := by unfold solicited; simp; omega
  obtain ⟨c1, c2, c3, c4⟩ := nd_checksum_valid env (env.dev d).addr _ h1 hsl 135 p.dst hp 1 (env.dev d).mac h2
  unfold nsPkt
  rw [hd']
  refine ⟨rfl, rfl, rfl, rfl, rfl, ?_, c1⟩
  exact ⟨u8 _, u8 _, by simp [ndPkt, le16]; constructor <;> rfl⟩

example : ∃ T, Inv 300 (run env0 (init 300) [.addRoute (addrOf 0 0) 64 any 0 0 false]) T ∧
    128 ≤ (run env0 (init 300) [.addRoute (addrOf 0 0) 64 any 0 0 false]).tab.free := by
  obtain ⟨T, h⟩ := reach_inv (nodes := 300) (by decide) env0 [.addRoute (addrOf 0 0) 64 any 0 0 false]
    (by intro op h; simp only [List.mem_singleton] at h; subst h; exact ⟨by decide, by decide⟩)
  exact ⟨T, h, by decide +kernel⟩

/-- **C157 refuted: no room for host routes.** With 65 tree nodes there is room for the route 2001:db8::/64 but not for host
routes.  The advertisement of 2001:db8::5 makes packets for 2001:db8::6, of which nothing was ever heard, go to the
Ethernet address of 2001:db8::5. -/
theorem ip6_neighbour_shared_violated : ∃ (env : Env) (ops : List Op), (∀ op ∈ ops, op.wf) ∧
    (∀ op ∈ ops, ∀ f, op = .rx f → f = frameOf 0 (macOf 5) (naOf (addrOf 0 5) (addrOf 0 1) 255 (addrOf 0 5) (macOf 5))) ∧
    (run env (init 65) ops).evs.getLast? = some (.tx 3 0 (macOf 5) (pktTo (addrOf 0 6))) := by
  let na := frameOf 0 (macOf 5) (naOf (addrOf 0 5) (addrOf 0 1) 255 (addrOf 0 5) (macOf 5))
  let s2 := run env0 (init 65) [.addRoute (addrOf 0 0) 64 any 0 0 false, .send (pktTo (addrOf 0 5))]
  refine ⟨env0, [.addRoute (addrOf 0 0) 64 any 0 0 false, .send (pktTo (addrOf 0 5)), .rx na, .send (pktTo (addrOf 0 6))],
    ?_, ?_, ?_⟩
  · intro op h
    simp only [List.mem_cons, List.not_mem_nil, or_false] at h
    rcases h with rfl | rfl | rfl | rfl
    · exact ⟨by decide, by decide⟩
    · show (addrOf 0 5).length = 16; decide
    · trivial
    · show (addrOf 0 6).length = 16; decide
  · intro op h f hf
    simp only [List.mem_cons, List.not_mem_nil, or_false] at h
    subst hf
    rcases h with h | h | h | h
    · cases h
    · cases h
    · cases h; rfl
    · cases h
  · have hr : rx env0 na s2 = _ :=
      rx_icmp env0 0 (macOf 5) (naOf (addrOf 0 5) (addrOf 0 1) 255 (addrOf 0 5) (macOf 5)) s2
        (by decide +kernel) (by decide +kernel) (by decide +kernel) (by decide +kernel) (by decide +kernel)
        (by decide +kernel) (by decide +kernel) (by decide +kernel) (by decide +kernel)
    rw [run4, show run env0 (init 65) [.addRoute (addrOf 0 0) 64 any 0 0 false, .send (pktTo (addrOf 0 5))] = s2 from rfl, hr]
    decide +kernel

/-- The route 2001:db8:7::/64 through the gateway 2001:db8::2, which then advertises its Ethernet address. -/
def gwOps : List Op := [.addRoute (addrOf 7 0) 64 (addrOf 0 2) 0 0 false,
  .rx (frameOf 0 (macOf 2) (naOf (addrOf 0 2) (addrOf 0 1) 255 (addrOf 0 2) (macOf 2)))]

/-- **C157 refuted: gateways.** 2001:db8:7::/64 is reached through the gateway 2001:db8::2, which has just advertised its
Ethernet address.  A packet for 2001:db8:7::9 is not sent to the gateway: it waits, and a solicitation for
2001:db8:7::9 itself (not for the gateway) is sent. -/
theorem ip6_gateway_violated : ∃ (env : Env) (ops : List Op), (∀ op ∈ ops, op.wf) ∧
    (∃ T i, Inv 400 (run env (init 400) ops) T ∧ Uses T (addrOf 0 2) (some i) ∧
      ((run env (init 400) ops).nh i).mac = macOf 2) ∧
    ∃ T i, Inv 400 (run env (init 400) ops) T ∧ Uses T (addrOf 7 9) (some i) ∧ ((run env (init 400) ops).nh i).gw = addrOf 0 2 ∧
      ∃ q, (send env (pktTo (addrOf 7 9)) (run env (init 400) ops)).evs =
        (run env (init 400) ops).evs ++ [.alloc 1, .alloc 2, .tx 2 0 (List.replicate 6 255) q, .wait 1 2 (pktTo (addrOf 7 9))] ∧
        q.dst = addrOf 0 2 ∧ target q = addrOf 7 9 := by
  have hw : ∀ op ∈ gwOps, op.wf := by
    intro op h
    simp only [gwOps, List.mem_cons, List.not_mem_nil, or_false] at h
    rcases h with rfl | rfl
    · exact ⟨by decide, by decide⟩
    · trivial
  obtain ⟨T, hi⟩ := reach_inv (nodes := 400) (by decide) env0 gwOps hw
  have hr := rx_icmp env0 0 (macOf 2) (naOf (addrOf 0 2) (addrOf 0 1) 255 (addrOf 0 2) (macOf 2))
    (run env0 (init 400) [.addRoute (addrOf 7 0) 64 (addrOf 0 2) 0 0 false])
        (by decide +kernel) (by decide +kernel) (by decide +kernel) (by decide +kernel) (by decide +kernel)
        (by decide +kernel) (by decide +kernel) (by decide +kernel) (by decide +kernel)
  rw [← run2] at hr
  refine ⟨env0, gwOps, hw, ?_⟩
  unfold gwOps at hi ⊢
  have l1 := congrArg (fun s => look env0 s (addrOf 0 2)) hr
  have l2 := congrArg (fun s => look env0 s (addrOf 7 9)) hr
  have m1 := congrArg (fun s => (s.nh 1).mac) hr
  have m0 := congrArg (fun s => (s.nh 0).mac) hr
  have g0 := congrArg (fun s => ((s.nh 0).gw, (s.nh 0).port, (s.nh 0).vlan)) hr
  have n1 := congrArg (fun s => (s.next, s.ents)) hr
  have k1 := congrArg (fun s => look env0 (addRoute env0 s.alloc (addrOf 7 9) 128 any 0 0 false) (addrOf 7 9)) hr
  replace l1 := l1.trans (by decide +kernel : _ = some 1)
  replace l2 := l2.trans (by decide +kernel : _ = some 0)
  replace m1 := m1.trans (by decide +kernel : _ = macOf 2)
  replace m0 := m0.trans (by decide +kernel : _ = noMac)
  replace g0 := g0.trans (by decide +kernel : _ = (addrOf 0 2, 0, 0))
  replace n1 := n1.trans (by decide +kernel : _ = (1, 2048))
  replace k1 := k1.trans (by decide +kernel : _ = some 2)
  clear hr
  generalize run env0 (init 400) [.addRoute (addrOf 7 0) 64 (addrOf 0 2) 0 0 false,
    .rx (frameOf 0 (macOf 2) (naOf (addrOf 0 2) (addrOf 0 1) 255 (addrOf 0 2) (macOf 2)))] = s at *
  simp only [Prod.mk.injEq] at g0 n1
  obtain ⟨g0, g1, g2⟩ := g0
  obtain ⟨n1, n2⟩ := n1
  have u1 := look_spec env0 hi (addrOf 0 2) (by decide)
  have u2 := look_spec env0 hi (addrOf 7 9) (by decide)
  rw [l1] at u1; rw [l2] at u2
  obtain ⟨f1, f2, f3, _⟩ := addRoute_frame env0 hi.alloc (addrOf 7 9) (by decide) 128 (Nat.le_refl _) any 0 0 false
  refine ⟨⟨T, 1, hi, u1, m1⟩, T, 0, hi, u2, g0, nsPkt env0 0 (addrOf 0 2) (addrOf 7 9), ?_, by decide +kernel,
    by decide +kernel⟩
  have e := output_unresolved env0 1 (pktTo (addrOf 7 9)) s.alloc 0 0 2 l2
    (by show env0.ifnet (s.nh 0).port (s.nh 0).vlan = some 0; rw [g1, g2]; decide) rfl ⟨rfl, rfl, by decide⟩ m0 rfl
    (by show s.ents ≠ 0; rw [n2]; decide) _ rfl f1 f2 f3 k1
  unfold send
  dsimp only
  rw [n1, e]
  simp only [reduceCtorEq, if_false]
  simp [n1, g0]
  rfl

end Verif.Ip6

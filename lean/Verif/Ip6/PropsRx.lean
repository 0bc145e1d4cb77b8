import Verif.Ip6.Tidy
import Verif.Ip6.PropsNd
/-! # Answers, local delivery, forwarding, errors, exhaustion -/
namespace Verif.Ip6
open Verif Radix

/-! ## C159 -/

/-- A correct answer to a solicitation for `t` by an interface with address `src` and Ethernet address `mac`: a neighbour
advertisement to `dst` with hop limit 255, the target, its link-layer address and a valid checksum; `flags` is its
flag byte. -/
def IsAnswer (q : Pkt) (src dst t : Addr) (mac : Mac) (flags : UInt8) : Prop :=
  q.src = src ∧ q.dst = dst ∧ q.nxt = 58 ∧ q.hlim = 255 ∧ q.plen = 32 ∧
  (∃ c0 c1, q.body = [136, 0, c0, c1, flags, 0, 0, 0] ++ t ++ [2, 1] ++ mac) ∧ transport6 src dst 58 q.body = 0

theorem naPkt_answer (env : Env) (d : Nat) (dst t : Addr) (h1 : (env.dev d).addr.length = 16) (h2 : dst.length = 16)
    (h3 : t.length = 16) (h4 : (env.dev d).mac.length = 6) :
    IsAnswer (naPkt env d dst t) (env.dev d).addr (if dst = any then allNodes else dst) t (env.dev d).mac 0 := by
  have hd : (if dst = any then allNodes else dst).length = 16 := by split; rfl; exact h2
  obtain ⟨c1, c2, c3, c4⟩ := nd_checksum_valid env (env.dev d).addr _ h1 hd 136 t h3 2 (env.dev d).mac h4
  refine ⟨rfl, rfl, rfl, rfl, rfl, ?_, c1⟩
  exact ⟨u8 _, u8 _, by simp [naPkt, ndPkt, le16]; constructor <;> rfl⟩

/-- **C159 (partial: builds without slow path; solicitations of at least 32 bytes, i.e. with a complete first option).** A
valid neighbour solicitation for this host is answered by exactly one neighbour advertisement: from the address of the
interface, to the sender (to ff02::1 for an unspecified sender), for the target, with the interface's Ethernet
address, sent to the link-layer address in the option; then the solicitation is freed.  (The flags are 0.) -/
theorem ip6_ns_answered_partial (env : Env) (d : Nat) (smac : Mac) (p : Pkt) (s : St) (h : p.wf) (h1 : p.plen < 65536)
    (h3 : p.hlim < 256) (ho : isOurs env d p s.alloc = true) (hk : env.hookLocal p = .cont ∧ env.hookLocal6 p = .cont)
    (hn : p.nxt = 58) (hl : 32 ≤ p.body.length) (hb : p.body.length ≤ 65535)
    (hc : transport6 (clearScope p.src) (clearScope p.dst) 58 p.body = 0)
    (ht : (p.body.getD 0 0).toNat = 135) (hcode : (p.body.getD 1 0).toNat = 0) (hsp : env.sp = false)
    (ha : ∀ i, env.allocOk i = true) (hda : (env.dev d).addr.length = 16) (hdm : (env.dev d).mac.length = 6) :
    ∃ q n s1, s1 = nsInput env d smac p s.alloc ∧ n = s1.next ∧
      (rx env (frameOf d smac p) s).evs = s1.evs ++ [.alloc n, .tx n d ((p.body.drop 26).take 6) q, .free s.next] ∧
      IsAnswer q (env.dev d).addr (if p.src = any then allNodes else p.src) (target p) (env.dev d).mac 0 := by
  refine ⟨naPkt env d p.src (target p), _, _, rfl, rfl, ?_, naPkt_answer env d p.src (target p) hda h.2.1
    (target_length p (by omega)) hdm⟩
  rw [rx_icmp env d smac p s h h1 h3 ho hk hn (by omega) hb hc, ht, hcode]
  have t1 : ∀ x : St, touch s.next p 25 x = x := fun x => by unfold touch; rw [if_neg (by omega)]
  have t2 : ∀ x : St, touch s.next p 32 x = x := fun x => by unfold touch; rw [if_neg (by omega)]
  have hm : optMac env p = (p.body.drop 26).take 6 := by
    unfold optMac mem; exact drop_take_left _ _ _ _ (by omega)
  have : icmpType env s.next d smac p 135 0 s.alloc = (.processed,
      (naOutput env d p.src (target p) (optMac env p) (nsInput env d smac p s.alloc)).emit (.free s.next)) := by
    unfold icmpType
    simp only [show ¬ (135 = 1 ∨ 135 = 2 ∨ 135 = 3 ∨ 135 = 4) by omega, show ¬ (135 = 128) by omega,
      show ¬ (135 = 129) by omega, if_false, if_true, hsp, Bool.false_eq_true, t1, t2]
    rw [if_neg (by omega), if_neg (by omega)]
  rw [this]
  unfold naOutput
  simp only [ha, Bool.true_eq_false, if_false, hm]
  simp [afterIcmp, finish]

/-- The solicitation of 2001:db8::2 for 2001:db8:0::1 (interface 0). -/
def nsGood : Pkt := nsOf (addrOf 0 2) (solicited (addrOf 0 1)) 255 (addrOf 0 1) (macOf 2)

example : nsGood.wf ∧ nsGood.plen < 65536 ∧ nsGood.hlim < 256 ∧ isOurs env0 0 nsGood (init 300).alloc = true ∧
    nsGood.nxt = 58 ∧ 32 ≤ nsGood.body.length ∧ transport6 (clearScope nsGood.src) (clearScope nsGood.dst) 58 nsGood.body = 0 ∧
    (nsGood.body.getD 0 0).toNat = 135 ∧ (nsGood.body.getD 1 0).toNat = 0 := by decide +kernel

/-- **C159 refuted: foreign targets.** A solicitation for 2001:db8:5::5, which is no address of this host, is answered with
this host's Ethernet address. -/
theorem ip6_ns_foreign_violated : ∃ (env : Env) (p : Pkt), (∀ d, (env.dev d).addr ≠ target p ∧ (env.dev d).ll ≠ target p) ∧
    ∃ i n mac q, Ev.tx i n mac q ∈ (rx env (frameOf 0 (macOf 2) p) (init 300)).evs ∧
      IsAnswer q (env.dev 0).addr p.src (target p) (env.dev 0).mac 0 := by
  obtain ⟨q, n, s1, e1, e2, e3, e4⟩ := ip6_ns_answered_partial env0 0 (macOf 2)
    (nsOf (addrOf 0 2) (addrOf 0 1) 255 (addrOf 5 5) (macOf 2)) (init 300) (by decide +kernel) (by decide +kernel)
    (by decide +kernel) (by decide +kernel) (by decide +kernel) (by decide +kernel) (by decide +kernel) (by decide +kernel)
    (by decide +kernel) (by decide +kernel) (by decide +kernel) rfl (fun _ => rfl) (by decide +kernel) (by decide +kernel)
  have ht : target (nsOf (addrOf 0 2) (addrOf 0 1) 255 (addrOf 5 5) (macOf 2)) = addrOf 5 5 := by decide +kernel
  refine ⟨env0, nsOf (addrOf 0 2) (addrOf 0 1) 255 (addrOf 5 5) (macOf 2), ?_, n, 0,
    ((nsOf (addrOf 0 2) (addrOf 0 1) 255 (addrOf 5 5) (macOf 2)).body.drop 26).take 6, q, ?_, e4⟩
  · intro d
    rw [ht]
    constructor
    · intro h
      have := congrArg (fun l => l.getLast?) h
      simp [env0, addrOf] at this
    · intro h
      have := congrArg (fun l => l.head?) h
      simp [env0, addrOf] at this
  · rw [e3]; simp

/-- **C159 refuted: duplicate address detection.** The solicitation of a host that checks whether 2001:db8::1 is in use
(RFC 4862: unspecified source, no option) is not answered, although the address belongs to the interface. -/
theorem ip6_dad_violated : ∃ (env : Env) (p : Pkt), p.src = any ∧ target p = (env.dev 0).addr ∧ p.hlim = 255 ∧
    p.dst = solicited (env.dev 0).addr ∧ transport6 p.src p.dst 58 p.body = 0 ∧
    (rx env (frameOf 0 (macOf 2) p) (init 1)).evs = [.alloc 0, .outside 0, .free 0] := by
  have hr := rx_icmp env0 0 (macOf 2) (icmp6 any (solicited (addrOf 0 1)) 255 ([135, 0, 0, 0, 0, 0, 0, 0] ++ addrOf 0 1)) (init 1)
      (by decide +kernel) (by decide +kernel) (by decide +kernel) (by decide +kernel) (by decide +kernel)
      (by decide +kernel) (by decide +kernel) (by decide +kernel) (by decide +kernel)
  refine ⟨env0, icmp6 any (solicited (addrOf 0 1)) 255 ([135, 0, 0, 0, 0, 0, 0, 0] ++ addrOf 0 1), by decide +kernel,
    by decide +kernel, by decide +kernel, by decide +kernel, by decide +kernel, ?_⟩
  rw [hr]; decide +kernel

/-! ## C160 -/

/-- The unicast and multicast addresses that belong to interface `d` (RFC 4291, section 2.8): its addresses, their
solicited-node groups, all nodes; and addresses with a LOCAL route. -/
def Belongs (env : Env) (d : Nat) (s : St) (T : Spec.Table Nat) (a : Addr) : Prop :=
  a = (env.dev d).addr ∨ a = (env.dev d).ll ∨ a = solicited (env.dev d).addr ∨ a = solicited (env.dev d).ll ∨
  a = allNodes ∨ ∃ i, Uses T a (some i) ∧ (s.nh i).isLocal = true

theorem localRoute_iff {nodes s T} (env : Env) (hi : Inv nodes s T) (a : Addr) (ha : a.length = 16) :
    localRoute env s a = true ↔ ∃ i, Uses T a (some i) ∧ (s.nh i).isLocal = true := by
  have hu := look_spec env hi a ha
  unfold localRoute
  cases h : look env s a with
  | none =>
    rw [h] at hu
    simp only [Bool.false_eq_true, false_iff, not_exists, not_and]
    intro i hi'; cases uses_unique hu hi'
  | some k =>
    rw [h] at hu
    constructor
    · intro hl; exact ⟨k, hu, hl⟩
    · rintro ⟨i, h1, h2⟩; cases uses_unique hu h1; exact h2

theorem isSolicited_iff (m t : Addr) (hm : m.length = 16) : isSolicited m t = true ↔ m = solicited t := by
  unfold isSolicited solicited
  simp only [Bool.and_eq_true, beq_iff_eq]
  constructor
  · rintro ⟨h1, h2⟩; rw [← List.take_append_drop 13 m, h1, h2]
  · intro h
    rw [h]
    exact ⟨rfl, rfl⟩

/-- **C160 (partial: not for ff02::1, the solicited-node group of the link-local address, and addresses whose last 8 bytes
are those of the link-local address).** A packet is processed for local delivery exactly when its destination belongs
to the receiving interface or has a LOCAL route; otherwise it is offered to forwarding. -/
theorem ip6_local_delivery_partial {nodes s T} (env : Env) (hi : Inv nodes s T) (d : Nat) (p : Pkt)
    (hd : p.dst.length = 16) (h1 : p.dst ≠ allNodes) (h2 : p.dst ≠ solicited (env.dev d).ll)
    (h3 : p.dst.drop 8 = (env.dev d).ll.drop 8 → p.dst = (env.dev d).ll) :
    isOurs env d p s = true ↔ Belongs env d s T p.dst := by
  unfold isOurs Belongs
  simp only [Bool.or_eq_true, decide_eq_true_eq]
  rw [isSolicited_iff _ _ hd, localRoute_iff env hi _ hd]
  constructor
  · rintro (((h | h) | h) | h)
    · exact Or.inl h.symm
    · exact Or.inr (Or.inr (Or.inl h))
    · exact Or.inr (Or.inl (h3 h.symm))
    · exact Or.inr (Or.inr (Or.inr (Or.inr (Or.inr h))))
  · rintro (h | h | h | h | h | h)
    · exact Or.inl (Or.inl (Or.inl h.symm))
    · exact Or.inl (Or.inr (by rw [h]))
    · exact Or.inl (Or.inl (Or.inr h))
    · exact absurd h h2
    · exact absurd h h1
    · exact Or.inr h

example : ∃ T, Inv 300 (init 300) T ∧ (addrOf 7 9) ≠ allNodes ∧ (addrOf 7 9) ≠ solicited (env0.dev 0).ll ∧
    ((addrOf 7 9).drop 8 = (env0.dev 0).ll.drop 8 → addrOf 7 9 = (env0.dev 0).ll) :=
  ⟨_, init_inv (by decide), by decide, by decide, by decide⟩

/-- **C160 refuted: foreign addresses.** A UDP packet for 2001:db8:9::ff:fe00:0, routed over interface 1, is taken by the
UDP input of this host: only the last 8 bytes are compared with the link-local address. -/
theorem ip6_local_foreign_violated : ∃ (env : Env) (r : Op) (p : Pkt), r.wf ∧ p.wf ∧
    (∀ d, (env.dev d).addr ≠ p.dst ∧ (env.dev d).ll ≠ p.dst) ∧
    (run env (init 300) [r, .rx (frameOf 0 (macOf 2) p)]).evs = [.alloc 0, .taken 0 p] := by
  refine ⟨{ env0 with udp := fun _ => .taken }, .addRoute (addrOf 9 0) 64 any 1 0 false,
    pktTo ([32, 1, 13, 184, 0, 9, 0, 0] ++ [0, 0, 0, 255, 254, 0, 0, 0]), ⟨by decide, by decide⟩, by decide, ?_, by decide +kernel⟩
  intro d
  constructor
  · intro h
    have := congrArg (fun l => l.getD 11 0) h
    simp [env0, addrOf, pktTo] at this
  · intro h
    have := congrArg (fun l => l.head?) h
    simp [env0, pktTo] at this

/-- **C160 refuted: all nodes.** A UDP packet for ff02::1, which every node belongs to, is not delivered but forwarded over
the default route. -/
theorem ip6_all_nodes_violated : ∃ (env : Env) (r : Op) (p : Pkt), r.wf ∧ p.wf ∧ p.dst = allNodes ∧
    (run env (init 300) [r, .rx (frameOf 0 (macOf 2) p)]).evs.getLast? = some (.wait 0 1 p) :=
  ⟨{ env0 with udp := fun _ => .taken }, .addRoute any 0 (addrOf 1 2) 1 0 false, pktTo allNodes, ⟨by decide, by decide⟩,
    by decide, rfl, by decide +kernel⟩

/-! ## C161 -/

/-- **C161 (partial).** A packet that is not for this host is sent, byte for byte as it was received, on the interface and
to the Ethernet address of the longest matching route, when that is known; without a route it is not sent. -/
theorem ip6_forward_partial {nodes s T} (env : Env) (hi : Inv nodes s T) (d : Nat) (smac : Mac) (p : Pkt) (h : p.wf)
    (h1 : p.plen < 65536) (h2 : p.nxt < 256) (h3 : p.hlim < 256) (ho : isOurs env d p s.alloc = false)
    (hk : env.hookFwd p = .cont) :
    (∀ i dOut, Uses T p.dst (some i) → env.ifnet (s.nh i).port (s.nh i).vlan = some dOut → (env.dev dOut).kind = .ether →
      (s.nh i).mac ≠ noMac → Sendable env dOut s.next p →
      (rx env (frameOf d smac p) s).evs = s.evs ++ [.alloc s.next, .tx s.next dOut (s.nh i).mac p]) ∧
    (Uses T p.dst none → env.sp = false →
      (rx env (frameOf d smac p) s).evs = s.evs ++ [.alloc s.next, .free s.next]) := by
  rw [rx_process env d smac p s h h1 h2 h3]
  unfold process
  rw [ho]
  simp only [Bool.false_eq_true, if_false, hk]
  constructor
  · intro i dOut hu hd hkd hm hs
    have hl : look env s.alloc p.dst = some i := look_eq hi.alloc h.2.2 hu
    rw [hl]
    dsimp only
    rw [output_known (s := s.alloc) env s.next p (some i) rfl hd hkd rfl hm hs]
    simp [finish]
  · intro hu hsp
    have hl : look env s.alloc p.dst = none := look_eq hi.alloc h.2.2 hu
    rw [hl]
    simp [finish, hsp]

/-- A route through interface 1 whose Ethernet address is known after an advertisement. -/
def fwdOps : List Op := [.addRoute (addrOf 7 0) 64 any 1 0 false,
  .rx (frameOf 1 (macOf 9) (naOf (addrOf 7 9) (addrOf 1 1) 255 (addrOf 7 9) (macOf 9)))]

/-- **C161 refuted: hop limit.** A packet with hop limit 1 is forwarded, with hop limit 1. -/
theorem ip6_hop_limit_violated : ∃ (env : Env) (ops : List Op) (p : Pkt), (∀ op ∈ ops, op.wf) ∧ p.hlim = 1 ∧
    (rx env (frameOf 0 (macOf 2) p) (run env (init 300) ops)).evs.getLast? = some (.tx 1 1 (macOf 9) p) := by
  have hr := rx_icmp env0 1 (macOf 9) (naOf (addrOf 7 9) (addrOf 1 1) 255 (addrOf 7 9) (macOf 9))
    (run env0 (init 300) [.addRoute (addrOf 7 0) 64 any 1 0 false])
      (by decide +kernel) (by decide +kernel) (by decide +kernel) (by decide +kernel) (by decide +kernel)
      (by decide +kernel) (by decide +kernel) (by decide +kernel) (by decide +kernel)
  refine ⟨env0, fwdOps, { pktTo (addrOf 7 9) with hlim := 1 }, ?_, rfl, ?_⟩
  · intro op h
    simp only [fwdOps, List.mem_cons, List.not_mem_nil, or_false] at h
    rcases h with rfl | rfl
    · exact ⟨by decide, by decide⟩
    · trivial
  · unfold fwdOps
    rw [run2, hr]
    decide +kernel

/-! ## C163 -/

theorem reflect_known {nodes s T} (env : Env) (hi : Inv nodes s T) (id : Nat) (p : Pkt) (hs : p.src.length = 16) (i d : Nat)
    (hm : isMulticast p.dst = false) (hu : Uses T p.src (some i))
    (hd : env.ifnet (s.nh i).port (s.nh i).vlan = some d) :
    reflect env id p s = (ip6Output env id (reply env p (env.dev d).addr) (some i) s).2 := by
  have hl : look env s p.src = some i := look_eq hi hs hu
  unfold reflect
  simp only [hm, Bool.false_eq_true, if_false, hl, hd]

/-- **C163 (partial: unicast requests of up to 65535 bytes; addresses without embedded scope; the source of the reply is
the address of the outgoing interface).** An echo request for this host is answered on the route to its sender by an
echo reply with the same identifier, sequence number and data, hop limit 64 and a valid checksum. -/
theorem ip6_echo_partial {nodes s T} (env : Env) (hi : Inv nodes s T) (d : Nat) (smac : Mac) (p : Pkt) (h : p.wf)
    (h1 : p.plen < 65536) (h3 : p.hlim < 256) (ho : isOurs env d p s.alloc = true)
    (hk : env.hookLocal p = .cont ∧ env.hookLocal6 p = .cont) (hn : p.nxt = 58)
    (h8 : 8 ≤ p.body.length) (hb : p.body.length ≤ 65535)
    (hc : transport6 (clearScope p.src) (clearScope p.dst) 58 p.body = 0)
    (ht : (p.body.getD 0 0).toNat = 128) (hcode : (p.body.getD 1 0).toNat = 0)
    (hm : isMulticast p.dst = false) (i dOut : Nat) (hu : Uses T p.src (some i))
    (hd : env.ifnet (s.nh i).port (s.nh i).vlan = some dOut) (hke : (env.dev dOut).kind = .ether)
    (hmac : (s.nh i).mac ≠ noMac) (hA : (env.dev dOut).addr.length = 16)
    (hsc : NoScope (env.dev dOut).addr ∧ NoScope p.src)
    (hs : ∀ q : Pkt, q.dst = p.src → Sendable env dOut s.next q) :
    ∃ q : Pkt, (rx env (frameOf d smac p) s).evs = s.evs ++ [.alloc s.next, .tx s.next dOut (s.nh i).mac q] ∧
      q.src = (env.dev dOut).addr ∧ q.dst = p.src ∧ q.nxt = 58 ∧ q.hlim = 64 ∧ q.plen = p.plen ∧
      q.body.length = p.body.length ∧ q.body[0]? = some 129 ∧ q.body[1]? = some 0 ∧
      (∀ j, 4 ≤ j → q.body[j]? = p.body[j]?) ∧ transport6 q.src q.dst 58 q.body = 0 := by
  refine ⟨reply env { p with body := (p.body.set 0 129).set 1 0 } (env.dev dOut).addr, ?_, ?_⟩
  · rw [rx_icmp env d smac p s h h1 h3 ho hk hn h8 hb hc, ht, hcode]
    have : icmpType env s.next d smac p 128 0 s.alloc = (.processed,
        reflect env s.next { p with body := (p.body.set 0 129).set 1 0 } s.alloc) := by
      unfold icmpType
      simp only [show ¬ (128 = 1 ∨ 128 = 2 ∨ 128 = 3 ∨ 128 = 4) by omega, if_false, if_true]
      simp
    rw [this, reflect_known env hi.alloc s.next { p with body := (p.body.set 0 129).set 1 0 } h.2.1 i dOut hm hu hd]
    rw [output_known (s := s.alloc) env s.next
      (reply env { p with body := (p.body.set 0 129).set 1 0 } (env.dev dOut).addr) (some i) rfl hd hke rfl hmac
      (hs _ (reply_dst _ _ _))]
    simp [afterIcmp, finish]
  · unfold reply
    obtain ⟨c1, c2, c3⟩ := icmp_checksum_valid env
      { vtf := [96, 0, 0, 0], plen := p.plen, nxt := 58, hlim := 64, src := (env.dev dOut).addr, dst := p.src,
        body := (p.body.set 0 129).set 1 0 } ⟨rfl, hA, h.2.1⟩ (by simpa using hb) (by simp; omega) hsc.1 hsc.2
    have fp : ∀ x : Pkt, (fillIcmp env x).nxt = x.nxt ∧ (fillIcmp env x).hlim = x.hlim ∧ (fillIcmp env x).plen = x.plen := by
      intro x; unfold fillIcmp; dsimp only; split <;> exact ⟨rfl, rfl, rfl⟩
    obtain ⟨f1, f2, f3⟩ := fp ⟨[96, 0, 0, 0], p.plen, 58, 64, (env.dev dOut).addr, p.src, (p.body.set 0 129).set 1 0⟩
    refine ⟨fillIcmp_src .., fillIcmp_dst .., f1, f2, f3, ?_, ?_, ?_, ?_, c1⟩
    · rw [c2]; simp
    · rw [c3 0 (by omega) (by omega)]
      have : 0 < p.body.length := by omega
      simp [this]
    · rw [c3 1 (by omega) (by omega)]
      have : 1 < p.body.length := by omega
      simp [this]
    · intro j hj
      rw [c3 j (by omega) (by omega)]
      simp only [List.getElem?_set]
      rw [if_neg (by omega), if_neg (by omega)]

/-- An echo request of 2001:db8::2 to 2001:db8:1::1, the address of interface 1, received on interface 0. -/
def ping1 : Pkt := icmp6 (addrOf 0 2) (addrOf 1 1) 64 [128, 0, 0, 0, 0, 7, 0, 1, 104, 105]

/-- The LOCAL route for 2001:db8:1::1, and 2001:db8::2 has advertised its Ethernet address. -/
def pingOps : List Op := [.addRoute (addrOf 1 1) 128 any 1 0 true,
  .rx (frameOf 0 (macOf 2) (naOf (addrOf 0 2) (addrOf 0 1) 255 (addrOf 0 2) (macOf 2)))]

/-- **C163 refuted.** The reply to an echo request for 2001:db8:1::1 comes from 2001:db8::1, the address of the outgoing
interface (RFC 4443, section 4.2: it must be the address the request was sent to).  All hypotheses of the partial
theorem hold here. -/
theorem ip6_echo_source_violated : ∃ (env : Env) (ops : List Op) (p : Pkt), (∀ op ∈ ops, op.wf) ∧ isMulticast p.dst = false ∧
    p.dst = (env.dev 1).addr ∧
    ∃ q i, (rx env (frameOf 0 (macOf 2) p) (run env (init 400) ops)).evs.getLast? = some (.tx i 0 (macOf 2) q) ∧
      q.body[0]? = some 129 ∧ q.dst = p.src ∧ q.src ≠ p.dst := by
  have hw : ∀ op ∈ pingOps, op.wf := by
    intro op h
    simp only [pingOps, List.mem_cons, List.not_mem_nil, or_false] at h
    rcases h with rfl | rfl
    · exact ⟨by decide, by decide⟩
    · trivial
  obtain ⟨T, hi⟩ := reach_inv (nodes := 400) (by decide) env0 pingOps hw
  have hr := rx_icmp env0 0 (macOf 2) (naOf (addrOf 0 2) (addrOf 0 1) 255 (addrOf 0 2) (macOf 2))
    (run env0 (init 400) [.addRoute (addrOf 1 1) 128 any 1 0 true])
      (by decide +kernel) (by decide +kernel) (by decide +kernel) (by decide +kernel) (by decide +kernel)
      (by decide +kernel) (by decide +kernel) (by decide +kernel) (by decide +kernel)
  rw [← run2] at hr
  refine ⟨env0, pingOps, ping1, hw, by decide +kernel, by decide +kernel, ?_⟩
  unfold pingOps at hi ⊢
  have l1 := (congrArg (fun s => look env0 s (addrOf 0 2)) hr).trans (by decide +kernel : _ = some 1)
  have m1 := (congrArg (fun s => ((s.nh 1).mac, (s.nh 1).port, (s.nh 1).vlan)) hr).trans
    (by decide +kernel : _ = (macOf 2, 0, 0))
  have o1 := (congrArg (fun s => isOurs env0 0 ping1 s.alloc) hr).trans (by decide +kernel : _ = true)
  clear hr
  generalize run env0 (init 400) [.addRoute (addrOf 1 1) 128 any 1 0 true,
    .rx (frameOf 0 (macOf 2) (naOf (addrOf 0 2) (addrOf 0 1) 255 (addrOf 0 2) (macOf 2)))] = s at *
  simp only [Prod.mk.injEq] at m1
  obtain ⟨m1, m2, m3⟩ := m1
  have u1 := look_spec env0 hi (addrOf 0 2) (by decide)
  rw [l1] at u1
  obtain ⟨q, a1, a2, a3, _, _, _, _, a4, _⟩ := ip6_echo_partial env0 hi 0 (macOf 2) ping1 (by decide +kernel) (by decide +kernel)
    (by decide +kernel) o1 ⟨rfl, rfl⟩ (by decide +kernel) (by decide +kernel) (by decide +kernel) (by decide +kernel)
    (by decide +kernel) (by decide +kernel) (by decide +kernel) 1 0 u1 (by rw [m2, m3]; decide) rfl (by rw [m1]; decide)
    (by decide) ⟨by unfold NoScope; decide, by unfold NoScope; decide⟩ (fun q hq => ⟨rfl, rfl, by rw [hq]; decide⟩)
  refine ⟨q, s.next, ?_, a4, a3, by rw [a2]; decide⟩
  rw [a1, m1]; simp

/-! ## C164 -/

/-- **C164 (partial).** No ICMPv6 error answers a packet from an unspecified or multicast source, or (parameter problems
"unrecognized next header" and "port unreachable", the two errors that are sent) one to a multicast destination: the
packet is just freed. -/
theorem ip6_error_suppressed_partial (env : Env) (id : Nat) (p : Pkt) (type code param : Nat) (s : St)
    (ht : (type = 4 ∧ code = 1) ∨ (type = 1 ∧ code = 4))
    (hq : isMulticast p.dst = true ∨ p.src = any ∨ isMulticast p.src = true) :
    icmpError env id p type code param s = s.emit (.free id) := by
  unfold icmpError
  rw [if_pos]
  unfold errQuiet
  rcases hq with h | h | h
  · rcases ht with ⟨rfl, rfl⟩ | ⟨rfl, rfl⟩ <;> simp [h]
  · simp [h]
  · simp [h]

/-- **C164.** Otherwise the error message quotes the packet from its IPv6 header on, as much as fits into 1280 bytes, when
the packet is as long as its header says and its addresses carry no scope. -/
theorem ip6_error_content (env : Env) (p : Pkt) (h : p.wf) (type code param : Nat) (hq : quoteLen p ≤ p.bytes.length)
    (h1 : NoScope p.src) (h2 : NoScope p.dst) :
    (errPkt env p type code param).body = [u8 type, u8 code, 0, 0] ++ be32 param ++ p.bytes.take (quoteLen p) ∧
      (errPkt env p type code param).plen = (errPkt env p type code param).body.length ∧
      40 + (errPkt env p type code param).body.length ≤ 1280 ∧
      (p.plen + 40 ≤ 1232 → quoteLen p = p.plen + 40) ∧ (1232 < p.plen + 40 → quoteLen p = 1232) := by
  have hb : (errPkt env p type code param).body = [u8 type, u8 code, 0, 0] ++ be32 param ++ p.bytes.take (quoteLen p) := by
    unfold errPkt
    rw [clearScope_noScope _ h.2.1 h1, clearScope_noScope _ h.2.2 h2]
    dsimp only
    rw [List.take_append_of_le_length hq]
    rfl
  have hle : quoteLen p ≤ 1232 := by unfold quoteLen; split <;> omega
  have hlen : (errPkt env p type code param).body.length = 8 + quoteLen p := by
    rw [hb]; simp only [List.length_append, List.length_take, List.length_cons, List.length_nil, be32]; omega
  refine ⟨hb, hlen.symm, by omega, ?_, ?_⟩
  · intro hh; unfold quoteLen; rw [if_neg (by omega)]
  · intro hh; unfold quoteLen; rw [if_pos hh]

example : hopPkt.wf ∧ quoteLen hopPkt ≤ hopPkt.bytes.length ∧ NoScope hopPkt.src ∧ NoScope hopPkt.dst := by
  unfold NoScope; decide

/-- An ICMPv6 "port unreachable" behind an empty destination options header. -/
def optErr : Pkt := ⟨[96, 0, 0, 0], 16, 60, 64, addrOf 0 2, addrOf 0 1, [58, 0, 1, 4, 0, 0, 0, 0, 1, 4, 0, 0, 0, 0, 0, 0]⟩

/-- **C164 refuted.** An ICMPv6 error message behind a destination options header is answered with an ICMPv6 error (RFC
4443, section 2.4 (e.1): never).  Its pointer field is 0, not the offset 6 of the unrecognized next header field. -/
theorem ip6_error_about_error_violated : ∃ (env : Env) (r : Op) (p : Pkt), r.wf ∧ p.nxt = 60 ∧ p.body.getD 0 0 = 58 ∧
    p.body.getD 8 0 = 1 ∧
    ∃ i, (run env (init 300) [r, .rx (frameOf 0 (macOf 2) p)]).evs =
      [.alloc 0, .alloc 1, .free 0, .alloc 2, .tx 2 0 (List.replicate 6 255) (nsPkt env 0 any p.src),
       .wait 1 i (reply env (errPkt env p 4 1 0) (env.dev 0).addr), .free 0] := by
  refine ⟨env0, .addRoute (addrOf 0 0) 64 any 0 0 false, optErr, ⟨by decide, by decide⟩, rfl, by decide, by decide, 1, ?_⟩
  have hi := addRoute_inv env0 (init_inv (nodes := 300) (by decide)) (addrOf 0 0) (by decide) 64 (by decide) any 0 0 false
  rw [run2]
  have hs : run env0 (init 300) [.addRoute (addrOf 0 0) 64 any 0 0 false] = addRoute env0 (init 300) (addrOf 0 0) 64 any 0 0 false := rfl
  rw [hs]
  have v1 : (addRoute env0 (init 300) (addrOf 0 0) 64 any 0 0 false).next = 0 := by decide +kernel
  have v2 : (addRoute env0 (init 300) (addrOf 0 0) 64 any 0 0 false).evs = [] := by decide +kernel
  have v3 : (addRoute env0 (init 300) (addrOf 0 0) 64 any 0 0 false).ents = 2048 := by decide +kernel
  have v4 : look env0 (addRoute env0 (init 300) (addrOf 0 0) 64 any 0 0 false) (addrOf 0 2) = some 0 := by decide +kernel
  have v5 : (addRoute env0 (init 300) (addrOf 0 0) 64 any 0 0 false).nh 0 = ⟨any, 0, 0, false, noMac, []⟩ := by decide +kernel
  have v6 : look env0 (addRoute env0 (addRoute env0 (init 300) (addrOf 0 0) 64 any 0 0 false) (addrOf 0 2) 128 any 0 0 false)
    (addrOf 0 2) = some 1 := by decide +kernel
  have v7 : isOurs env0 0 optErr (addRoute env0 (init 300) (addrOf 0 0) 64 any 0 0 false).alloc = true := by decide +kernel
  obtain ⟨T, hi⟩ := hi
  generalize addRoute env0 (init 300) (addrOf 0 0) 64 any 0 0 false = s at *
  rw [ip6_ext_double_free env0 0 (macOf 2) optErr s (by decide) (by decide) (by decide)
    (by unfold isExt; decide) v7 ⟨rfl, rfl⟩, v1]
  have hq : ¬ (optErr.bytes.length < quoteLen optErr) := by decide
  have hqt : errQuiet optErr 4 1 = false := by decide
  unfold icmpError
  rw [hqt]
  simp only [Bool.false_eq_true, if_false, show env0.allocOk s.alloc.next = true from rfl, Bool.true_eq_false, hq]
  have hi2 : Inv 300 (s.alloc.alloc.emit (.free 0)) T := hi.alloc.alloc.emit _
  have hu : Uses T (addrOf 0 2) (some 0) := by
    have := look_spec env0 hi (addrOf 0 2) (by decide); rw [v4] at this; exact this
  rw [reflect_known env0 hi2 _ _ (by decide) 0 0 (by decide) hu
    (by show env0.ifnet (s.nh 0).port (s.nh 0).vlan = _; rw [v5]; decide)]
  have e : ip6Output env0 s.alloc.next (reply env0 (errPkt env0 optErr 4 1 0) (env0.dev 0).addr) (some 0)
      (s.alloc.alloc.emit (.free 0)) = ip6Output env0 s.alloc.next
      (reply env0 (errPkt env0 optErr 4 1 0) (env0.dev 0).addr) none (s.alloc.alloc.emit (.free 0)) := by
    unfold ip6Output pick
    rw [reply_dst]
    have : look env0 (s.alloc.alloc.emit (.free 0)) (errPkt env0 optErr 4 1 0).src = some 0 := v4
    rw [this]
  obtain ⟨f1, f2, f3, _⟩ := addRoute_frame env0 hi2 (addrOf 0 2) (by decide) 128 (Nat.le_refl _) any 0 0 false
  have g := output_unresolved env0 s.alloc.next (reply env0 (errPkt env0 optErr 4 1 0) (env0.dev 0).addr)
    (s.alloc.alloc.emit (.free 0)) 0 0 1 (by rw [reply_dst]; exact v4)
    (by show env0.ifnet (s.nh 0).port (s.nh 0).vlan = _; rw [v5]; decide) rfl
    ⟨rfl, rfl, by rw [reply_dst]; decide⟩ (by show (s.nh 0).mac = _; rw [v5]) rfl
    (by show s.ents ≠ 0; rw [v3]; decide)
    (addRoute env0 (s.alloc.alloc.emit (.free 0)) (addrOf 0 2) 128 any 0 0 false) (by rw [reply_dst]; rfl) f1 f2 f3
    (by rw [reply_dst]
        have : look env0 (addRoute env0 (s.alloc.alloc.emit (.free 0)) (addrOf 0 2) 128 any 0 0 false) (addrOf 0 2) =
            look env0 (addRoute env0 s (addrOf 0 2) 128 any 0 0 false) (addrOf 0 2) := by
          unfold look addRoute
          simp only [emit_tab, alloc_tab, emit_nnh, alloc_nnh]
          generalize insert6 env0.g s.tab (addrOf 0 2) 128 s.nnh = r
          obtain ⟨t, c⟩ := r
          cases c <;> rfl
        exact this.trans v6)
  rw [e, g]
  rw [reply_dst]
  simp [v1, v2, v5]
  rfl

/-! ## C165 -/

/-- A packet of a local socket to a neighbour that has not answered yet is queued (when a record is free). -/
theorem send_unanswered {nodes s T} (env : Env) (hi : Inv nodes s T) (p : Pkt) (hp : p.dst.length = 16) (i d : Nat)
    (hT : T (Spec.bits6 p.dst) = some i)
    (hd : env.ifnet (s.nh i).port (s.nh i).vlan = some d) (hk : (env.dev d).kind = .ether) (hs : ∀ id, Sendable env d id p)
    (hm : (s.nh i).mac = noMac) (ha : ∀ j, env.allocOk j = true) (he : s.ents ≠ 0) :
    Inv nodes (send env p s) T ∧ (send env p s).ents = s.ents - 1 ∧
      (send env p s).nh i = { s.nh i with hold := (s.next, p) :: (s.nh i).hold } ∧ (send env p s).tab = s.tab ∧
      ∀ k, k ≠ i → (send env p s).nh k = s.nh k := by
  have hadd : addRoute env s.alloc p.dst 128 any (env.dev d).port (env.dev d).vlan false = s.alloc := by
    rcases addRoute_cases env hi.alloc p.dst hp 128 (Nat.le_refl _) any (env.dev d).port (env.dev d).vlan false with
      ⟨h, _⟩ | ⟨hn, _⟩
    · exact h
    · rw [pfx6_full p.dst hp, hT] at hn; cases hn
  have hl : look env s.alloc p.dst = some i := look_eq hi.alloc hp (host_uses hT)
  have e := output_unresolved env s.next p s.alloc i d i hl hd hk (hs _) hm (ha _) he s.alloc hadd rfl rfl rfl hl
  unfold send
  rw [e]
  simp only [reduceCtorEq, if_false]
  refine ⟨?_, rfl, by simp, rfl, fun k hk => setNh_other _ _ _ _ hk⟩
  have : Inv nodes (s.setNh i { s.nh i with hold := (s.next, p) :: (s.nh i).hold }) T := by
    apply hi.setLive hT
    intro x hx
    simp only [List.mem_cons] at hx
    rcases hx with rfl | hx
    · exact ⟨hp, List.prefix_refl _⟩
    · obtain ⟨h1, q, h2, h3⟩ := hi.fits i x hx
      rw [hi.inj _ _ _ hT h2]; exact ⟨h1, h3⟩
  exact this.congr rfl rfl rfl

/-- `n` packets to a neighbour that does not answer. -/
theorem send_many {nodes} (env : Env) (p : Pkt) (hp : p.dst.length = 16) (i d : Nat) (T : Spec.Table Nat)
    (hT : T (Spec.bits6 p.dst) = some i) (hk : (env.dev d).kind = .ether) (hs : ∀ id, Sendable env d id p)
    (ha : ∀ j, env.allocOk j = true) : ∀ n (s : St), Inv nodes s T → n ≤ s.ents →
    env.ifnet (s.nh i).port (s.nh i).vlan = some d → (s.nh i).mac = noMac →
    Inv nodes (run env s (List.replicate n (.send p))) T ∧ (run env s (List.replicate n (.send p))).ents = s.ents - n ∧
      (run env s (List.replicate n (.send p))).tab = s.tab ∧
      ((run env s (List.replicate n (.send p))).nh i).mac = noMac ∧
      ∀ k, k ≠ i → (run env s (List.replicate n (.send p))).nh k = s.nh k := by
  intro n
  induction n with
  | zero => intro s hi _ _ hm; exact ⟨hi, rfl, rfl, hm, fun _ _ => rfl⟩
  | succ n ih =>
    intro s hi hn hd hm
    obtain ⟨a1, a2, a3, a4, a5⟩ := send_unanswered env hi p hp i d hT hd hk hs hm ha (by omega)
    have hrun : run env s (List.replicate (n + 1) (.send p)) = run env (send env p s) (List.replicate n (.send p)) := rfl
    rw [hrun]
    obtain ⟨b1, b2, b3, b4, b5⟩ := ih (send env p s) a1 (by omega) (by rw [a3]; exact hd) (by rw [a3]; exact hm)
    exact ⟨b1, by omega, b3.trans a4, b4, fun k hk => (b5 k hk).trans (a5 k hk)⟩

/-- With all records in use a packet to a new neighbour is freed at once. -/
theorem send_exhausted (env : Env) (s : St) (p : Pkt) (he : s.ents = 0) (i d : Nat) (hl : look env s p.dst = some i)
    (hd : env.ifnet (s.nh i).port (s.nh i).vlan = some d) (hk : (env.dev d).kind = .ether) (hs : Sendable env d s.next p)
    (hm : (s.nh i).mac = noMac) : (send env p s).evs.getLast? = some (.free s.next) := by
  obtain ⟨h1, h2, h3⟩ := hs
  have key : (ip6Output env s.next p none s.alloc).1 = .drop := by
    unfold ip6Output pick
    rw [h1]
    dsimp only
    rw [show look env s.alloc p.dst = some i from hl]
    dsimp only
    rw [show env.ifnet (s.alloc.nh i).port (s.alloc.nh i).vlan = some d from hd]
    dsimp only
    unfold outDev
    rw [if_neg (by rw [hk]; intro h; cases h), if_neg (by rw [h2]; intro h; cases h),
      if_neg (by rw [hk]; intro h; rcases h with h | h; exact h3 h; cases h),
      if_pos (show (s.alloc.nh i).mac = noMac from hm)]
    have hz : ∀ s1 : St, s1.ents = 0 → (savePkt env s.next p s1).1 = .drop := by
      intro s1 h; unfold savePkt; split
      · rfl
      · rw [if_pos h]
    have ha : (addRoute env s.alloc p.dst 128 any (env.dev d).port (env.dev d).vlan false).ents = 0 := by
      unfold addRoute; split
      · exact he
      · exact he
    unfold resolve nsOutput
    dsimp only
    split
    · rfl
    · rename_i s2 hne hx
      split at hx
      · cases hx; exact hz _ ha
      · cases hx; exact hz _ ha
  unfold send
  dsimp only
  rw [if_pos key]
  simp

/-- The history: one route 2001:db8:0::/64, `n` packets to 2001:db8::66, which does not exist. -/
def floodOps (n : Nat) : List Op := .addRoute (addrOf 0 0) 64 any 0 0 false :: List.replicate n (.send (pktTo (addrOf 0 66)))

theorem floodOps_split (k : Nat) (s : St) : run env0 s (floodOps (k + 1)) = run env0 (run env0 s
    [.addRoute (addrOf 0 0) 64 any 0 0 false, .send (pktTo (addrOf 0 66))]) (List.replicate k (.send (pktTo (addrOf 0 66)))) := by
  unfold floodOps
  rw [List.replicate_succ]
  simp only [run, List.foldl_cons, List.foldl_nil]

/-- The state after the route and the first packet, which created the host route. -/
def flood1 : St := run env0 (init 1000) [.addRoute (addrOf 0 0) 64 any 0 0 false, .send (pktTo (addrOf 0 66))]

theorem flood1_ents : flood1.ents = 2047 := by decide +kernel
theorem flood1_host : (flood1.nh 1).mac = noMac ∧ (flood1.nh 1).port = 0 ∧ (flood1.nh 1).vlan = 0 := by decide +kernel
theorem flood1_net : flood1.nh 0 = ⟨any, 0, 0, false, noMac, []⟩ := by decide +kernel

/-- Its routes. -/
def floodT : Spec.Table Nat := (Spec.Table.empty.add (pfx6 (addrOf 0 0) 64) 0).add (pfx6 (addrOf 0 66) 128) 1

theorem flood1_hist : Hist6 1000 flood1.tab floodT := by
  have g1 : Hist6 1000 (insert6 env0.g (init6 1000) (addrOf 0 0) 64 0).1 (Spec.Table.empty.add (pfx6 (addrOf 0 0) 64) 0) :=
    Hist6.addOk (Hist6.init (by decide)) (by decide) (by decide) (g := env0.g)
      (show insert6 env0.g (init6 1000) (addrOf 0 0) 64 0 = (_, .ok) from Prod.ext rfl (by decide +kernel))
  have g2 : Hist6 1000 (insert6 env0.g (insert6 env0.g (init6 1000) (addrOf 0 0) 64 0).1 (addrOf 0 66) 128 1).1 floodT :=
    Hist6.addOk g1 (by decide) (by decide) (g := env0.g)
      (show insert6 env0.g (insert6 env0.g (init6 1000) (addrOf 0 0) 64 0).1 (addrOf 0 66) 128 1 = (_, .ok) from
        Prod.ext rfl (by decide +kernel))
  have e : flood1.tab = (insert6 env0.g (insert6 env0.g (init6 1000) (addrOf 0 0) 64 0).1 (addrOf 0 66) 128 1).1 := by
    decide +kernel
  rw [e]; exact g2

theorem floodOps_wf (n : Nat) : ∀ op ∈ floodOps n, op.wf := by
  intro op h
  simp only [floodOps, List.mem_cons, List.mem_replicate] at h
  rcases h with rfl | ⟨_, rfl⟩
  · exact ⟨by decide, by decide⟩
  · show (addrOf 0 66).length = 16; decide

theorem flood1_inv : Inv 1000 flood1 floodT := by
  obtain ⟨T, hi⟩ := reach_inv (nodes := 1000) (by decide) env0 [.addRoute (addrOf 0 0) 64 any 0 0 false,
      .send (pktTo (addrOf 0 66))] (floodOps_wf 1)
  have hT : T = floodT := by
    funext q
    exact ((hist6_inv hi.hist).tab q).symm.trans ((hist6_inv flood1_hist).tab q)
  rw [← hT]; exact hi

theorem floodT_uses (h : UInt8) (h66 : h ≠ 66) : Uses floodT (addrOf 0 h) (some 0) := by
  unfold floodT
  rw [pfx6_full _ (by decide)]
  apply uses_add_other (by decide) (by rfl)
  · intro e
    apply h66
    have := congrArg (fun l => l.getLast?) e
    simpa [addrOf] using this
  · refine Or.inl ⟨0, 64, ?_, ?_, ?_, rfl⟩
    · rw [bits6_length]
      have l1 : (addrOf 0 h).length = 16 := rfl
      omega
    · simp only [Spec.Table.add]
      rw [if_pos]
      have e : addrOf 0 h = [32, 1, 13, 184, 0, 0, 0, 0] ++ [0, 0, 0, 0, 0, 0, 0, h] := rfl
      have e' : addrOf 0 0 = [32, 1, 13, 184, 0, 0, 0, 0] ++ [0, 0, 0, 0, 0, 0, 0, 0] := rfl
      unfold pfx6
      rw [e, e']
      simp only [Spec.bits6, List.flatMap_append]
      rw [List.take_append_of_le_length (by decide), List.take_append_of_le_length (by decide)]
    · intro m hm hm'
      simp only [Spec.Table.add]
      rw [if_neg]
      · rfl
      · intro e
        have := congrArg List.length e
        unfold pfx6 at this
        rw [List.length_take, List.length_take, bits6_length, bits6_length] at this
        rw [bits6_length] at hm'
        have l1 : (addrOf 0 h).length = 16 := rfl
        have l2 : (addrOf 0 0).length = 16 := rfl
        omega

theorem flood_step (s s' : St) (K : Nat) (hK : 2047 = K) (hi : Inv 1000 s floodT) (w1 : s.ents = 2047)
    (w2 : (s.nh 1).mac = noMac ∧ (s.nh 1).port = 0 ∧ (s.nh 1).vlan = 0) (w3 : s.nh 0 = ⟨any, 0, 0, false, noMac, []⟩)
    (hs' : run env0 s (List.replicate K (.send (pktTo (addrOf 0 66)))) = s') (h : UInt8) (h66 : h ≠ 66) (h1 : h ≠ 1) :
    (send env0 (pktTo (addrOf 0 h)) s').evs.getLast? = some (.free s'.next) := by
  have hT : floodT (Spec.bits6 (addrOf 0 66)) = some 1 := by
    unfold floodT
    rw [pfx6_full _ (by decide)]; simp [Spec.Table.add]
  obtain ⟨b1, b2, b3, b4, b5⟩ := send_many env0 (pktTo (addrOf 0 66)) (by decide) 1 0 _ hT rfl
    (fun _ => ⟨rfl, rfl, by decide⟩) (fun _ => rfl) K s hi (by omega) (by rw [w2.2.1, w2.2.2]; decide) w2.1
  rw [hs'] at b1 b2 b3 b4 b5
  apply send_exhausted env0 s' (pktTo (addrOf 0 h)) (by omega) 0 0 (look_eq b1 (by rfl) (floodT_uses h h66))
  · rw [b5 0 (by decide), w3]; decide
  · rfl
  · refine ⟨rfl, rfl, ?_⟩
    intro e
    apply h1
    have := congrArg (fun l => l.getLast?) e
    simpa [env0, addrOf, pktTo] using this.symm
  · rw [b5 0 (by decide), w3]

/-- **C165 refuted.** After 2048 packets to one neighbour that does not answer, the first packet to any other new neighbour
of the subnet is thrown away, and so is every further one: nothing but an answer or the deletion of the route ever
gives the records back. -/
theorem ip6_exhaustion_violated : ∃ (env : Env) (ops : List Op), (∀ op ∈ ops, op.wf) ∧
    (∀ op ∈ ops, ∀ p, op = .send p → p.dst = addrOf 0 66) ∧
    ∀ h : UInt8, h ≠ 66 → h ≠ 1 →
      (send env (pktTo (addrOf 0 h)) (run env (init 1000) ops)).evs.getLast? =
        some (.free (run env (init 1000) ops).next) := by
  obtain ⟨K, hK⟩ : ∃ K, 2047 = K := ⟨_, rfl⟩
  refine ⟨env0, floodOps (K + 1), floodOps_wf _, ?_, ?_⟩
  · intro op h p hp
    simp only [floodOps, List.mem_cons, List.mem_replicate] at h
    rcases h with rfl | ⟨_, rfl⟩
    · cases hp
    · cases hp; rfl
  intro h h66 h1
  exact flood_step flood1 _ K hK flood1_inv flood1_ents flood1_host flood1_net (floodOps_split K _).symm h h66 h1

/-- **C165 (partial: a free record is left).** A packet to a neighbour that has not answered yet is queued behind those that
wait for it already, however many solicitations went unanswered, and uses one record. -/
theorem ip6_unanswered_queued_partial {nodes s T} (env : Env) (hi : Inv nodes s T) (p : Pkt) (hp : p.dst.length = 16)
    (i d : Nat) (hT : T (Spec.bits6 p.dst) = some i)
    (hd : env.ifnet (s.nh i).port (s.nh i).vlan = some d) (hk : (env.dev d).kind = .ether) (hs : ∀ id, Sendable env d id p)
    (hm : (s.nh i).mac = noMac) (ha : ∀ j, env.allocOk j = true) (he : s.ents ≠ 0) :
    ((send env p s).nh i).hold = (s.next, p) :: (s.nh i).hold ∧ (send env p s).ents + 1 = s.ents ∧
      ∀ k, k ≠ i → (send env p s).nh k = s.nh k := by
  obtain ⟨_, a2, a3, _, a5⟩ := send_unanswered env hi p hp i d hT hd hk hs hm ha he
  exact ⟨by rw [a3], by omega, a5⟩

example : floodT (Spec.bits6 (addrOf 0 66)) = some 1 ∧ env0.ifnet (flood1.nh 1).port (flood1.nh 1).vlan = some 0 ∧
    (env0.dev 0).kind = .ether ∧ (flood1.nh 1).mac = noMac ∧ flood1.ents ≠ 0 := by
  refine ⟨?_, by rw [flood1_host.2.1, flood1_host.2.2]; decide, rfl, flood1_host.1, by rw [flood1_ents]; decide⟩
  unfold floodT
  rw [pfx6_full _ (by decide)]; simp [Spec.Table.add]

/-- A state with a route to 2001:db8:7::9 and its Ethernet address, for `ip6_forward_partial`. -/
example : ∃ s T, Inv 300 s T ∧ isOurs env0 0 (pktTo (addrOf 7 9)) s.alloc = false ∧ ∃ i, Uses T (addrOf 7 9) (some i) ∧
    env0.ifnet (s.nh i).port (s.nh i).vlan = some 1 ∧ (s.nh i).mac = macOf 9 ∧ macOf 9 ≠ noMac := by
  have hr := rx_icmp env0 1 (macOf 9) (naOf (addrOf 7 9) (addrOf 1 1) 255 (addrOf 7 9) (macOf 9))
    (run env0 (init 300) [.addRoute (addrOf 7 0) 64 any 1 0 false])
      (by decide +kernel) (by decide +kernel) (by decide +kernel) (by decide +kernel) (by decide +kernel)
      (by decide +kernel) (by decide +kernel) (by decide +kernel) (by decide +kernel)
  rw [← run2] at hr
  obtain ⟨T, hi⟩ := reach_inv (nodes := 300) (by decide) env0 fwdOps (by
    intro op h
    simp only [fwdOps, List.mem_cons, List.not_mem_nil, or_false] at h
    rcases h with rfl | rfl
    · exact ⟨by decide, by decide⟩
    · trivial)
  unfold fwdOps at hi
  have l1 := (congrArg (fun s => look env0 s (addrOf 7 9)) hr).trans (by decide +kernel : _ = some 1)
  have m1 := (congrArg (fun s => ((s.nh 1).mac, env0.ifnet (s.nh 1).port (s.nh 1).vlan)) hr).trans
    (by decide +kernel : _ = (macOf 9, some 1))
  have o1 := (congrArg (fun s => isOurs env0 0 (pktTo (addrOf 7 9)) s.alloc) hr).trans (by decide +kernel : _ = false)
  have u1 := look_spec env0 hi (addrOf 7 9) (by decide)
  rw [l1] at u1
  simp only [Prod.mk.injEq] at m1
  exact ⟨_, T, hi, o1, 1, u1, m1.2, m1.1, by decide⟩

end Verif.Ip6

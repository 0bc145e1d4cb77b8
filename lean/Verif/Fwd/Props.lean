import Verif.Fwd.Conserve
import Verif.Fwd.Bounds
/-! # C74-C82: violations, and a concrete router that meets the hypotheses -/
namespace Verif.Fwd

/-! ### A router with two interfaces: 10.0.0.1/24 and 10.0.1.1/24 -/

/-- 10.0.0.0/24 on interface 0 (MTU 1500), 10.0.1.0/24 on interface 1 (MTU 576); `dflt` is the default route. -/
def demoEnv (dflt : Option Nh) : Env where
  dev d := if d = 0 then ⟨1500, 167772161, 167772415, [167772161], 0, .ether⟩
           else ⟨576, 167772417, 167772671, [167772417], 0, .ether⟩
  route _ a := if a = 167772161 ∨ a = 167772417 then some ⟨0, some 0, true⟩
    else if a / 256 = 655360 then some ⟨0, some 0, false⟩
    else if a / 256 = 655361 then some ⟨0, some 1, false⟩
    else dflt
  own _ a := a = 167772161 || a = 167772417
  hookLocal _ := .cont
  hookLocal4 _ := .cont
  hookFwd _ := .cont
  hookOut _ := .cont
  ipsecIn _ _ := true
  ipsecOut _ := .bypass
  transport _ := .drop
  udp _ := .noPort
  reass _ := none
  hwSum _ := .none
  odd := true
  al _ := (false, false)
  mac _ _ := true
  saveOk _ := true
  loopOk _ := true
  tunnelOk _ := true
  roomOk _ := true
  allocOk _ := true
  ipId i := i + 100
  now := 12345
  beyond := [0xde, 0xad, 0xbe, 0xef, 0xde, 0xad, 0xbe, 0xef, 0xde, 0xad, 0xbe, 0xef]
  sp := false
  spOk _ := false
  l2 := 14
  blackhole := false

def demo : Env := demoEnv (some ⟨167772670, some 1, false⟩)
def demoNoDefault : Env := demoEnv none

def body40 : List UInt8 := (List.range 40).map UInt8.ofNat

/-- From 10.0.0.2 to 10.0.1.2, with 40 bytes of payload and 6 bytes of padding. -/
def transitPkt : Pkt :=
  { hdr := { tos := 0, len := 60, id := 7, off := 0, ttl := 5, proto := 17, sum := 42912, src := 167772162, dst := 167772418 },
    opts := [], body := body40 ++ [9, 9, 9, 9, 9, 9], dev := 0 }
def expiredPkt : Pkt := { transitPkt with hdr := { transitPkt.hdr with ttl := 1, sum := 42916 } }
def bigPkt : Pkt :=
  { transitPkt with hdr := { transitPkt.hdr with len := 1500, off := 16384, sum := 1883 }, body := List.replicate 1480 1 }
def pingPkt : Pkt :=
  { hdr := { tos := 0, len := 36, id := 7, off := 0, ttl := 5, proto := 1, sum := 53409, src := 167772162, dst := 167772161 },
    opts := [], body := [8, 0, 231, 233, 1, 2, 3, 4, 0, 1, 2, 3, 4, 5, 6, 7], dev := 0 }

theorem demo_transit (p : Pkt) (h1 : hdrOk demo p = true) (h2 : p.hdr.dst = 167772418) (h3 : p.dev = 0) :
    Transit demo p ⟨0, some 1, false⟩ 1 := by
  refine ⟨h1, ?_, ?_, rfl, rfl, rfl, ?_, rfl⟩
  · rw [h2, h3]; decide
  · unfold isOurs; rw [h2, h3]; decide
  · rw [h2, h3]; decide

example : packetInput demo transitPkt = (.processed, ⟨1, [.tx 0 1 167772418
    { hdr := { transitPkt.hdr with ttl := 4, sum := 42913 }, opts := [], body := body40, dev := 0 }]⟩) := by
  have := (transit_forwarded demo transitPkt _ _ (demo_transit transitPkt (by decide +kernel) rfl rfl) (by decide) rfl
    (by decide) (by decide) rfl rfl (by decide) (by decide) rfl).1
  exact this.trans (by decide +kernel)

example : Wire transitPkt ∧ Cksum.Spec.checksum transitPkt.header = 0 ∧ transitPkt.hdr.src ≠ 0 ∧ isOurs demo transitPkt = false :=
  ⟨⟨by decide, by decide, by decide, by decide⟩, by decide +kernel, by decide, by decide⟩

example : ∀ d, 68 ≤ (demo.dev d).mtu ∧ (demo.dev d).mtu ≤ 65535 := by
  intro d; unfold demo demoEnv; simp only; split <;> decide

theorem demo_healthy : Healthy demo := by
  refine ⟨(fun _ h => by cases h), ?_, ?_, ?_, fun _ => rfl, fun _ => rfl, fun _ => rfl, fun _ => rfl⟩
  · intro p; exact ⟨(fun h => by cases h), (fun h => by cases h)⟩
  · intro v a
    unfold demo demoEnv
    simp only
    repeat' split
    all_goals exact ⟨_, rfl, rfl⟩
  · intro d; unfold demo demoEnv; simp only; split <;> decide

example : Healthy demo ∧ Fine { demo with udp := fun _ => .drop } transitPkt := by
  refine ⟨demo_healthy, by decide, (fun h => by cases h), (fun h => by cases h.2.1), ?_⟩
  intro d h
  unfold demo demoEnv at h
  simp only at h
  split at h <;> simp [transitPkt] at h

/-- The time exceeded message of the router. -/
example : ∃ q : Pkt, packetInput demo expiredPkt = (.drop, ⟨2, [.alloc 1, .tx 1 0 167772162 q, .free 0]⟩) ∧
    q.hdr.src = 167772161 ∧ q.hdr.dst = 167772162 ∧
    (∃ x y, q.body = [11, 0, x, y, 0, 0, 0, 0] ++ expiredPkt.header ++ [0, 1, 2, 3, 4, 5, 6, 7]) ∧
    Cksum.Spec.checksum q.body = 0 ∧ Cksum.Spec.checksum q.header = 0 := by
  have e : (fillSum demo expiredPkt).header = expiredPkt.header := by decide +kernel
  have := time_exceeded_partial demo expiredPkt _ _ ⟨0, some 0, false⟩ 0 167772162
    (demo_transit expiredPkt (by decide +kernel) rfl rfl) (by decide)
    (by decide +kernel) rfl (by decide) (by decide) (by decide) (by decide) (by decide) (by decide) (by decide)
    ⟨rfl, rfl, rfl, by unfold errReply; rw [fillIcmp_hdr]; decide +kernel, rfl, rfl,
      .inr ⟨by unfold errReply; rw [fillIcmp_hdr]; decide +kernel, rfl⟩, by unfold errReply; rw [fillIcmp_hdr]; decide +kernel⟩
    (by decide +kernel)
  rw [e] at this
  exact this

/-- The "fragmentation needed" message of the router carries the MTU 576. -/
example : ∃ q : Pkt, packetInput demo bigPkt = (.drop, ⟨2, [.alloc 1, .tx 1 0 167772162 q, .free 0]⟩) ∧
    ∃ x y r, q.body = [3, 4, x, y, 0, 0, 2, 64] ++ r := by
  obtain ⟨q, h1, _, _, ⟨x, y, h2⟩, _⟩ := frag_needed_partial demo bigPkt _ _ ⟨0, some 0, false⟩ 0 167772162
    (demo_transit bigPkt (by decide +kernel) rfl rfl) (by decide) rfl (by decide) (by decide) (by decide) (by decide)
    (by decide +kernel) rfl (by decide +kernel) (by decide) (by decide) (by decide) (by decide) (by decide) (by decide)
    ⟨rfl, rfl, rfl, by unfold errReply; rw [fillIcmp_hdr]; decide +kernel, rfl, rfl,
      .inr ⟨by unfold errReply; rw [fillIcmp_hdr]; decide +kernel, rfl⟩, by unfold errReply; rw [fillIcmp_hdr]; decide +kernel⟩
    (by decide +kernel)
  refine ⟨q, h1, x, y, (fillSum demo (decTtl bigPkt)).header ++ bigPkt.body.take 8, ?_⟩
  rw [h2, List.append_assoc]
  rfl

theorem ping_local : Local demo pingPkt := ⟨by decide +kernel, by decide, by decide, by decide, rfl, rfl, rfl⟩
theorem ping_msg : IcmpMsg pingPkt 8 := ⟨rfl, by decide, by decide, by decide +kernel, by decide, by decide +kernel⟩

/-- A ping and its answer. -/
example : ∃ q : Pkt, packetInput demo pingPkt = (.processed, ⟨1, [.tx 0 0 167772162 q]⟩) ∧
    q.hdr.src = 167772161 ∧ q.hdr.dst = 167772162 ∧
    ∃ x y, q.body = [0, 0, x, y, 1, 2, 3, 4, 0, 1, 2, 3, 4, 5, 6, 7] := by
  obtain ⟨q, h1, h2, h3, _, _, _, _, _, _, h4, _⟩ := echo_reply demo pingPkt ⟨0, some 0, false⟩ 0 167772162 ping_local ping_msg
    (by decide) (by decide) (by decide)
    ⟨rfl, rfl, rfl, by unfold echoReply; rw [fillIcmp_hdr]; decide +kernel, rfl, rfl,
      .inr ⟨by unfold echoReply; rw [fillIcmp_hdr]; decide +kernel, rfl⟩, by unfold echoReply; rw [fillIcmp_hdr]; decide +kernel⟩
    (by decide)
  exact ⟨q, h1, h2, h3, h4⟩

/-! ### C75 violated -/

theorem ipOutput_noRoute {env : Env} {k id : Nat} {q : Pkt} {s : St} (h1 : env.ipsecOut q = .bypass) (h2 : env.hookOut q = .cont)
    (h3 : env.route (env.dev q.dev).vrf q.hdr.dst = none) : ipOutput env (k + 1) id q none s = (.drop, s) := by
  unfold ipOutput
  rw [h1]
  show outCommon env _ id q none true .bypass s = _
  unfold outCommon
  rw [h2]
  show outRoute env _ id q none true s = _
  unfold outRoute findRoute pickNh
  rw [h3]

/-- **C75 violated (1).** Every ping whose source has no route is reported as processed, but its buffer is neither sent
nor freed: nothing at all happens to it. -/
theorem ping_without_route_lost_violated (env : Env) (p : Pkt) (hl : Local env p) (hp : IcmpMsg p 8)
    (hown : env.own p.dev p.hdr.dst = true) (hr : env.route (env.dev p.dev).vrf p.hdr.src = none)
    (h1 : env.ipsecOut (echoReply env p) = .bypass) (h2 : env.hookOut (echoReply env p) = .cont) :
    packetInput env p = (.processed, ⟨1, []⟩) ∧ cnt 0 (packetInput env p).2.evs = 0 := by
  have e : packetInput env p = (.processed, ⟨1, []⟩) := by
    rw [local_step hl, icmp_step hp]
    unfold icmpType
    simp only [show ¬ (8 : Nat) = 3 by decide, show ¬ (8 : Nat) = 11 by decide, show ¬ (8 : Nat) = 12 by decide,
      show ¬ (8 : Nat) = 4 by decide, if_false, if_true]
    unfold reflect
    rw [if_pos (show env.own ({ p with body := p.body.set 0 0 } : Pkt).dev ({ p with body := p.body.set 0 0 } : Pkt).hdr.dst = true from hown)]
    unfold reflectSend
    have hd : (echoReply env p).dev = p.dev := by unfold echoReply; rw [fillIcmp_dev]; rfl
    have hh : (echoReply env p).hdr.dst = p.hdr.src := by unfold echoReply; rw [fillIcmp_hdr]; rfl
    have := ipOutput_noRoute (env := env) (k := 2) (id := 0) (q := echoReply env p) (s := ⟨1, []⟩) h1 h2 (by rw [hd, hh]; exact hr)
    show finish env (Code.processed, (ipOutput env (2 + 1) 0 (echoReply env p) none ⟨1, []⟩).2) = _
    rw [this]
    rfl
  exact ⟨e, by rw [e]; rfl⟩

/-- A ping from 8.8.8.8 to the router without default route. -/
example : packetInput demoNoDefault { pingPkt with hdr := { pingPkt.hdr with src := 134744072, sum := 49819 } } = (.processed, ⟨1, []⟩) :=
  (ping_without_route_lost_violated demoNoDefault _ ⟨by decide +kernel, by decide, by decide, by decide, rfl, rfl, rfl⟩
    ⟨rfl, by decide, by decide, by decide +kernel, by decide, by decide +kernel⟩ (by decide) (by decide +kernel) rfl rfl).1

/-- **C75 violated (2).** Every packet in transit whose TTL expires and whose source has no route costs one buffer: the
buffer allocated for the ICMP error is neither sent nor freed. -/
theorem expired_without_route_leaks_violated (env : Env) (p : Pkt) (n : Nh) (d : Nat) (h : Transit env p n d) (ht : p.hdr.ttl ≤ 1)
    (hq : errQuiet env p 11 = false) (ha : env.allocOk 1 = true) (hown : env.own p.dev p.hdr.dst = false)
    (hr : env.route (env.dev p.dev).vrf p.hdr.src = none)
    (h1 : ∀ q, env.ipsecOut q = .bypass) (h2 : ∀ q, env.hookOut q = .cont) :
    made 1 (packetInput env p).2.evs = 1 ∧ cnt 1 (packetInput env p).2.evs = 0 := by
  have e : icmpError env (ipOutput env depth) p 11 0 0 0 ⟨1, []⟩ =
      ⟨2, [.alloc 1] ++ (if p.bytes.length < 2 * p.hlen + 16 then [.outside 1] else [])⟩ := by
    unfold icmpError
    rw [hq, if_neg (by simp), ha, if_neg (by simp)]
    simp only
    unfold reflect
    rw [if_neg (show ¬ env.own (errPkt env (fillSum env p) 11 0 0 0).dev (errPkt env (fillSum env p) 11 0 0 0).hdr.dst = true by
      show ¬ env.own p.dev p.hdr.dst = true; rw [hown]; simp)]
    rw [show env.route (env.dev (errPkt env (fillSum env p) 11 0 0 0).dev).vrf (errPkt env (fillSum env p) 11 0 0 0).hdr.src = none from hr]
    simp only
    have key : ∀ s : St, (ipOutput env (2 + 1) 1 (errReply env p 11 0 0 0 (env.dev p.dev).addr) none s) = (.drop, s) := by
      intro s
      refine ipOutput_noRoute (h1 _) (h2 _) ?_
      have hd : (errReply env p 11 0 0 0 (env.dev p.dev).addr).dev = p.dev := by unfold errReply; rw [fillIcmp_dev]; rfl
      have hh : (errReply env p 11 0 0 0 (env.dev p.dev).addr).hdr.dst = p.hdr.src := by unfold errReply; rw [fillIcmp_hdr]; rfl
      rw [hd, hh]; exact hr
    have fin : (if p.bytes.length < 2 * p.hlen + 16 then (⟨1, []⟩ : St).alloc.emit (.outside 1) else (⟨1, []⟩ : St).alloc) =
        ⟨2, [.alloc 1] ++ (if p.bytes.length < 2 * p.hlen + 16 then [.outside 1] else [])⟩ := by
      split <;> rfl
    by_cases h0 : (env.dev (errPkt env (fillSum env p) 11 0 0 0).dev).addr ≠ 0
    · rw [if_pos h0]
      unfold reflectSend
      show (ipOutput env (2 + 1) 1 (errReply env p 11 0 0 0 (env.dev p.dev).addr) none _).2 = _
      rw [key]
      exact fin
    · rw [if_neg h0]
      exact fin
  rw [transit_expired env p n d h ht, e]
  split <;> exact ⟨rfl, rfl⟩

example : made 1 (packetInput demoNoDefault { expiredPkt with hdr := { expiredPkt.hdr with src := 134744072, sum := 39326 } }).2.evs = 1 ∧
    cnt 1 (packetInput demoNoDefault { expiredPkt with hdr := { expiredPkt.hdr with src := 134744072, sum := 39326 } }).2.evs = 0 :=
  expired_without_route_leaks_violated demoNoDefault _ ⟨0, some 1, false⟩ 1
    ⟨by decide +kernel, by decide, by decide, rfl, rfl, rfl, by decide, rfl⟩ (by decide) (by decide +kernel) rfl (by decide)
    (by decide) (fun _ => rfl) (fun _ => rfl)

/-- **C75 violated (3).** Every datagram to a closed UDP port (build without slow path) is reported as processed although
its buffer is neither freed nor passed on. -/
theorem closed_port_lost_violated (env : Env) (p : Pkt) (hl : Local env p) (hc : closedPort env p) :
    (packetInput env p).1 = .processed ∧ cnt 0 (packetInput env p).2.evs = 0 := by
  obtain ⟨h17, hn, hsp, hbh⟩ := hc
  have e : packetInput env p = (.processed, icmpError env (ipOutput env depth) (udpBad p) 3 3 0 0 ⟨1, []⟩) := by
    rw [local_step hl]
    unfold transport
    rw [if_neg (by rw [h17]; decide), if_pos h17, hn]
    simp only
    unfold udpNoPort
    rw [hbh, if_neg (by simp), hsp, if_neg (by simp)]
    rfl
  have acc := icmpError_acc (lo := false) (env := env) (out := ipOutput env depth) (id := 0) (p := udpBad p) (t := 3) (c := 3)
    (dst := 0) (mtu := 0) (s := ⟨1, []⟩) (by decide) (ipOutput_acc false env depth (by simp)) (by simp) (by simp)
  obtain ⟨_, n, he, hz⟩ := acc.own_drop (by decide) (by simp)
  rw [e]
  refine ⟨rfl, ?_⟩
  rw [he]
  exact hz

example : Local demo { transitPkt with hdr := { transitPkt.hdr with dst := 167772161, sum := 43169 } } ∧
    closedPort demo { transitPkt with hdr := { transitPkt.hdr with dst := 167772161, sum := 43169 } } :=
  ⟨⟨by decide +kernel, by decide, by decide, by decide, rfl, rfl, rfl⟩, rfl, rfl, rfl, rfl⟩

/-! ### C77 violated: header checksum after the source address was filled in -/

/-- **C77 violated.** A packet in transit with source 0.0.0.0 and a valid header is forwarded with the address of the
outgoing interface as source, but the checksum is not adjusted: the next router drops it. -/
theorem zero_source_checksum_violated :
    ∃ (env : Env) (p q : Pkt), Wire p ∧ Cksum.Spec.checksum p.header = 0 ∧ .tx 0 1 167772418 q ∈ (packetInput env p).2.evs ∧
      q.hdr.src ≠ p.hdr.src ∧ Cksum.Spec.checksum q.header ≠ 0 := by
  refine ⟨demo, { transitPkt with hdr := { transitPkt.hdr with src := 0, sum := 43434 } },
    { transitPkt with hdr := { transitPkt.hdr with src := 167772417, sum := 43435, ttl := 4 }, body := body40 },
    ⟨by decide, by decide, by decide, by decide⟩, by decide +kernel, by decide +kernel, by decide, by decide +kernel⟩

/-! ### C78 violated: sources that must not be answered -/

/-- **C78 violated.** A packet with a multicast source address (224.0.0.1) whose TTL expires is answered: the ICMP error is
sent to the multicast group. -/
theorem error_to_multicast_violated :
    ∃ (env : Env) (p q : Pkt) (d gw : Nat), multicast p.hdr.src = true ∧ .tx 1 d gw q ∈ (packetInput env p).2.evs ∧
      q.hdr.proto = 1 ∧ q.hdr.dst = p.hdr.src := by
  let p : Pkt := { expiredPkt with hdr := { expiredPkt.hdr with src := 3758096385, sum := 42958 } }
  obtain ⟨q, h1, _, h3, h4, h5, _⟩ := icmp_error_packet demo p 11 0 0 0 2 ⟨167772670, some 1, false⟩ 1 167772670 ⟨1, []⟩
    (by decide +kernel) rfl (by decide +kernel) (by decide) (by decide) (by decide) (by decide +kernel) (by decide)
    ⟨rfl, rfl, rfl, by unfold errReply; rw [fillIcmp_hdr]; decide +kernel, rfl, rfl,
      .inl (by unfold errReply; rw [fillIcmp_hdr]; decide +kernel), by unfold errReply; rw [fillIcmp_hdr]; decide +kernel⟩
  refine ⟨demo, p, q, 1, 167772670, by decide +kernel, ?_, h5, h3⟩
  rw [transit_expired demo p _ _ (demo_transit p (by decide +kernel) rfl rfl) (by decide)]
  show _ ∈ ((icmpError demo (ipOutput demo (2 + 1)) p 11 0 0 0 ⟨1, []⟩).emit (.free 0)).evs
  rw [h1]
  simp [St.emit]

/-! ### C79 violated -/

/-- **C79 violated (1).** The flags of the offending packet are copied: a time exceeded message about the first fragment of
a datagram (more-fragments bit set) is itself sent with the more-fragments bit, so its receiver waits for the rest. -/
theorem error_copies_mf_violated :
    ∃ (env : Env) (p q : Pkt) (d gw : Nat), .tx 1 d gw q ∈ (packetInput env p).2.evs ∧ IsErr q ∧ q.hdr.len = 20 + q.body.length ∧
      q.hdr.off / 8192 % 2 = 1 := by
  let p : Pkt := { expiredPkt with hdr := { expiredPkt.hdr with off := 8192, sum := 42884 } }
  obtain ⟨q, h1, _, h3, h4, h5, _, _, h6, h7, ⟨x, y, h8⟩, _⟩ := icmp_error_packet demo p 11 0 0 0 2 ⟨0, some 0, false⟩ 0 167772162 ⟨1, []⟩
    (by decide +kernel) rfl (by decide +kernel) (by decide) (by decide) (by decide) (by decide +kernel) (by decide)
    ⟨rfl, rfl, rfl, by unfold errReply; rw [fillIcmp_hdr]; decide +kernel, rfl, rfl,
      .inr ⟨by unfold errReply; rw [fillIcmp_hdr]; decide +kernel, rfl⟩, by unfold errReply; rw [fillIcmp_hdr]; decide +kernel⟩
  refine ⟨demo, p, q, 0, 167772162, ?_, ⟨h5, ?_, ?_⟩, h7, by rw [h6]; decide⟩
  · rw [transit_expired demo p _ _ (demo_transit p (by decide +kernel) rfl rfl) (by decide)]
    show _ ∈ ((icmpError demo (ipOutput demo (2 + 1)) p 11 0 0 0 ⟨1, []⟩).emit (.free 0)).evs
    rw [h1]
    simp [St.emit]
  · rw [h8]
    simp only [List.length_append, errWord_length, List.length_cons, List.length_nil]
    omega
  · rw [h8]; exact (by decide : infoType (u8 11).toNat = false)

/-- **C79 violated (2).** The length of the payload is computed from the length field in the wrong byte order: for a datagram
of 5120 bytes (0x1400) without options nothing of the payload's start is quoted, but bytes 28 to 35. -/
theorem error_quotes_wrong_bytes_violated (env : Env) (p : Pkt) (hl : p.hdr.len = 5120) (ho : p.opts = []) (hb : 36 ≤ p.body.length) :
    quoted env p = (p.body.drop 28).take 8 := by
  have hh : p.hlen = 20 := by unfold Pkt.hlen; rw [ho]; rfl
  have hq : quoteLen p = 0 := by unfold quoteLen; rw [hl, hh]; decide
  unfold quoted
  rw [hq, hh]
  simp only [List.take_zero, List.nil_append, Nat.add_zero, Nat.sub_zero]
  rw [List.drop_append_of_le_length (by omega), List.take_append_of_le_length (by rw [List.length_drop]; omega)]

/-- **C79 violated (3).** When the payload is shorter than 8 bytes the message carries bytes from beyond the end of the
packet to the sender. -/
theorem error_leaks_memory_violated (env : Env) (p : Pkt) (hq : quoteLen p = 8) (hb : p.body.length < 8) :
    quoted env p = p.body ++ env.beyond.take (8 - p.body.length) := by
  unfold quoted
  rw [hq]
  simp only [Nat.sub_self, List.take_zero, List.append_nil]
  rw [List.take_append]
  rw [List.take_of_length_le (by omega)]

example : quoteLen expiredPkt = 8 ∧ quoteLen { expiredPkt with hdr := { expiredPkt.hdr with len := 24 } } = 8 := by decide

/-! ### C81, C82: instances and violations -/

example : Big bigPkt := by unfold Big; decide +kernel

/-- An 8-byte timestamp request (type 13). -/
example : .outside 0 ∈ (packetInput demo { hdr := { pingPkt.hdr with len := 28, sum := 55457 }, opts := [], body := [13, 0, 238, 249, 1, 2, 3, 4], dev := 0 }).2.evs :=
  short_timestamp_violated demo _ ⟨by decide +kernel, by decide, by decide, by decide, rfl, rfl, rfl⟩
    ⟨rfl, by decide, by decide, by decide +kernel, by decide, by decide +kernel⟩ (by decide)

/-- **C82 violated.** A packet for 255.255.255.255 is forwarded along the default route. -/
theorem limited_broadcast_forwarded_violated :
    ∃ (env : Env) (p q : Pkt), p.hdr.dst = 4294967295 ∧ .tx 0 1 167772670 q ∈ (packetInput env p).2.evs ∧ Forwarded p q := by
  refine ⟨demo, { transitPkt with hdr := { transitPkt.hdr with dst := 4294967295, sum := 43435 } },
    { transitPkt with hdr := { transitPkt.hdr with dst := 4294967295, sum := 43436, ttl := 4 }, body := body40 }, rfl,
    by decide +kernel, ⟨rfl, by decide, rfl, rfl, rfl, rfl, .inl rfl, .inl ⟨rfl, rfl, rfl, .inr (by decide +kernel)⟩⟩⟩

/-- One flipped bit in the header of the packet in transit: dropped. -/
example : packetInput demo { transitPkt with hdr := { transitPkt.hdr with dst := 167772419 } } = (.drop, ⟨1, [.free 0]⟩) :=
  corrupt_header_dropped demo _ ⟨by decide, by decide, by decide, by decide⟩ (.inr ⟨by decide, by decide +kernel⟩)

end Verif.Fwd

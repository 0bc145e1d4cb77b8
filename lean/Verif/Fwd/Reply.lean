import Verif.Fwd.Forward
/-! # C79, C80: contents of ICMP messages -/
namespace Verif.Fwd

/-! ### The ICMP checksum -/

theorem fillIcmp_val (env : Env) (p : Pkt) (h1 : p.body ≠ []) (h2 : p.bytes.length ≤ 262143) :
    fillIcmp env p =
      let z := (p.body.set 2 0).set 3 0
      let c := 65535 - Cksum.norm (Cksum.leSum (z.take (p.hdr.len - p.hlen)))
      { p with body := (z.set 2 (u8 c)).set 3 (u8 (c / 256)) } := by
  have hz : ((p.body.set 2 0).set 3 0).length = p.body.length := by simp
  have hp := List.length_pos_iff.2 h1
  unfold fillIcmp
  simp only
  generalize hb : (p.body.set 2 0).set 3 0 = z at hz
  have hlen : (p.header ++ z).length = p.bytes.length := by
    rw [List.length_append, header_length, bytes_length, hz]
  have hbl := bytes_length p
  have e := Cksum.cksum_val env.al (p.header ++ z) [] [] p.hlen (p.hdr.len - p.hlen) (by omega) (by omega) (by simp)
    (by decide) (by
      by_cases h : p.hlen + (p.hdr.len - p.hlen) ≤ (p.header ++ z).length
      · exact .inl ⟨rfl, h⟩
      · exact .inr (.inr ⟨rfl, by simp only [List.flatten_nil, List.length_nil]; omega⟩))
  have e2 : ((p.header ++ z).drop p.hlen) = z := by rw [← header_length, List.drop_left]
  simp only [List.append_nil, List.flatten_nil, e2] at e
  have e3 : ({ p with body := z } : Pkt).bytes = p.header ++ z := rfl
  have e4 : ({ p with body := z } : Pkt).hlen = p.hlen := rfl
  rw [e3, e4, e]

theorem cksum_stored (S c : Nat) (hc : c = 65535 - Cksum.norm S) : Cksum.norm (S + c) = 65535 := by
  symm
  apply Cksum.eq_norm (Nat.le_refl _)
  have hn := Cksum.norm_le S
  have hR := Cksum.R_norm S
  unfold Cksum.R at *
  generalize Cksum.norm S = x at *
  omega

theorem spec_of_le {bs : List UInt8} (h : Cksum.norm (Cksum.leSum bs) = 65535) : Cksum.Spec.checksum bs = 0 := by
  rw [← Cksum.host_net, h]; rfl

theorem le_of_spec {bs : List UInt8} (h : Cksum.Spec.checksum bs = 0) : 65535 - Cksum.norm (Cksum.leSum bs) = 0 := by
  rw [← Cksum.host_net] at h
  have := Cksum.norm_le (Cksum.leSum bs)
  generalize Cksum.norm (Cksum.leSum bs) = x at *
  unfold Cksum.swap16 at h
  omega

/-- The message with its checksum filled in: bytes other than 2 and 3 unchanged, and the sum over the announced length
is valid. -/
theorem fillIcmp_spec (env : Env) (p : Pkt) (h4 : 4 ≤ p.hdr.len - p.hlen) (hb : 4 ≤ p.body.length) (h2 : p.bytes.length ≤ 262143) :
    ∃ x y, (fillIcmp env p).body = p.body.take 2 ++ [x, y] ++ p.body.drop 4 ∧
      Cksum.Spec.checksum ((fillIcmp env p).body.take (p.hdr.len - p.hlen)) = 0 := by
  match hbd : p.body, hb with
  | a :: b :: x :: y :: r, _ =>
    rw [fillIcmp_val env p (by rw [hbd]; simp) h2]
    simp only [hbd, List.set_cons_succ, List.set_cons_zero]
    obtain ⟨n, hn⟩ : ∃ n, p.hdr.len - p.hlen = n + 4 := ⟨p.hdr.len - p.hlen - 4, by omega⟩
    rw [hn]
    simp only [List.take_succ_cons]
    generalize hc : 65535 - Cksum.norm (Cksum.leSum (a :: b :: 0 :: 0 :: r.take n)) = c
    have hc5 : c ≤ 65535 := by omega
    refine ⟨_, _, rfl, spec_of_le ?_⟩
    have hS := cksum_stored _ _ hc.symm
    have e0 : (0 : UInt8).toNat = 0 := rfl
    simp only [Cksum.leSum, u8_toNat, e0] at hS ⊢
    rw [← hS]
    congr 1
    omega

/-! ### Reaching the transport protocol -/

/-- What `ofp_packet_input` does with the result of the processing. -/
def finish (env : Env) (r : Code × St) : Code × St :=
  match r.1 with
  | .drop => (.drop, r.2.emit (.free 0))
  | .processed => r
  | .cont => if env.sp && env.spOk 0 then (.processed, r.2.emit (.slow 0)) else (.drop, r.2.emit (.free 0))

theorem local_step {env p} (h : Local env p) :
    packetInput env p = finish env (transport env (ipOutput env depth) 0 p ⟨1, []⟩) := by
  have e : ipv4Input env 0 p ⟨1, []⟩ = transport env (ipOutput env depth) 0 p ⟨1, []⟩ := by
    unfold ipv4Input
    rw [h.sum, if_neg (by simp), if_neg h.uni, h.ours, if_pos rfl]
    unfold localIn
    rw [if_neg (by rw [h.whole]; simp)]
    unfold deliverUp
    rw [h.inPol, if_neg (by simp), h.hook, h.hook4]
  unfold packetInput finish
  rw [e]
  rfl

theorem icmp_step {env out id p t} {s : St} (h : IcmpMsg p t) :
    transport env out id p s = icmpType env out id p t (((p.body ++ env.beyond).drop 1).headD 0).toNat s := by
  have hbl := bytes_length p
  have h8 : 8 ≤ p.body.length := by have := h.room; have := h.data; omega
  have hne : p.body ≠ [] := by intro h; rw [h] at h8; simp at h8
  unfold transport
  rw [if_pos h.proto]
  unfold icmpInput
  have hs := h.size
  have hd := h.data
  have e := Cksum.cksum_val env.al p.bytes [] [] p.hlen (p.hdr.len - p.hlen) (by omega) (by omega) (by simp) (by decide)
    (.inl ⟨rfl, by omega⟩)
  have e2 : p.bytes.drop p.hlen = p.body := by rw [Pkt.bytes, ← header_length, List.drop_left]
  simp only [List.append_nil, List.flatten_nil, e2, le_of_spec h.sum] at e
  rw [e]
  unfold icmpSwitch
  rw [if_neg (show ¬ p.hdr.len < 8 by have := h.room; omega), headD_append hne, h.type, if_neg (by omega)]
  rfl

/-- Output of a message of this host that nothing holds up. -/
theorem leaves_step {env n q nh d gw id} {s : St} (h : Leaves env id q nh d gw) (hs : q.hdr.src ≠ 0)
    (o : Option Nh) (ho : pickNh env q o = some nh) :
    ipOutput env (n + 1) id q o s = (.processed, s.emit (.tx id d gw (trimTail (fillSum env (setId q (env.ipId id)))))) := by
  unfold ipOutput
  rw [h.pol]
  show outCommon env _ id q o true .bypass s = _
  unfold outCommon
  rw [h.hook]
  show outRoute env _ id q o true s = _
  unfold outRoute
  have ef : findRoute env q o = some (nh, d, q) := by
    unfold findRoute
    rw [ho]
    simp only [h.dev, hs, if_false]
  rw [ef]
  simp only [outPkt, if_true]
  rw [if_neg (show ¬ (setId q (env.ipId id)).hdr.len > (env.dev d).mtu by have := h.mtu; show ¬ q.hdr.len > _; omega)]
  unfold outContinue
  simp only [if_true]
  rw [if_neg (by rw [h.ether]; simp)]
  unfold addEth
  simp only
  have e1 : (trimTail (fillSum env (setId q (env.ipId id)))).hdr.dst = q.hdr.dst := rfl
  have e2 : hop nh.gw (trimTail (fillSum env (setId q (env.ipId id)))) = gw := h.hop.symm
  rw [e1, e2, h.room, if_neg (by simp)]
  have es : ∀ p, ethSend env id p d gw false s = (.processed, s.emit (.tx id d gw p)) := by
    intro p
    unfold ethSend
    rw [h.ether, if_neg (by simp), if_neg (by simp)]
  by_cases hmc : multicast q.hdr.dst = true
  · rw [if_pos hmc, es]
  · rw [if_neg hmc]
    obtain ⟨ho, hm⟩ := h.way.resolve_left hmc
    rw [h.ether, if_neg (by simp [ho]), hm, if_pos rfl, es]

/-- The reply to an echo request, before the IP output: type 0, addresses exchanged, options removed. -/
def echoReply (env : Env) (p : Pkt) : Pkt := fillIcmp env (replyPkt { p with body := p.body.set 0 0 } p.hdr.dst)

theorem take_take_drop (l : List UInt8) (n : Nat) (h : 8 ≤ n) (h' : n ≤ l.length) (x y : UInt8) :
    ((l.set 0 0).take 2 ++ [x, y] ++ (l.set 0 0).drop 4).take n = [0, l.getD 1 0, x, y] ++ (l.take n).drop 4 := by
  obtain ⟨m, rfl⟩ : ∃ m, n = m + 4 := ⟨n - 4, by omega⟩
  match l, h' with
  | a :: b :: c :: d :: r, _ => simp
  | [], h' => simp at h'
  | [_], h' => simp at h'
  | [_, _], h' => simp at h'
  | [_, _, _], h' => simp at h'

/-- **C80 (echo).** A ping to one of the host's addresses that finds its way back is answered in the same buffer by exactly
one packet: type 0, same code, identifier, sequence number and data, source and destination exchanged, TTL 64, without
options, with valid ICMP and IP checksums. -/
theorem echo_reply (env : Env) (p : Pkt) (n : Nh) (d gw : Nat) (hl : Local env p) (hp : IcmpMsg p 8)
    (hown : env.own p.dev p.hdr.dst = true) (hd0 : p.hdr.dst ≠ 0) (hr : env.route (env.dev p.dev).vrf p.hdr.src = some n)
    (hlv : Leaves env 0 (echoReply env p) n d gw) (hlen : p.hdr.len ≤ 65535) :
    ∃ q : Pkt, packetInput env p = (.processed, ⟨1, [.tx 0 d gw q]⟩) ∧
      q.hdr.src = p.hdr.dst ∧ q.hdr.dst = p.hdr.src ∧ q.hdr.ttl = 64 ∧ q.hdr.proto = 1 ∧ q.hdr.tos = p.hdr.tos ∧
      q.hdr.off = p.hdr.off ∧ q.opts = [] ∧ q.hdr.len = 20 + (p.hdr.len - p.hlen) ∧
      (∃ x y, q.body = [0, p.body.getD 1 0, x, y] ++ (p.body.take (p.hdr.len - p.hlen)).drop 4) ∧
      Cksum.Spec.checksum q.body = 0 ∧ Cksum.Spec.checksum q.header = 0 := by
  have hroom := hp.room
  have hbl := bytes_length p
  have hdata := hp.data
  have hhl : p.hlen = 20 + p.opts.length := rfl
  have hsize := hp.size
  -- the reply
  let r : Pkt := replyPkt { p with body := p.body.set 0 0 } p.hdr.dst
  have rlen : r.hdr.len = 20 + (p.hdr.len - p.hlen) := by
    show (p.hdr.len + 65536 - p.opts.length) % 65536 = _
    omega
  have rhl : r.hlen = 20 := rfl
  have rbl : r.body.length = p.body.length := by show (p.body.set 0 0).length = _; simp
  obtain ⟨x, y, hbody, hck⟩ := fillIcmp_spec env r (by omega) (by omega) (by rw [bytes_length]; omega)
  have hq : echoReply env p = fillIcmp env r := rfl
  have qh : (echoReply env p).hdr = r.hdr := by rw [hq, fillIcmp_hdr]
  have qo : (echoReply env p).opts = [] := by rw [hq, fillIcmp_opts]; rfl
  have qd : (echoReply env p).dev = p.dev := by rw [hq, fillIcmp_dev]; rfl
  have qhl : (echoReply env p).hlen = 20 := by unfold Pkt.hlen; rw [qo]; rfl
  have hout := leaves_step (n := 2) (s := ⟨1, []⟩) hlv (by rw [qh]; exact hd0) none
    (by unfold pickNh; rw [qd, qh]; exact hr)
  have hn : r.hdr.len - r.hlen = p.hdr.len - p.hlen := by omega
  refine ⟨trimTail (fillSum env (setId (echoReply env p) (env.ipId 0))), ?_, ?_⟩
  · rw [local_step hl, icmp_step hp]
    have e : icmpType env (ipOutput env depth) 0 p 8 (((p.body ++ env.beyond).drop 1).headD 0).toNat ⟨1, []⟩ =
        (.processed, ⟨1, [.tx 0 d gw (trimTail (fillSum env (setId (echoReply env p) (env.ipId 0))))]⟩) := by
      unfold icmpType
      simp only [show ¬ (8 : Nat) = 3 by decide, show ¬ (8 : Nat) = 11 by decide, show ¬ (8 : Nat) = 12 by decide,
        show ¬ (8 : Nat) = 4 by decide, if_false, if_true]
      unfold reflect
      rw [if_pos (show env.own ({ p with body := p.body.set 0 0 } : Pkt).dev ({ p with body := p.body.set 0 0 } : Pkt).hdr.dst = true from hown)]
      unfold reflectSend
      show (Code.processed, (ipOutput env 3 0 (echoReply env p) none ⟨1, []⟩).2) = _
      rw [hout]
      rfl
    rw [e]
    rfl
  · have fh : (trimTail (fillSum env (setId (echoReply env p) (env.ipId 0)))).body = (fillIcmp env r).body.take (p.hdr.len - p.hlen) := by
      show (echoReply env p).body.take ((echoReply env p).hdr.len - (echoReply env p).hlen) = _
      rw [qh, qhl, rlen, hq, Nat.add_sub_cancel_left]
    have rb : r.body = p.body.set 0 0 := rfl
    refine ⟨?_, ?_, ?_, ?_, ?_, ?_, qo, ?_, ?_, ?_, ?_⟩
    · show (echoReply env p).hdr.src = _; rw [qh]; rfl
    · show (echoReply env p).hdr.dst = _; rw [qh]; rfl
    · show (echoReply env p).hdr.ttl = _; rw [qh]; rfl
    · show (echoReply env p).hdr.proto = _; rw [qh]; exact hp.proto
    · show (echoReply env p).hdr.tos = _; rw [qh]; rfl
    · show (echoReply env p).hdr.off = _; rw [qh]; rfl
    · show (echoReply env p).hdr.len = _; rw [qh]; exact rlen
    · refine ⟨x, y, ?_⟩
      rw [fh, hbody, rb, take_take_drop _ _ (by omega) hdata]
    · rw [fh, ← hn]; exact hck
    · rw [trim_header]
      exact fillSum_valid env _ (by show (echoReply env p).opts.length % 4 = 0; rw [qo]; rfl) (by show (echoReply env p).opts.length ≤ 40; rw [qo]; decide)

/-! ### C79: ICMP errors -/

/-- The ICMP error about `p` with source address `a`, before the IP output. -/
def errReply (env : Env) (p : Pkt) (t c dst mtu a : Nat) : Pkt :=
  fillIcmp env (replyPkt (errPkt env (fillSum env p) t c dst mtu) a)

/-- The 8 bytes after the quoted header: the first `quoteLen` bytes of the payload, completed by what the copy of the
original packet has at this place. -/
def quoted (env : Env) (p : Pkt) : List UInt8 :=
  (p.body ++ env.beyond).take (quoteLen p) ++ (((p.body ++ env.beyond).drop (p.hlen + 8 + quoteLen p)).take (8 - quoteLen p))

theorem errPkt_body (env : Env) (p : Pkt) (t c dst mtu : Nat) :
    ∃ x y, (errPkt env (fillSum env p) t c dst mtu).body =
      [u8 t, u8 (errCode t c), x, y] ++ errWord t c dst mtu ++ (fillSum env p).header ++ quoted env p := by
  have e := mem_drop env (fillSum env p) 0
  rw [Nat.add_zero, List.drop_zero] at e
  have e' := mem_drop env (fillSum env p) (p.hlen + 8 + quoteLen p)
  have hq' : quoteLen (fillSum env p) = quoteLen p := rfl
  have eb : (fillSum env p).body = p.body := rfl
  have eh : (fillSum env p).hlen = p.hlen := rfl
  have ea : p.hlen + (p.hlen + 8 + quoteLen p) = 2 * p.hlen + 8 + quoteLen p := by omega
  rw [eb, eh] at e e'
  rw [ea] at e'
  unfold errPkt
  refine ⟨(((fillSum env p).mem env).drop ((fillSum env p).hlen + 2)).headD 0, (((fillSum env p).mem env).drop ((fillSum env p).hlen + 3)).headD 0, ?_⟩
  simp only
  rw [hq', eh, e, e']
  simp [quoted]

/-- An ICMP error that finds its way to the sender is exactly one packet; whatever bytes are quoted. -/
theorem icmp_error_packet (env : Env) (p : Pkt) (t c dst mtu k : Nat) (n : Nh) (d gw : Nat) (s : St)
    (hq : errQuiet env p t = false) (ha : env.allocOk s.next = true) (h8 : (quoted env p).length = 8)
    (h4 : p.opts.length % 4 = 0) (h40 : p.opts.length ≤ 40)
    (hown : env.own p.dev p.hdr.dst = false) (hr : env.route (env.dev p.dev).vrf p.hdr.src = some n)
    (hd0 : (env.dev d).addr ≠ 0) (hlv : Leaves env s.next (errReply env p t c dst mtu (env.dev d).addr) n d gw) :
    ∃ q : Pkt, icmpError env (ipOutput env (k + 1)) p t c dst mtu s =
        ⟨s.next + 1, s.evs ++ [.alloc s.next] ++ (if p.bytes.length < 2 * p.hlen + 16 then [.outside s.next] else []) ++
          [.tx s.next d gw q]⟩ ∧
      q.hdr.src = (env.dev d).addr ∧ q.hdr.dst = p.hdr.src ∧ q.hdr.ttl = 64 ∧ q.hdr.proto = 1 ∧ q.hdr.tos = 0 ∧ q.opts = [] ∧
      q.hdr.off = p.hdr.off ∧ q.hdr.len = 20 + q.body.length ∧
      (∃ x y, q.body = [u8 t, u8 (errCode t c), x, y] ++ errWord t c dst mtu ++ (fillSum env p).header ++ quoted env p) ∧
      Cksum.Spec.checksum (fillSum env p).header = 0 ∧
      Cksum.Spec.checksum q.body = 0 ∧ Cksum.Spec.checksum q.header = 0 := by
  obtain ⟨x, y, eb⟩ := errPkt_body env p t c dst mtu
  have hhl : p.hlen = 20 + p.opts.length := rfl
  let r : Pkt := replyPkt (errPkt env (fillSum env p) t c dst mtu) (env.dev d).addr
  have rb : r.body = [u8 t, u8 (errCode t c), x, y] ++ errWord t c dst mtu ++ (fillSum env p).header ++ quoted env p := eb
  have rbl : r.body.length = 16 + p.hlen := by
    rw [rb]
    simp only [List.length_append, errWord_length, header_length, h8, List.length_cons, List.length_nil]
    have : (fillSum env p).hlen = p.hlen := rfl
    omega
  have rlen : r.hdr.len = 36 + p.hlen := by
    show ((2 * (fillSum env p).hlen + 16) % 65536 + 65536 - (fillSum env p).opts.length) % 65536 = _
    have e1 : (fillSum env p).hlen = p.hlen := rfl
    have e2 : (fillSum env p).opts = p.opts := rfl
    rw [e1, e2]
    omega
  have rhl : r.hlen = 20 := rfl
  obtain ⟨x', y', hbody, hck⟩ := fillIcmp_spec env r (by omega) (by omega) (by rw [bytes_length]; omega)
  have hqr : errReply env p t c dst mtu (env.dev d).addr = fillIcmp env r := rfl
  have qh : (errReply env p t c dst mtu (env.dev d).addr).hdr = r.hdr := by rw [hqr, fillIcmp_hdr]
  have qo : (errReply env p t c dst mtu (env.dev d).addr).opts = [] := by rw [hqr, fillIcmp_opts]; rfl
  have qhl : (errReply env p t c dst mtu (env.dev d).addr).hlen = 20 := by unfold Pkt.hlen; rw [qo]; rfl
  have fb : (trimTail (fillSum env (setId (errReply env p t c dst mtu (env.dev d).addr) (env.ipId s.next)))).body =
      (fillIcmp env r).body := by
    show (errReply env p t c dst mtu (env.dev d).addr).body.take ((errReply env p t c dst mtu (env.dev d).addr).hdr.len -
      (errReply env p t c dst mtu (env.dev d).addr).hlen) = _
    rw [qh, qhl, rlen, hqr]
    apply List.take_of_length_le
    rw [fillIcmp_len, rbl]
    omega
  refine ⟨trimTail (fillSum env (setId (errReply env p t c dst mtu (env.dev d).addr) (env.ipId s.next))), ?_,
    ?_, ?_, ?_, ?_, ?_, qo, ?_, ?_, ⟨x', y', ?_⟩, fillSum_valid env p h4 h40, ?_, ?_⟩
  · unfold icmpError
    rw [hq, if_neg (by simp), ha, if_neg (by simp)]
    simp only
    unfold reflect
    rw [if_neg (show ¬ env.own (errPkt env (fillSum env p) t c dst mtu).dev (errPkt env (fillSum env p) t c dst mtu).hdr.dst = true by
      show ¬ env.own p.dev p.hdr.dst = true; rw [hown]; simp)]
    rw [show env.route (env.dev (errPkt env (fillSum env p) t c dst mtu).dev).vrf (errPkt env (fillSum env p) t c dst mtu).hdr.src = some n from hr]
    simp only [hlv.dev]
    unfold reflectSend
    have := fun s1 => leaves_step (n := k) (s := s1) hlv (by rw [qh]; exact hd0) (some n) rfl
    show (ipOutput env (k + 1) s.next (errReply env p t c dst mtu (env.dev d).addr) (some n) _).2 = _
    rw [this]
    split <;> simp [St.emit, St.alloc]
  · show (errReply env p t c dst mtu (env.dev d).addr).hdr.src = _; rw [qh]; rfl
  · show (errReply env p t c dst mtu (env.dev d).addr).hdr.dst = _; rw [qh]; rfl
  · show (errReply env p t c dst mtu (env.dev d).addr).hdr.ttl = _; rw [qh]; rfl
  · show (errReply env p t c dst mtu (env.dev d).addr).hdr.proto = _; rw [qh]; rfl
  · show (errReply env p t c dst mtu (env.dev d).addr).hdr.tos = _; rw [qh]; rfl
  · show (errReply env p t c dst mtu (env.dev d).addr).hdr.off = _; rw [qh]; rfl
  · show (errReply env p t c dst mtu (env.dev d).addr).hdr.len = _
    rw [qh, rlen, fb, fillIcmp_len, rbl]; omega
  · rw [fb, hbody, rb]
    simp
  · rw [fb]
    rw [List.take_of_length_le (by rw [fillIcmp_len, rbl]; omega)] at hck
    exact hck
  · rw [trim_header]
    exact fillSum_valid env _ (by show (errReply env p t c dst mtu (env.dev d).addr).opts.length % 4 = 0; rw [qo]; rfl)
      (by show (errReply env p t c dst mtu (env.dev d).addr).opts.length ≤ 40; rw [qo]; decide)

theorem quoted_good (env : Env) (p : Pkt) (h8 : 8 ≤ p.body.length) (hq : quoteLen p = 8) : quoted env p = p.body.take 8 := by
  unfold quoted
  rw [hq, List.take_append_of_le_length h8]
  simp

/-- **C79 (partial).** An ICMP error about a packet with at least 8 bytes of payload (and a length field for which the
byte-order mistake in `quoteLen` has no effect) that finds its way to the sender is exactly one packet: source address that
of the outgoing interface, destination the sender, type, code and next-hop MTU as requested, followed by the header of the
packet (checksum refreshed) and the first 8 bytes of its payload; both checksums are valid. -/
theorem icmp_error_content_partial (env : Env) (p : Pkt) (t c dst mtu k : Nat) (n : Nh) (d gw : Nat) (s : St)
    (hq : errQuiet env p t = false) (ha : env.allocOk s.next = true) (h8 : 8 ≤ p.body.length) (hql : quoteLen p = 8)
    (h4 : p.opts.length % 4 = 0) (h40 : p.opts.length ≤ 40)
    (hown : env.own p.dev p.hdr.dst = false) (hr : env.route (env.dev p.dev).vrf p.hdr.src = some n)
    (hd0 : (env.dev d).addr ≠ 0) (hlv : Leaves env s.next (errReply env p t c dst mtu (env.dev d).addr) n d gw) :
    ∃ q : Pkt, icmpError env (ipOutput env (k + 1)) p t c dst mtu s =
        ⟨s.next + 1, s.evs ++ [.alloc s.next] ++ (if p.bytes.length < 2 * p.hlen + 16 then [.outside s.next] else []) ++
          [.tx s.next d gw q]⟩ ∧
      q.hdr.src = (env.dev d).addr ∧ q.hdr.dst = p.hdr.src ∧ q.hdr.ttl = 64 ∧ q.hdr.proto = 1 ∧ q.hdr.tos = 0 ∧ q.opts = [] ∧
      q.hdr.len = 20 + q.body.length ∧
      (∃ x y, q.body = [u8 t, u8 (errCode t c), x, y] ++ errWord t c dst mtu ++ (fillSum env p).header ++ p.body.take 8) ∧
      Cksum.Spec.checksum (fillSum env p).header = 0 ∧
      Cksum.Spec.checksum q.body = 0 ∧ Cksum.Spec.checksum q.header = 0 := by
  have e := quoted_good env p h8 hql
  obtain ⟨q, h1, h2, h3, h4, h5, h6, h7, _, h9, h10, h11, h12, h13⟩ := icmp_error_packet env p t c dst mtu k n d gw s hq ha
    (by rw [e, List.length_take]; omega) h4 h40 hown hr hd0 hlv
  rw [e] at h10
  exact ⟨q, h1, h2, h3, h4, h5, h6, h7, h9, h10, h11, h12, h13⟩

/-- **C79, expired packets.** A packet in transit with TTL 0 or 1 is freed and answered by exactly one time exceeded
message (type 11, code 0) in a new buffer, quoting its header and the first 8 bytes of its payload (same restrictions). -/
theorem time_exceeded_partial (env : Env) (p : Pkt) (n : Nh) (d : Nat) (n' : Nh) (d' gw : Nat) (h : Transit env p n d)
    (ht : p.hdr.ttl ≤ 1)
    (hq : errQuiet env p 11 = false) (ha : env.allocOk 1 = true) (h8 : 8 ≤ p.body.length) (hql : quoteLen p = 8)
    (h4 : p.opts.length % 4 = 0) (h40 : p.opts.length ≤ 40)
    (hown : env.own p.dev p.hdr.dst = false) (hr : env.route (env.dev p.dev).vrf p.hdr.src = some n')
    (hd0 : (env.dev d').addr ≠ 0) (hlv : Leaves env 1 (errReply env p 11 0 0 0 (env.dev d').addr) n' d' gw)
    (hin : 2 * p.hlen + 16 ≤ p.bytes.length) :
    ∃ q : Pkt, packetInput env p = (.drop, ⟨2, [.alloc 1, .tx 1 d' gw q, .free 0]⟩) ∧
      q.hdr.src = (env.dev d').addr ∧ q.hdr.dst = p.hdr.src ∧
      (∃ x y, q.body = [11, 0, x, y, 0, 0, 0, 0] ++ (fillSum env p).header ++ p.body.take 8) ∧
      Cksum.Spec.checksum q.body = 0 ∧ Cksum.Spec.checksum q.header = 0 := by
  obtain ⟨q, h1, h2, h3, _, _, _, _, _, ⟨x, y, h10⟩, _, h12, h13⟩ := icmp_error_content_partial env p 11 0 0 0 2 n' d' gw ⟨1, []⟩
    hq ha h8 hql h4 h40 hown hr hd0 hlv
  refine ⟨q, ?_, h2, h3, ⟨x, y, ?_⟩, h12, h13⟩
  · rw [transit_expired env p n d h ht]
    show (Code.drop, (icmpError env (ipOutput env (2 + 1)) p 11 0 0 0 ⟨1, []⟩).emit (.free 0)) = _
    rw [h1, if_neg (by omega)]
    simp only [St.emit, List.nil_append, List.append_nil, List.cons_append]
  · rw [h10, show errWord 11 0 0 0 = [0, 0, 0, 0] from by decide, show u8 11 = 11 from by decide,
      show u8 (errCode 11 0) = 0 from by decide]
    simp only [List.append_assoc, List.cons_append, List.nil_append]

/-- **C77, fragmentation needed.** A packet in transit with the don't-fragment bit that is longer than the MTU of the
outgoing interface is freed and answered by exactly one message (type 3, code 4) that carries this MTU, the forwarded header
and the first 8 bytes of the payload (same restrictions). -/
theorem frag_needed_partial (env : Env) (p : Pkt) (n : Nh) (d : Nat) (n' : Nh) (d' gw : Nat) (h : Transit env p n d)
    (ht : 2 ≤ p.hdr.ttl) (hh : env.hookOut (decTtl p) = .cont) (hs : p.hdr.src ≠ 0) (hm : (env.dev d).mtu < p.hdr.len)
    (hm0 : 0 < (env.dev d).mtu)
    (hd : df p = true)
    (hq : errQuiet env (decTtl p) 3 = false) (ha : env.allocOk 1 = true) (h8 : 8 ≤ p.body.length) (hql : quoteLen p = 8)
    (h4 : p.opts.length % 4 = 0) (h40 : p.opts.length ≤ 40)
    (hown : env.own p.dev p.hdr.dst = false) (hr : env.route (env.dev p.dev).vrf p.hdr.src = some n')
    (hd0 : (env.dev d').addr ≠ 0)
    (hlv : Leaves env 1 (errReply env (decTtl p) 3 4 0 (env.dev d).mtu (env.dev d').addr) n' d' gw)
    (hin : 2 * p.hlen + 16 ≤ p.bytes.length) :
    ∃ q : Pkt, packetInput env p = (.drop, ⟨2, [.alloc 1, .tx 1 d' gw q, .free 0]⟩) ∧
      q.hdr.src = (env.dev d').addr ∧ q.hdr.dst = p.hdr.src ∧
      (∃ x y, q.body = [3, 4, x, y, 0, 0] ++ b16 (env.dev d).mtu ++ (fillSum env (decTtl p)).header ++ p.body.take 8) ∧
      Cksum.Spec.checksum q.body = 0 ∧ Cksum.Spec.checksum q.header = 0 := by
  obtain ⟨q, h1, h2, h3, _, _, _, _, _, ⟨x, y, h10⟩, _, h12, h13⟩ := icmp_error_content_partial env (decTtl p) 3 4 0 (env.dev d).mtu 2 n' d' gw ⟨1, []⟩
    hq ha h8 hql h4 h40 hown hr hd0 hlv
  refine ⟨q, ?_, h2, h3, ⟨x, y, ?_⟩, h12, h13⟩
  · rw [transit_needfrag env p n d h ht hh hs hm hd]
    show (Code.drop, (icmpError env (ipOutput env (2 + 1)) (decTtl p) 3 4 0 (env.dev d).mtu ⟨1, []⟩).emit (.free 0)) = _
    have e1 : (decTtl p).bytes.length = p.bytes.length := by rw [bytes_length, bytes_length]; rfl
    have e2 : (decTtl p).hlen = p.hlen := rfl
    rw [h1, if_neg (by rw [e1, e2]; omega)]
    simp only [St.emit, List.nil_append, List.append_nil, List.cons_append]
  · rw [h10]
    have : errWord 3 4 0 (env.dev d).mtu = [0, 0] ++ b16 (env.dev d).mtu := by
      unfold errWord
      rw [if_neg (by decide), if_neg (by decide), if_pos ⟨rfl, rfl, by omega⟩]
    have eb : (decTtl p).body = p.body := rfl
    rw [this, eb, show u8 3 = 3 from by decide, show u8 (errCode 3 4) = 4 from by decide]
    simp only [List.append_assoc, List.cons_append, List.nil_append]

end Verif.Fwd

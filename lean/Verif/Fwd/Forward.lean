import Verif.Fwd.Icmp
import Verif.Cksum.PropsPkt
/-! # C76, C77: forwarding -/
namespace Verif.Fwd

/-! ### What ICMP messages the output sends -/

/-- An ICMP error of this host for address `a`. -/
def ErrTo (a : Nat) (q : Pkt) : Prop := IsErr q ∧ q.hdr.ttl = 64 ∧ q.hdr.dst = a ∧ q.opts = []

/-- Something for `a`, from this host. -/
def MsgTo (a : Nat) (_ : Nat) (q : Pkt) : Prop := q.hdr.proto = 1 ∧ q.hdr.ttl = 64 ∧ q.hdr.dst = a

theorem errTo_reply {env p t c dst mtu a} (ht : infoType (t % 256) = false) :
    ErrTo p.hdr.src (fillIcmp env (replyPkt (errPkt env (fillSum env p) t c dst mtu) a)) := by
  refine ⟨reply_isErr (errPkt_isErr env _ t c dst mtu ht), ?_, ?_, ?_⟩
  · rw [fillIcmp_hdr]; rfl
  · rw [fillIcmp_hdr]; rfl
  · rw [fillIcmp_opts]; rfl

theorem link_of {Q env d q} (h : Q d q) (h' : Q d (trimTail q)) : Link Q env d q := ⟨fun _ => h, fun _ => h'⟩

theorem msgTo_link {env a d q q'} (h : q'.hdr.proto = q.hdr.proto ∧ q'.hdr.ttl = q.hdr.ttl ∧ q'.hdr.dst = q.hdr.dst)
    (hq : MsgTo a d q) : Link (MsgTo a) env d q' := by
  obtain ⟨h1, h2, h3⟩ := h
  have : MsgTo a d q' := by unfold MsgTo at *; rw [h1, h2, h3]; exact hq
  exact link_of this this

theorem ipOutput_errTo (env : Env) (a n : Nat) : OutSent (ErrTo a) (MsgTo a) (ipOutput env (n + 1)) := by
  refine ipOutput_sent ?_ ?_ ?_
  · intro id p hp d q hl _
    obtain ⟨_, _, _, x, i, h4, _⟩ := hl
    refine msgTo_link (q := q) ⟨rfl, rfl, rfl⟩ ?_
    unfold MsgTo
    rw [h4]
    exact ⟨hp.1.1, hp.2.1, hp.2.2.1⟩
  · intro id p hp d q hl _ _ f k _
    obtain ⟨_, _, _, x, i, h4, _⟩ := hl
    refine msgTo_link (q := q) ⟨rfl, rfl, rfl⟩ ?_
    unfold MsgTo
    rw [h4]
    exact ⟨hp.1.1, hp.2.1, hp.2.2.1⟩
  · intro id p hp d q hl _ _ s
    rw [icmpError_quiet (quiet_err (hl.isErr hp.1))]
    exact Sent.refl _ s

theorem icmpError_to {env p t c dst mtu n} {s : St} (ht : infoType (t % 256) = false) :
    Sent (MsgTo p.hdr.src) s (icmpError env (ipOutput env (n + 1)) p t c dst mtu s) :=
  icmpError_sent (ipOutput_errTo env p.hdr.src n) (fun _ _ => errTo_reply ht)

/-! ### C76 -/

theorem decTtl_facts (p : Pkt) : (decTtl p).opts = p.opts ∧ (decTtl p).body = p.body ∧ (decTtl p).hdr.ttl = p.hdr.ttl - 1 ∧
    (decTtl p).hdr.dst = p.hdr.dst ∧ (decTtl p).hdr.proto = p.hdr.proto ∧ (decTtl p).hdr.tos = p.hdr.tos ∧
    (decTtl p).hdr.id = p.hdr.id ∧ (decTtl p).hdr.src = p.hdr.src ∧ (decTtl p).hdr.len = p.hdr.len ∧
    (decTtl p).hdr.off = p.hdr.off ∧ (decTtl p).hlen = p.hlen := by
  refine ⟨rfl, rfl, rfl, rfl, rfl, rfl, rfl, rfl, rfl, rfl, rfl⟩

theorem left_fwd {env id p d q} (h : Left env id (decTtl p) false d q) :
    q.opts = p.opts ∧ q.body = p.body ∧ q.hdr.ttl = p.hdr.ttl - 1 ∧ q.hdr.dst = p.hdr.dst ∧ q.hdr.proto = p.hdr.proto ∧
    q.hdr.tos = p.hdr.tos ∧ q.hdr.id = p.hdr.id ∧ (q.hdr.src = p.hdr.src ∨ p.hdr.src = 0) ∧ q.hdr.len = p.hdr.len ∧
    q.hdr.off = p.hdr.off ∧ q.hlen = p.hlen ∧ (p.hdr.src ≠ 0 → q.hdr.src = p.hdr.src) := by
  obtain ⟨h1, h2, _, x, i, h4, h5, h6, h7, _⟩ := h
  have hi : i = p.hdr.id := h7 rfl
  have hs : p.hdr.src ≠ 0 → x = p.hdr.src := h5
  rw [h4]
  refine ⟨h1, h2, rfl, rfl, rfl, rfl, hi, ?_, rfl, rfl, ?_, hs⟩
  · by_cases h0 : p.hdr.src = 0
    · exact .inr h0
    · exact .inl (hs h0)
  · unfold Pkt.hlen; rw [h1]; rfl

theorem fragPkt_trim (p : Pkt) (f : Frag.Fragment) : trimTail (fragPkt p f) = fragPkt p f := by
  unfold trimTail fragPkt Pkt.hlen Frag.Fragment.len
  congr 1
  apply List.take_of_length_le
  simp only
  omega

theorem fwd_frag {env id p d q f k} (h : Left env id (decTtl p) false d q) (ht : 2 ≤ p.hdr.ttl) (hd : df q = false)
    (hf : FragOf q (env.dev d).mtu f k) : Forwarded p (fillSum env (fragPkt q f)) := by
  obtain ⟨e1, e2, e3, e4, e5, e6, e7, e8, e9, e10, e11, _⟩ := left_fwd h
  refine ⟨?_, ?_, e4, e5, e6, e7, e8, .inr ⟨?_, k, hf.pos, hf.ne, ?_, ?_, ?_, rfl, ?_⟩⟩
  · show q.hdr.ttl + 1 = _; omega
  · show 1 ≤ q.hdr.ttl; omega
  · unfold df at hd ⊢; rw [← e10]; exact hd
  · have := hf.announced; rw [e9, e11] at this; exact this
  · have := hf.data; rw [e2] at this; exact this
  · have := hf.inside; rw [e2] at this; exact this
  · have := hf.field; rw [e10] at this; exact this

/-- **C76.** Every packet sent while a packet that is not for this host is processed is either this packet, forwarded
(`Forwarded`: TTL reduced by one, still at least 1; nothing else changed, or a fragment of it), or an ICMP message for its
sender.  In particular a packet received with TTL 0 or 1 is never forwarded. -/
theorem forwarded_packet (env : Env) (p : Pkt) (ho : isOurs env p = false) :
    AllSent (fun _ q => Forwarded p q ∨ Report p q) (packetInput env p).2.evs := by
  refine notOurs_sent ho ?_
  refine forward_sent ?_ ?_ ?_ ?_
  · intro ht d q h _
    obtain ⟨e1, e2, e3, e4, e5, e6, e7, e8, e9, e10, e11, _⟩ := left_fwd h
    refine link_of (.inl ⟨by omega, by omega, e4, e5, e6, e7, e8, .inl ⟨e1, e9, e10, .inl e2⟩⟩)
      (.inl ⟨?_, ?_, e4, e5, e6, e7, e8, .inl ⟨e1, e9, e10, .inr ?_⟩⟩)
    · show q.hdr.ttl + 1 = _; omega
    · show 1 ≤ q.hdr.ttl; omega
    · show q.body.take (q.hdr.len - q.hlen) = _
      rw [e2, e9, e11]
  · intro ht d q h hd _ f k hf
    have := fwd_frag h ht hd hf
    refine link_of (.inl this) (.inl ?_)
    have e : trimTail (fillSum env (fragPkt q f)) = fillSum env (fragPkt q f) := by
      have := fragPkt_trim q f
      unfold trimTail fillSum at *
      have h2 := congrArg Pkt.body this
      simp only at h2 ⊢
      congr 1
    rw [e]
    exact this
  · intro ht d q h hd _ s
    obtain ⟨_, _, _, _, _, _, _, e8, _⟩ := left_fwd h
    refine (icmpError_to (by decide)).mono (fun _ _ h => .inr ⟨h.1, h.2.1, ?_⟩)
    rcases e8 with e | e
    · exact .inl (h.2.2.trans e)
    · exact .inr e
  · intro _ s
    exact (icmpError_to (by decide)).mono (fun _ _ h => .inr ⟨h.1, h.2.1, .inl h.2.2⟩)

theorem transit_step {env p n d} (h : Transit env p n d) (ht : 2 ≤ p.hdr.ttl) (hh : env.hookOut (decTtl p) = .cont) (s : St) :
    ipv4Input env 0 p s = outRoute env (fun q mtu s => icmpError env (ipOutput env depth) q 3 4 0 mtu s) 0 (decTtl p) (some n) false s := by
  unfold ipv4Input
  rw [h.sum, if_neg (by simp), if_neg h.uni, h.other, if_neg (by simp)]
  unfold forward
  simp only
  rw [h.inPol, if_neg (by simp), h.hook, h.outPol, h.route]
  simp only [Option.isNone_some, Bool.false_eq_true, false_and, if_false, reduceCtorEq]
  rw [if_neg (by omega)]
  unfold outCommon
  rw [hh]

theorem findRoute_some {env p n d} (hd : n.dev = some d) (hs : p.hdr.src ≠ 0) : findRoute env p (some n) = some (n, d, p) := by
  simp [findRoute, pickNh, hd, hs]

/-- **C76, what is sent.** A packet in transit with TTL at least 2 that fits the MTU of the outgoing interface and whose
next hop is resolved is sent there, with its TTL reduced by one, trailing bytes removed, and nothing else happens. -/
theorem transit_forwarded (env : Env) (p : Pkt) (n : Nh) (d : Nat) (h : Transit env p n d) (ht : 2 ≤ p.hdr.ttl)
    (hh : env.hookOut (decTtl p) = .cont) (hs : p.hdr.src ≠ 0) (hm : p.hdr.len ≤ (env.dev d).mtu)
    (hk : (env.dev d).kind = .ether) (hr : env.roomOk 0 = true) (hmc : multicast p.hdr.dst = false)
    (ha : p.hdr.dst ∉ (env.dev d).addrs) (hmac : env.mac d (if n.gw = 0 then p.hdr.dst else n.gw) = true) :
    packetInput env p = (.processed, ⟨1, [.tx 0 d (if n.gw = 0 then p.hdr.dst else n.gw)
      { hdr := (decTtl p).hdr, opts := p.opts, body := p.body.take (p.hdr.len - p.hlen), dev := p.dev }]⟩) ∧
    (decTtl p).hdr.ttl + 1 = p.hdr.ttl := by
  refine ⟨?_, by show p.hdr.ttl - 1 + 1 = _; omega⟩
  have e : ipv4Input env 0 p ⟨1, []⟩ = (.processed, ⟨1, [.tx 0 d (if n.gw = 0 then p.hdr.dst else n.gw)
      { hdr := (decTtl p).hdr, opts := p.opts, body := p.body.take (p.hdr.len - p.hlen), dev := p.dev }]⟩) := by
    rw [transit_step h ht hh]
    unfold outRoute
    rw [findRoute_some (p := decTtl p) h.dev hs]
    simp only [outPkt, Bool.false_eq_true, if_false]
    rw [if_neg (show ¬ (decTtl p).hdr.len > (env.dev d).mtu by show ¬ p.hdr.len > _; omega)]
    unfold outContinue
    simp only [Bool.false_eq_true, if_false]
    rw [if_neg (by rw [hk]; simp)]
    unfold addEth
    simp only
    rw [hr, if_neg (by simp)]
    have e1 : (trimTail (decTtl p)).hdr.dst = p.hdr.dst := rfl
    have e2 : hop n.gw (trimTail (decTtl p)) = if n.gw = 0 then p.hdr.dst else n.gw := rfl
    rw [e1, e2, hmc, if_neg (by simp), hk, if_neg (by simp [ha]), hmac, if_pos rfl]
    unfold ethSend
    rw [hk, if_neg (by simp), if_neg (by simp)]
    rfl
  unfold packetInput
  simp only [e]

/-- **C76, expired.** A packet in transit with TTL 0 or 1 is freed; the only other effect is an ICMP time exceeded
message (type 11 code 0). -/
theorem transit_expired (env : Env) (p : Pkt) (n : Nh) (d : Nat) (h : Transit env p n d) (ht : p.hdr.ttl ≤ 1) :
    packetInput env p = (.drop, (icmpError env (ipOutput env depth) p 11 0 0 0 ⟨1, []⟩).emit (.free 0)) := by
  have e : ipv4Input env 0 p ⟨1, []⟩ = (.drop, icmpError env (ipOutput env depth) p 11 0 0 0 ⟨1, []⟩) := by
    unfold ipv4Input
    rw [h.sum, if_neg (by simp), if_neg h.uni, h.other, if_neg (by simp)]
    unfold forward
    simp only
    rw [h.inPol, if_neg (by simp), h.hook, h.outPol, h.route]
    simp only [Option.isNone_some, Bool.false_eq_true, false_and, if_false, reduceCtorEq]
    rw [if_pos ht]
  unfold packetInput
  simp only [e]

/-- **C77, don't fragment.** A packet in transit that must not be fragmented and is longer than the MTU of the outgoing
interface is freed; the only other effect is an ICMP message "fragmentation needed" (type 3 code 4) with that MTU. -/
theorem transit_needfrag (env : Env) (p : Pkt) (n : Nh) (d : Nat) (h : Transit env p n d) (ht : 2 ≤ p.hdr.ttl)
    (hh : env.hookOut (decTtl p) = .cont) (hs : p.hdr.src ≠ 0) (hm : (env.dev d).mtu < p.hdr.len) (hd : df p = true) :
    packetInput env p = (.drop, (icmpError env (ipOutput env depth) (decTtl p) 3 4 0 (env.dev d).mtu ⟨1, []⟩).emit (.free 0)) := by
  have e : ipv4Input env 0 p ⟨1, []⟩ = (.drop, icmpError env (ipOutput env depth) (decTtl p) 3 4 0 (env.dev d).mtu ⟨1, []⟩) := by
    rw [transit_step h ht hh]
    unfold outRoute
    rw [findRoute_some (p := decTtl p) h.dev hs]
    simp only [outPkt, Bool.false_eq_true, if_false]
    rw [if_pos (show (decTtl p).hdr.len > (env.dev d).mtu from hm), if_pos (show df (decTtl p) = true from hd)]
  unfold packetInput
  simp only [e]

/-! ### Header checksums -/

/-- The header part before and after the checksum field. -/
def Pkt.pre (p : Pkt) : List UInt8 :=
  u8 (64 + p.hl) :: u8 p.hdr.tos :: (b16 p.hdr.len ++ b16 p.hdr.id ++ b16 p.hdr.off ++ [u8 p.hdr.ttl, u8 p.hdr.proto])
def Pkt.post (p : Pkt) : List UInt8 := b32 p.hdr.src ++ b32 p.hdr.dst ++ p.opts

theorem header_split (p : Pkt) : p.header = p.pre ++ [u8 p.hdr.sum, u8 (p.hdr.sum / 256)] ++ p.post := by
  simp [Pkt.header, Pkt.pre, Pkt.post]

theorem hl_range {p : Pkt} (h : p.opts.length ≤ 40) : 5 ≤ p.hl ∧ p.hl ≤ 15 := by unfold Pkt.hl; omega

theorem valid_of_cksum {odd : Bool} {p : Pkt} (h4 : p.opts.length % 4 = 0) (h40 : p.opts.length ≤ 40)
    (h : Cksum.cksumIph odd p.hl p.header = some 0) : Cksum.Spec.checksum p.header = 0 := by
  obtain ⟨a, b⟩ := hl_range h40
  obtain ⟨r, e1, _, e3⟩ := Cksum.ofp_cksum_iph_correct odd p.hl a b p.header [] (by rw [header_length]; unfold Pkt.hlen Pkt.hl; omega)
  rw [List.append_nil, h] at e1
  exact e3.1 (by injection e1 with e1; exact e1.symm)

theorem iph_zero {odd : Bool} {p : Pkt} (h4 : p.opts.length % 4 = 0) (h40 : p.opts.length ≤ 40) :
    Cksum.cksumIph odd p.hl p.header = some 0 ↔ Cksum.Spec.checksum p.header = 0 := by
  obtain ⟨a, b⟩ := hl_range h40
  obtain ⟨r, e1, _, e3⟩ := Cksum.ofp_cksum_iph_correct odd p.hl a b p.header [] (by rw [header_length]; unfold Pkt.hlen Pkt.hl; omega)
  rw [List.append_nil] at e1
  rw [e1, ← e3, Option.some.injEq]

theorem fillSum_valid (env : Env) (p : Pkt) (h4 : p.opts.length % 4 = 0) (h40 : p.opts.length ≤ 40) :
    Cksum.Spec.checksum (fillSum env p).header = 0 := by
  obtain ⟨a, b⟩ := hl_range h40
  have hz : ({ p with hdr := { p.hdr with sum := 0 } } : Pkt).header = p.pre ++ [0, 0] ++ p.post := by
    rw [header_split]
    simp [Pkt.pre, Pkt.post, Pkt.hl, u8]
  have hlen : 12 + p.post.length = 4 * p.hl := by
    simp [Pkt.post, b32, Pkt.hl]; omega
  obtain ⟨r, hr, _⟩ := Cksum.ofp_cksum_iph_correct env.odd p.hl a b (p.pre ++ [0, 0] ++ p.post) []
    (by simp only [List.length_append]; rw [show p.pre.length = 10 by simp [Pkt.pre, b16]]; simp; omega)
  rw [List.append_nil] at hr
  have hv := Cksum.ofp_cksum_iph_fill_verifies env.odd env.odd p.hl a b p.pre p.post (by simp [Pkt.pre, b16]) hlen r hr
    ⟨u8 (64 + p.hl), by simp [Pkt.pre], by
      intro h
      have := congrArg UInt8.toNat h
      rw [u8_toNat] at this
      have e0 : (0 : UInt8).toNat = 0 := rfl
      omega⟩
  have hr1 : r ≤ 65535 := by
    have := Cksum.cksumIph_val env.odd p.hl a b (p.pre ++ [0, 0] ++ p.post)
      (by simp only [List.length_append]; rw [show p.pre.length = 10 by simp [Pkt.pre, b16]]; simp; omega)
    rw [this] at hr
    injection hr with hr
    omega
  have e : (fillSum env p).hdr.sum = r := by
    unfold fillSum
    simp only
    rw [hz]
    show (Cksum.cksumIph env.odd p.hl _).getD 0 = r
    rw [hr]
    rfl
  refine valid_of_cksum (odd := env.odd) (p := fillSum env p) h4 h40 ?_
  rw [header_split, e]
  have e2 : u8 r = UInt8.ofNat (r % 256) := rfl
  have e3 : u8 (r / 256) = UInt8.ofNat (r / 256) := by unfold u8; rw [Nat.mod_eq_of_lt (by omega)]
  rw [e2, e3]
  exact hv

theorem u8_pred {n : Nat} (h : 1 ≤ n) (h' : n ≤ 255) : u8 (n - 1) = u8 n - 1 := by
  apply UInt8.toNat_inj.1
  rw [u8_toNat, UInt8.toNat_sub_of_le _ _ (by rw [UInt8.le_iff_toNat_le, u8_toNat, Nat.mod_eq_of_lt (by omega)]; exact h), u8_toNat]
  have : (1 : UInt8).toNat = 1 := rfl
  omega

theorem decTtl_header (p : Pkt) (h : 2 ≤ p.hdr.ttl) (h1 : p.hdr.ttl ≤ 255) (h2 : p.hdr.sum ≤ 65535) :
    Cksum.fwdHeader p.header = some (decTtl p).header := by
  have e : p.header = u8 (64 + p.hl) :: u8 p.hdr.tos :: u8 (p.hdr.len / 256) :: u8 p.hdr.len :: u8 (p.hdr.id / 256) :: u8 p.hdr.id ::
    u8 (p.hdr.off / 256) :: u8 p.hdr.off :: u8 p.hdr.ttl :: u8 p.hdr.proto :: u8 p.hdr.sum :: u8 (p.hdr.sum / 256) :: p.post := by
    simp [Pkt.header, Pkt.post, b16]
  have e' : (decTtl p).header = u8 (64 + p.hl) :: u8 p.hdr.tos :: u8 (p.hdr.len / 256) :: u8 p.hdr.len :: u8 (p.hdr.id / 256) :: u8 p.hdr.id ::
    u8 (p.hdr.off / 256) :: u8 p.hdr.off :: u8 (p.hdr.ttl - 1) :: u8 p.hdr.proto :: u8 (decTtl p).hdr.sum :: u8 ((decTtl p).hdr.sum / 256) :: p.post := by
    simp [Pkt.header, Pkt.post, b16, decTtl, Pkt.hl]
  rw [e, e']
  unfold Cksum.fwdHeader
  simp only
  rw [if_neg (by rw [u8_toNat]; omega)]
  have es : (u8 p.hdr.sum).toNat + 256 * (u8 (p.hdr.sum / 256)).toNat = p.hdr.sum := by
    rw [u8_toNat, u8_toNat]; omega
  simp only [es]
  have ed : (decTtl p).hdr.sum = if p.hdr.sum ≥ 65534 then p.hdr.sum - 65534 else p.hdr.sum + 1 := rfl
  rw [ed, u8_pred (by omega) h1]
  have hb : (if p.hdr.sum ≥ 65534 then p.hdr.sum - 65534 else p.hdr.sum + 1) / 256 < 256 := by split <;> omega
  generalize (if p.hdr.sum ≥ 65534 then p.hdr.sum - 65534 else p.hdr.sum + 1) = x at hb ⊢
  unfold u8
  rw [Nat.mod_eq_of_lt hb]

theorem decTtl_valid {p : Pkt} (hw : Wire p) (ht : 2 ≤ p.hdr.ttl) (hv : Cksum.Spec.checksum p.header = 0) :
    Cksum.Spec.checksum (decTtl p).header = 0 := by
  rcases Cksum.forward_keeps_checksum_valid p.header (by rw [header_length]; unfold Pkt.hlen; exact Nat.le_add_right 20 _) hv with ⟨_, h⟩ | ⟨g, h1, _, _, _, _, h5⟩
  · rw [decTtl_header p ht hw.ttl hw.sum] at h; cases h
  · have e := (decTtl_header p ht hw.ttl hw.sum).symm.trans h1
    exact (Option.some.inj e) ▸ h5

/-- `trim_tail` does not touch the header. -/
theorem trim_header (p : Pkt) : (trimTail p).header = p.header := rfl

theorem sumOk_link {env d q} (h : Cksum.Spec.checksum q.header = 0) :
    Link (fun _ q => Cksum.Spec.checksum q.header = 0) env d q := link_of h h

theorem ipOutput_sum (env : Env) : ∀ n, OutSent (fun q => q.opts = []) (fun _ q => Cksum.Spec.checksum q.header = 0) (ipOutput env (n + 1)) := by
  have base : ∀ n, OutSent (fun q => IsErr q ∧ q.opts = []) (fun _ q => Cksum.Spec.checksum q.header = 0) (ipOutput env (n + 1)) := by
    intro n
    refine ipOutput_sent ?_ ?_ ?_
    · intro id p hp d q hl _
      exact sumOk_link (fillSum_valid env q (by rw [hl.1, hp.2]; rfl) (by rw [hl.1, hp.2]; decide))
    · intro id p hp d q hl _ _ f k hf
      have := hf.opts (by rw [hl.1, hp.2]; rfl)
      rw [hl.1, hp.2] at this
      exact sumOk_link (fillSum_valid env _ this.1 (Nat.le_trans this.2 (by decide)))
    · intro id p hp d q hl _ _ s
      rw [icmpError_quiet (quiet_err (hl.isErr hp.1))]
      exact Sent.refl _ s
  intro n
  refine ipOutput_sent ?_ ?_ ?_
  · intro id p hp d q hl _
    exact sumOk_link (fillSum_valid env q (by rw [hl.1, hp]; rfl) (by rw [hl.1, hp]; decide))
  · intro id p hp d q hl _ _ f k hf
    have := hf.opts (by rw [hl.1, hp]; rfl)
    rw [hl.1, hp] at this
    exact sumOk_link (fillSum_valid env _ this.1 (Nat.le_trans this.2 (by decide)))
  · intro id p hp d q hl _ _ s
    cases n with
    | zero =>
      refine icmpError_sent (R := fun _ => True) ?_ (fun _ _ => trivial)
      intro id q nh s _
      exact Sent.note s _ rfl
    | succ n =>
      refine icmpError_sent (base n) (fun _ a => ⟨(errTo_reply (by decide)).1, (errTo_reply (by decide)).2.2.2⟩)

/-- All replies of local delivery go out through `out` without options. -/
theorem ours_out {Q env p} (ho : isOurs env p = true) (h : OutSent (fun q => q.opts = []) Q (ipOutput env depth)) :
    AllSent Q (packetInput env p).2.evs := by
  refine ours_sent ho (fun p' _ => deliverUp_sent ?_ ?_ ?_)
  · intro _ _ s
    exact reflect_sent h (fun a => by rw [fillIcmp_opts]; rfl)
  · intro _ _ s
    exact reflect_sent h (fun a => by rw [fillIcmp_opts]; rfl)
  · intro _ s
    exact icmpError_sent h (fun _ a => by rw [fillIcmp_opts]; rfl)

/-- **C77, header checksums (partial).** Every IPv4 header sent while a packet with a valid header is processed (forwarded
packet, fragments, ICMP messages) has a valid checksum, if the source address of the packet is not 0.0.0.0. -/
theorem sent_headers_valid_partial (env : Env) (p : Pkt) (hw : Wire p) (hv : Cksum.Spec.checksum p.header = 0)
    (hs : p.hdr.src ≠ 0) :
    AllSent (fun _ q => Cksum.Spec.checksum q.header = 0) (packetInput env p).2.evs := by
  cases ho : isOurs env p with
  | true => exact ours_out ho (ipOutput_sum env 2)
  | false =>
    refine notOurs_sent ho (forward_sent ?_ ?_ ?_ ?_)
    · intro ht d q h _
      apply sumOk_link
      obtain ⟨h1, h2, h3, x, i, h4, h5, _, h7, _⟩ := h
      have e : q.hdr = (decTtl p).hdr := by
        rw [h4, h5 hs, h7 rfl]
      have : q.header = (decTtl p).header := by
        rw [Pkt.header, Pkt.header, Pkt.hl, Pkt.hl, e, h1]
      rw [this]
      exact decTtl_valid hw ht hv
    · intro ht d q h _ _ f k hf
      have := hf.opts (by rw [h.1]; exact hw.opts4)
      exact sumOk_link (fillSum_valid env _ this.1 (Nat.le_trans this.2 (by rw [h.1]; exact hw.opts40)))
    · intro ht d q h _ _ s
      exact icmpError_sent (ipOutput_sum env 2) (fun _ a => by rw [fillIcmp_opts]; rfl)
    · intro _ s
      exact icmpError_sent (ipOutput_sum env 2) (fun _ a => by rw [fillIcmp_opts]; rfl)

/-! ### C77: the MTU -/

/-- The packet fits on the link: its length field, and (except in tunnels) the bytes sent. -/
def Fits (env : Env) (d : Nat) (q : Pkt) : Prop :=
  q.hdr.len ≤ (env.dev d).mtu ∧ ((env.dev d).kind ≠ .gre → q.bytes.length ≤ max (env.dev d).mtu q.hlen)

theorem fits_link {env d q} (h : q.hdr.len ≤ (env.dev d).mtu) : Link (Fits env) env d q := by
  refine ⟨fun hk => ⟨h, fun h => absurd hk h⟩, fun _ => ⟨h, fun _ => ?_⟩⟩
  rw [bytes_length]
  have e : (trimTail q).hlen = q.hlen := rfl
  have : (trimTail q).body.length ≤ q.hdr.len - q.hlen := by
    show (q.body.take _).length ≤ _
    rw [List.length_take]; omega
  omega

theorem ipOutput_fits (env : Env) (hm : ∀ d, 28 ≤ (env.dev d).mtu ∧ (env.dev d).mtu ≤ 65535) :
    ∀ n, OutSent (fun q => q.opts = []) (Fits env) (ipOutput env n) := by
  intro n
  induction n with
  | zero => intro id q nh s _; exact Sent.note s _ rfl
  | succ n ih =>
    refine ipOutput_sent ?_ ?_ ?_
    · intro id p hp d q hl hle
      exact fits_link hle
    · intro id p hp d q hl _ _ f k hf
      have := hf.opts (by rw [hl.1, hp]; rfl)
      rw [hl.1, hp] at this
      have h0 : f.opts.length = 0 := Nat.le_zero.1 this.2
      exact fits_link (hf.fits (by have := (hm d).1; omega) (hm d).2)
    · intro id p hp d q hl _ _ s
      exact icmpError_sent ih (fun _ a => by rw [fillIcmp_opts]; rfl)

/-- **C77, MTU.** If every interface has an MTU between 68 and 65535, every packet sent while a packet is processed
(forwarded whole or in fragments, ICMP messages) is at most as long as the MTU of the interface it is sent on. -/
theorem sent_within_mtu (env : Env) (p : Pkt) (hm : ∀ d, 68 ≤ (env.dev d).mtu ∧ (env.dev d).mtu ≤ 65535) (hw : Wire p) :
    AllSent (Fits env) (packetInput env p).2.evs := by
  have hi := ipOutput_fits env (fun d => ⟨by have := (hm d).1; omega, (hm d).2⟩) depth
  cases ho : isOurs env p with
  | true => exact ours_out ho hi
  | false =>
    refine notOurs_sent ho (forward_sent ?_ ?_ ?_ ?_)
    · intro ht d q h hle
      exact fits_link hle
    · intro ht d q h _ _ f k hf
      have := hf.opts (by rw [h.1]; exact hw.opts4)
      rw [h.1] at this
      have h40 : f.opts.length ≤ 40 := Nat.le_trans this.2 hw.opts40
      exact fits_link (hf.fits (by have := (hm d).1; omega) (hm d).2)
    · intro ht d q h _ _ s
      exact icmpError_sent hi (fun _ a => by rw [fillIcmp_opts]; rfl)
    · intro _ s
      exact icmpError_sent hi (fun _ a => by rw [fillIcmp_opts]; rfl)

/-! ### C78: what must not be answered -/

/-- **C78.** While a packet in transit that is an ICMP error message, or a fragment other than the first, is processed, no
ICMP message is sent: everything sent is the packet itself, forwarded. -/
theorem no_error_about_errors (env : Env) (p : Pkt) (ho : isOurs env p = false) (h : IsErr p ∨ fragOff p ≠ 0) :
    AllSent (fun _ q => Forwarded p q) (packetInput env p).2.evs := by
  have hq : ∀ q t, t = 3 ∨ t = 11 → q.body = p.body → q.hdr.proto = p.hdr.proto → q.hdr.off = p.hdr.off →
      errQuiet env q t = true := by
    intro q t ht e1 e2 e3
    rcases h with h | h
    · have hqe : IsErr q := by unfold IsErr at *; rw [e1, e2]; exact h
      have := quiet_err (env := env) hqe
      unfold errQuiet at *
      rcases ht with rfl | rfl <;> simpa using this
    · exact quiet_frag (by unfold fragOff at *; rw [e3]; exact h)
  refine notOurs_sent ho (forward_sent ?_ ?_ ?_ ?_)
  · intro ht d q h _
    obtain ⟨e1, e2, e3, e4, e5, e6, e7, e8, e9, e10, e11, _⟩ := left_fwd h
    refine link_of ⟨by omega, by omega, e4, e5, e6, e7, e8, .inl ⟨e1, e9, e10, .inl e2⟩⟩
      ⟨?_, ?_, e4, e5, e6, e7, e8, .inl ⟨e1, e9, e10, .inr ?_⟩⟩
    · show q.hdr.ttl + 1 = _; omega
    · show 1 ≤ q.hdr.ttl; omega
    · show q.body.take (q.hdr.len - q.hlen) = _
      rw [e2, e9, e11]
  · intro ht d q h hd _ f k hf
    have := fwd_frag h ht hd hf
    refine link_of this ?_
    have e : trimTail (fillSum env (fragPkt q f)) = fillSum env (fragPkt q f) := by
      have := fragPkt_trim q f
      unfold trimTail fillSum at *
      have h2 := congrArg Pkt.body this
      simp only at h2 ⊢
      congr 1
    rw [e]
    exact this
  · intro ht d q h hd _ s
    obtain ⟨e1, e2, e3, e4, e5, e6, e7, e8, e9, e10, e11, _⟩ := left_fwd h
    rw [icmpError_quiet (hq q 3 (.inl rfl) e2 e5 e10)]
    exact Sent.refl _ s
  · intro _ s
    rw [icmpError_quiet (hq p 11 (.inr rfl) rfl rfl rfl)]
    exact Sent.refl _ s

end Verif.Fwd

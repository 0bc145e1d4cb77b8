import Verif.Ip6.Hist
import Verif.Ip6.Cksum6
/-! # A small network for examples; from a received ICMPv6 frame to its handler -/
namespace Verif.Ip6
open Verif Radix

instance (p : Pkt) : Decidable p.wf := by unfold Pkt.wf; infer_instance

theorem run4 (env s a b f p) : run env s [a, b, .rx f, .send p] = send env p (rx env f (run env s [a, b])) := rfl
theorem run3 (env s a f p) : run env s [a, .rx f, .send p] = send env p (rx env f (run env s [a])) := rfl
theorem run2 (env s a f) : run env s [a, .rx f] = rx env f (run env s [a]) := rfl

/-- A packet to a neighbour whose Ethernet address is not known: it waits, and a solicitation is sent. -/
theorem output_unresolved (env : Env) (id : Nat) (p : Pkt) (s : St) (i d k : Nat) (hl : look env s p.dst = some i)
    (hd : env.ifnet (s.nh i).port (s.nh i).vlan = some d) (hk : (env.dev d).kind = .ether) (hs : Sendable env d id p)
    (hm : (s.nh i).mac = noMac) (ha : env.allocOk s.next = true) (he : s.ents ≠ 0)
    (s1 : St) (hs1 : addRoute env s p.dst 128 any (env.dev d).port (env.dev d).vlan false = s1)
    (hn : s1.next = s.next) (hev : s1.evs = s.evs) (hen : s1.ents = s.ents)
    (hl1 : look env s1 p.dst = some k) :
    ip6Output env id p none s = (.processed,
      { (s1.setNh k { s1.nh k with hold := (id, p) :: (s1.nh k).hold }) with
        next := s.next + 1
        evs := s.evs ++ [.alloc s.next, .tx s.next d (List.replicate 6 255) (nsPkt env d (s.nh i).gw p.dst), .wait id k p]
        ents := s.ents - 1 }) := by
  obtain ⟨h1, h2, h3⟩ := hs
  unfold ip6Output pick
  rw [h1]
  dsimp only
  rw [hl]
  dsimp only
  rw [hd]
  dsimp only
  unfold outDev
  rw [if_neg (by rw [hk]; intro h; cases h), if_neg (by rw [h2]; intro h; cases h),
    if_neg (by rw [hk]; intro h; rcases h with h | h; exact h3 h; cases h), if_pos hm]
  unfold resolve nsOutput
  dsimp only
  rw [hs1, hn]
  simp only [ha, Bool.true_eq_false, if_false]
  unfold savePkt
  have : look env (s1.alloc.emit (.tx s.next d (List.replicate 6 255) (nsPkt env d (s.nh i).gw p.dst))) p.dst = some k := hl1
  rw [this]
  dsimp only
  rw [if_neg (by simp only [emit_ents, alloc_ents]; rw [hen]; exact he)]
  simp only [St.alloc, St.emit, St.setNh, hn, hev, hen, List.append_assoc, List.cons_append, List.nil_append]

/-- 2001:db8:`n`::`h` -/
def addrOf (n h : UInt8) : Addr := [32, 1, 13, 184, 0, n, 0, 0, 0, 0, 0, 0, 0, 0, 0, h]
def macOf (h : UInt8) : Mac := [2, 0, 0, 0, 0, h]

/-- Two Ethernet interfaces, 2001:db8:0::1 and 2001:db8:1::1; hooks pass everything on, no slow path. -/
def env0 : Env :=
  { dev := fun d => ⟨addrOf (UInt8.ofNat d) 1, [254, 128, 0, 0, 0, 0, 0, 0, 0, 0, 0, 255, 254, 0, 0, UInt8.ofNat d], macOf (UInt8.ofNat (d + 1)), d, 0,
      .ether⟩,
    ifnet := fun port vlan => if port < 2 ∧ vlan = 0 then some port else none,
    hookLocal := fun _ => .cont, hookLocal6 := fun _ => .cont, hookFwd := fun _ => .cont, hookOut := fun _ => .cont,
    udp := fun _ => .noPort, tcp := fun _ => .processed, g := fun _ => false, al := fun _ => (false, false),
    beyond := [], roomOk := fun _ => true, loopOk := fun _ => true, tunnelOk := fun _ => true, allocOk := fun _ => true,
    sp := false, spOk := fun _ => true, blackhole := false, l2 := 14 }

/-- A packet without body. -/
def pktTo (dst : Addr) : Pkt := ⟨[96, 0, 0, 0], 0, 17, 64, addrOf 0 1, dst, []⟩

/-- The frame that carries a packet. -/
def frameOf (dev : Nat) (smac : Mac) (p : Pkt) : Frame := ⟨dev, smac, p.bytes⟩

/-- A packet is received as it was sent. -/
theorem parse_bytes (p : Pkt) (h : p.wf) (h1 : p.plen < 65536) (h2 : p.nxt < 256) (h3 : p.hlim < 256) :
    parse p.bytes = p := by
  obtain ⟨hv, hs, hd⟩ := h
  obtain ⟨vtf, plen, nxt, hlim, src, dst, body⟩ := p
  simp only at hv hs hd h1 h2 h3
  match vtf, hv with
  | [v0, v1, v2, v3], _ =>
    have e : (⟨[v0, v1, v2, v3], plen, nxt, hlim, src, dst, body⟩ : Pkt).bytes =
        v0 :: v1 :: v2 :: v3 :: u8 (plen / 256) :: u8 plen :: u8 nxt :: u8 hlim :: (src ++ (dst ++ body)) := by
      simp [Pkt.bytes, Pkt.header, b16]
    rw [e]
    unfold parse
    simp only [List.getD_cons_zero, List.getD_cons_succ, List.take_succ_cons, List.take_zero, List.drop_succ_cons,
      List.drop_zero, Pkt.mk.injEq, true_and]
    have a1 : (u8 (plen / 256)).toNat = plen / 256 := u8_toNat _ (by omega)
    have a2 : (u8 plen).toNat = plen % 256 := by unfold u8; rw [UInt8.toNat_ofNat', Nat.mod_mod]
    refine ⟨?_, u8_toNat _ h2, u8_toNat _ h3, ?_, ?_, ?_⟩
    · rw [a1, a2]; omega
    · rw [← hs, List.take_left]
    · rw [show (16 : Nat) = src.length from hs.symm, List.drop_left, hs, ← hd, List.take_left]
    · rw [show (32 : Nat) = src.length + 16 by omega, ← List.drop_drop, List.drop_left, ← hd, List.drop_left]

/-- A received packet is processed. -/
theorem rx_process (env : Env) (d : Nat) (smac : Mac) (p : Pkt) (s : St) (h : p.wf) (h1 : p.plen < 65536)
    (h2 : p.nxt < 256) (h3 : p.hlim < 256) :
    rx env (frameOf d smac p) s = finish env s.next (process env s.next d smac p s.alloc) := by
  unfold rx frameOf
  have hl : p.bytes.length = 40 + p.body.length := by unfold Pkt.bytes; rw [List.length_append, header_length p h]
  simp only [parse_bytes p h h1 h2 h3]
  rw [if_neg (by omega)]

/-- What `classify` makes of the result of ICMPv6 input. -/
def afterIcmp (r : Code × St) : Code × St :=
  match r with
  | (.cont, s1) => (.cont, s1.emit .wild)
  | r => r

/-- A valid ICMPv6 message for this host reaches the handler of its type. -/
theorem icmp_reaches (env : Env) (id d : Nat) (smac : Mac) (p : Pkt) (s : St) (h : p.wf)
    (ho : isOurs env d p s = true) (hk : env.hookLocal p = .cont ∧ env.hookLocal6 p = .cont) (hn : p.nxt = 58)
    (h8 : 8 ≤ p.body.length) (hb : p.body.length ≤ 65535)
    (hc : transport6 (clearScope p.src) (clearScope p.dst) 58 p.body = 0) :
    process env id d smac p s =
      afterIcmp (icmpType env id d smac p (p.body.getD 0 0).toNat (p.body.getD 1 0).toNat s) := by
  have hl : p.bytes.length = 40 + p.body.length := by unfold Pkt.bytes; rw [List.length_append, header_length p h]
  obtain ⟨r, e1, _, e2⟩ := ofp_in6_cksum_scope env.al p h 58 (by intro e; rw [e] at h8; simp at h8) hb
  have hr : r = 0 := e2.mpr hc
  subst hr
  unfold process
  rw [ho]
  simp only [if_true, hk.1, hk.2]
  unfold classify
  rw [if_pos hn]
  have hi : icmpInput env id d smac p s =
      icmpType env id d smac p (p.body.getD 0 0).toNat (p.body.getD 1 0).toNat s := by
    unfold icmpInput
    rw [if_neg (by omega), e1]; rfl
  rw [hi]
  unfold afterIcmp
  rfl

theorem rx_icmp (env : Env) (d : Nat) (smac : Mac) (p : Pkt) (s : St) (h : p.wf) (h1 : p.plen < 65536) (h3 : p.hlim < 256)
    (ho : isOurs env d p s.alloc = true) (hk : env.hookLocal p = .cont ∧ env.hookLocal6 p = .cont) (hn : p.nxt = 58)
    (h8 : 8 ≤ p.body.length) (hb : p.body.length ≤ 65535)
    (hc : transport6 (clearScope p.src) (clearScope p.dst) 58 p.body = 0) :
    rx env (frameOf d smac p) s = finish env s.next
      (afterIcmp (icmpType env s.next d smac p (p.body.getD 0 0).toNat (p.body.getD 1 0).toNat s.alloc)) := by
  rw [rx_process env d smac p s h h1 (by omega) h3, icmp_reaches env s.next d smac p s.alloc h ho hk hn h8 hb hc]

/-- An ICMPv6 message with its checksum (RFC 4443), as a correct sender makes it. -/
def icmp6 (src dst : Addr) (hlim : Nat) (msg : List UInt8) : Pkt :=
  let m := msg.take 2 ++ [0, 0] ++ msg.drop 4
  let c := transport6 src dst 58 m
  ⟨[96, 0, 0, 0], msg.length, 58, hlim, src, dst, msg.take 2 ++ b16 c ++ msg.drop 4⟩

/-- A neighbour advertisement with the target's link-layer address. -/
def naOf (src dst : Addr) (hlim : Nat) (t : Addr) (mac : Mac) : Pkt :=
  icmp6 src dst hlim ([136, 0, 0, 0, 96, 0, 0, 0] ++ t ++ [2, 1] ++ mac)
/-- A neighbour solicitation with the source's link-layer address. -/
def nsOf (src dst : Addr) (hlim : Nat) (t : Addr) (mac : Mac) : Pkt :=
  icmp6 src dst hlim ([135, 0, 0, 0, 0, 0, 0, 0] ++ t ++ [1, 1] ++ mac)

end Verif.Ip6

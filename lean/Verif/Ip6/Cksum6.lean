import Verif.Ip6.Spec
import Verif.Cksum.PropsPkt
/-! # The IPv6 transport checksum -/
namespace Verif.Ip6
open Verif Cksum

theorem wsum_leSum : ∀ l : List UInt8, l.length % 2 = 0 → wsum l = leSum l
  | [], _ => rfl
  | [_], h => by simp at h
  | a :: b :: r, h => by
    simp only [wsum, leSum]
    rw [wsum_leSum r (by simp only [List.length_cons] at h; omega)]

theorem header_length (p : Pkt) (h : p.wf) : p.header.length = 40 := by
  obtain ⟨h1, h2, h3⟩ := h
  simp [Pkt.header, b16, h1, h2, h3]

theorem leSum_lt : ∀ l : List UInt8, leSum l ≤ (l.length + 1) / 2 * 65535
  | [] => by simp [leSum]
  | [a] => by have := a.toNat_lt; simp only [leSum, List.length_cons, List.length_nil]; omega
  | a :: b :: r => by
    have := a.toNat_lt; have := b.toNat_lt; have := leSum_lt r
    simp only [leSum, List.length_cons]; omega

/-- Clearing the scope takes its value off the sum. -/
theorem wsum_clear (a : Addr) (h : a.length = 16) : wsum a - scope a = leSum (clearScope a) := by
  match a, h with
  | [a0, a1, a2, a3, a4, a5, a6, a7, a8, a9, a10, a11, a12, a13, a14, a15], _ =>
    unfold scope clearScope
    split
    · simp only [wsum, leSum, List.getD_cons_zero, List.getD_cons_succ, List.set_cons_zero, List.set_cons_succ]
      have : (0 : UInt8).toNat = 0 := rfl
      omega
    · simp only [wsum, leSum]; omega

theorem clearScope_length (a : Addr) : (clearScope a).length = a.length := by
  unfold clearScope; split <;> simp

theorem leSum_pseudo (src dst : Addr) (hs : src.length = 16) (hd : dst.length = 16) (len : Nat) (nxt : UInt8)
    (body : List UInt8) : leSum (pseudo6 src dst len nxt ++ body) =
      leSum src + leSum dst + leSum (be32 len) + leSum [0, 0, 0, nxt] + leSum body := by
  unfold pseudo6
  rw [leSum_append_even _ _ (by simp [hs, hd, be32]), leSum_append_even _ _ (by simp [hs, hd, be32]),
    leSum_append_even _ _ (by simp [hs, hd]), leSum_append_even _ _ (by simp [hs])]

/-- The value computed. -/
theorem in6Cksum_val (al : Nat → Bool × Bool) (p : Pkt) (hp : p.wf) (nxt : Nat) (hb : p.body ≠ [])
    (hl : p.body.length ≤ 65535) :
    in6Cksum al p nxt 40 p.body.length =
      .ok (65535 - norm (leSum (pseudo6 (clearScope p.src) (clearScope p.dst) p.body.length (u8 nxt) ++ p.body))) := by
  have hh := header_length p hp
  obtain ⟨_, hs, hd⟩ := hp
  have hpos : 0 < p.body.length := by cases h : p.body with
    | nil => exact absurd h hb
    | cons => simp
  have hlen : p.bytes.length = 40 + p.body.length := by unfold Pkt.bytes; rw [List.length_append, hh]
  have h := cksum_val al p.bytes [] [] 40 p.body.length (by omega) (by omega) (by simp) (by simp)
    (Or.inl ⟨rfl, by omega⟩)
  have hdrop : (p.bytes.drop 40).take p.body.length = p.body := by
    unfold Pkt.bytes
    rw [show (40 : Nat) = p.header.length from hh.symm, List.drop_left, List.take_length]
  simp only [List.flatten_nil, List.append_nil, hdrop] at h
  unfold in6Cksum
  rw [h]
  dsimp only
  have hn := norm_le (leSum p.body)
  have e1 : not16 (65535 - norm (leSum p.body)) = norm (leSum p.body) := by rw [not16_le (by omega)]; omega
  have e2 : pseudoSum p p.body.length nxt 0 = leSum (clearScope p.src) + leSum (clearScope p.dst) +
      leSum (be32 p.body.length) + leSum [0, 0, 0, u8 nxt] := by
    unfold pseudoSum
    rw [wsum_clear _ hs, wsum_clear _ hd, wsum_leSum _ (by simp [b32]), wsum_leSum _ (by simp)]
    have : b32 p.body.length = be32 p.body.length := rfl
    rw [this]; omega
  rw [e1, e2, leSum_pseudo _ _ (by rw [clearScope_length, hs]) (by rw [clearScope_length, hd])]
  have l1 := leSum_lt (clearScope p.src)
  have l2 := leSum_lt (clearScope p.dst)
  have l3 := leSum_lt (be32 p.body.length)
  have l4 := leSum_lt [0, 0, 0, u8 nxt]
  rw [clearScope_length, hs] at l1
  rw [clearScope_length, hd] at l2
  have l5 : (be32 p.body.length).length = 4 := rfl
  rw [l5] at l3
  simp only [List.length_cons, List.length_nil] at l4
  have l6 : leSum (clearScope p.src) + leSum (clearScope p.dst) +
      leSum (be32 p.body.length) + leSum [0, 0, 0, u8 nxt] < 2000000 := by omega
  clear l1 l2 l3 l4
  generalize leSum (clearScope p.src) + leSum (clearScope p.dst) +
      leSum (be32 p.body.length) + leSum [0, 0, 0, u8 nxt] = x at *
  rw [reduce_eq_norm (by omega), not16_le (norm_le _)]
  congr 2
  exact norm_congr ((R.refl _).add (R_norm _))

theorem clearScope_noScope (a : Addr) (h : a.length = 16) (hn : NoScope a) : clearScope a = a := by
  unfold clearScope
  split
  · rename_i hs
    have h23 : a.getD 2 0 = 0 ∧ a.getD 3 0 = 0 := by
      apply hn
      match a, h with
      | b0 :: b1 :: r, _ =>
        have hb := b1.toNat_lt
        have e1 : ∀ k : UInt8, (b0 == k) = true → b0.toNat = k.toNat := by
          intro k hk; rw [beq_iff_eq] at hk; rw [hk]
        simp only [isScoped, isLinkLocal, isMulticast, List.headD_cons, List.getD_cons_zero, List.getD_cons_succ,
          Bool.or_eq_true, Bool.and_eq_true] at hs ⊢
        rcases hs with ⟨p1, p2⟩ | ⟨p1, p2⟩
        · have := e1 _ p1
          have p2' := beq_iff_eq.1 p2
          refine Or.inl ⟨this, by omega, by omega⟩
        · refine Or.inr ⟨e1 _ p1, ?_⟩
          rcases p2 with p2 | p2
          · exact Or.inr (beq_iff_eq.1 p2)
          · exact Or.inl (beq_iff_eq.1 p2)
    match a, h with
    | b0 :: b1 :: b2 :: b3 :: r, _ =>
      simp only [List.getD_cons_zero, List.getD_cons_succ] at h23
      rw [h23.1, h23.2]; rfl
  · rfl

/-- **C154 (partial: the addresses carry no embedded scope).** For every packet of up to 65535 bytes after the header and
every alignment, `ofp_in6_cksum` reads inside the packet, and what it returns, stored in memory, is the checksum of
RFC 8200: the Internet checksum of the pseudo header with the full addresses and of the message.  A received message is
accepted (0) exactly when that checksum is 0. -/
theorem ofp_in6_cksum_partial (al : Nat → Bool × Bool) (p : Pkt) (hp : p.wf) (nxt : Nat) (hb : p.body ≠ [])
    (hl : p.body.length ≤ 65535) (h1 : NoScope p.src) (h2 : NoScope p.dst) :
    ∃ r, in6Cksum al p nxt 40 p.body.length = .ok r ∧
      stored r = Spec.wireBytes (transport6 p.src p.dst (u8 nxt) p.body) ∧
      (r = 0 ↔ transport6 p.src p.dst (u8 nxt) p.body = 0) := by
  have h := in6Cksum_val al p hp nxt hb hl
  rw [clearScope_noScope _ hp.2.1 h1, clearScope_noScope _ hp.2.2 h2] at h
  refine ⟨_, h, ?_, ?_⟩
  · rw [stored_swap (by omega), host_net]; rfl
  · unfold transport6
    rw [← host_net]
    have := norm_le (leSum (pseudo6 p.src p.dst p.body.length (u8 nxt) ++ p.body))
    generalize norm (leSum (pseudo6 p.src p.dst p.body.length (u8 nxt) ++ p.body)) = x at *
    unfold swap16; omega

/-- With an embedded scope the checksum is that of the addresses without it. -/
theorem ofp_in6_cksum_scope (al : Nat → Bool × Bool) (p : Pkt) (hp : p.wf) (nxt : Nat) (hb : p.body ≠ [])
    (hl : p.body.length ≤ 65535) :
    ∃ r, in6Cksum al p nxt 40 p.body.length = .ok r ∧
      stored r = Spec.wireBytes (transport6 (clearScope p.src) (clearScope p.dst) (u8 nxt) p.body) ∧
      (r = 0 ↔ transport6 (clearScope p.src) (clearScope p.dst) (u8 nxt) p.body = 0) := by
  have h := in6Cksum_val al p hp nxt hb hl
  refine ⟨_, h, ?_, ?_⟩
  · rw [stored_swap (by omega), host_net]; rfl
  · unfold transport6
    rw [← host_net]
    have := norm_le (leSum (pseudo6 (clearScope p.src) (clearScope p.dst) p.body.length (u8 nxt) ++ p.body))
    generalize norm (leSum (pseudo6 (clearScope p.src) (clearScope p.dst) p.body.length (u8 nxt) ++ p.body)) = x at *
    unfold swap16; omega

/-- An echo request from 2001:db8::1 to 2001:db8::2. -/
def echoPkt : Pkt :=
  { vtf := [96, 0, 0, 0], plen := 8, nxt := 58, hlim := 64,
    src := [32, 1, 13, 184, 0, 0, 0, 0, 0, 0, 0, 0, 0, 0, 0, 1],
    dst := [32, 1, 13, 184, 0, 0, 0, 0, 0, 0, 0, 0, 0, 0, 0, 2],
    body := [128, 0, 0x24, 0x45, 0, 1, 0, 2] }

example : echoPkt.wf ∧ echoPkt.body ≠ [] ∧ NoScope echoPkt.src ∧ NoScope echoPkt.dst ∧
    transport6 echoPkt.src echoPkt.dst 58 echoPkt.body = 0 := by
  refine ⟨⟨by decide, by decide, by decide⟩, by decide, by unfold NoScope; decide, by unfold NoScope; decide, by decide +kernel⟩

/-- An echo request to the group ff32:40:2001:db8::1 (RFC 3306: bytes 2 and 3 belong to the address). -/
def mcPkt : Pkt :=
  { echoPkt with dst := [255, 50, 0, 64, 32, 1, 13, 184, 0, 0, 0, 0, 0, 0, 0, 1], body := [128, 0, 0x24, 0xd3, 0, 1, 0, 2] }

/-- **C154 refuted.** A correct packet to the link-local multicast group ff32:40:2001:db8::1 (RFC 3306) is rejected: the
second 16-bit word of link-local multicast addresses is left out of the sum. -/
theorem ofp_in6_cksum_violated : ∃ p : Pkt, p.wf ∧ p.nxt = 58 ∧ transport6 p.src p.dst 58 p.body = 0 ∧
    ∀ al, in6Cksum al p 58 40 p.body.length ≠ .ok 0 := by
  refine ⟨mcPkt, ⟨by decide, by decide, by decide⟩, rfl, by decide +kernel, ?_⟩
  intro al h
  obtain ⟨r, e1, _, e2⟩ := ofp_in6_cksum_scope al mcPkt ⟨by decide, by decide, by decide⟩ 58 (by decide) (by decide)
  rw [h] at e1
  have : transport6 (clearScope mcPkt.src) (clearScope mcPkt.dst) (u8 58) mcPkt.body = 0 := e2.mp (by injection e1 with h; exact h.symm)
  revert this; decide +kernel

theorem u8_toNat (n : Nat) (h : n < 256) : (u8 n).toNat = n := by
  unfold u8
  rw [UInt8.toNat_ofNat', Nat.mod_mod, Nat.mod_eq_of_lt h]

theorem leSum_le16 {c : Nat} (h : c ≤ 65535) : leSum (le16 c) = c := by
  simp only [le16, leSum]
  have e1 : (u8 c).toNat = c % 256 := by
    unfold u8; rw [UInt8.toNat_ofNat', Nat.mod_mod]
  have e2 := u8_toNat (c / 256) (by omega)
  rw [e1, e2]; omega

/-- A field filled with the complement of the sum makes the checksum 0. -/
theorem filled (l : List UInt8) (x : Nat) (hx : x ≠ 0) (h : leSum l = x + (65535 - norm x)) : Spec.checksum l = 0 := by
  rw [← host_net, h]
  have hn := norm_le x
  have h0 : norm x ≠ 0 := fun e => hx (norm_zero_iff.1 e)
  have : norm (x + (65535 - norm x)) = 65535 := by
    rw [← norm_congr ((R_norm x).add (R.refl _))]
    rw [show norm x + (65535 - norm x) = 65535 by omega]; decide
  rw [this]; decide

/-- **C154.** Every neighbour solicitation and advertisement sent carries a valid checksum. -/
theorem nd_checksum_valid (env : Env) (src dst : Addr) (hs : src.length = 16) (hd : dst.length = 16) (type : UInt8)
    (target : Addr) (ht : target.length = 16) (opt : UInt8) (mac : Mac) (hm : mac.length = 6) :
    let p := ndPkt env src dst type target opt mac
    transport6 p.src p.dst 58 p.body = 0 ∧ p.plen = p.body.length ∧ p.nxt = 58 ∧ p.hlim = 255 := by
  intro p
  have hlen : ∀ c : List UInt8, c.length = 2 →
      ([type, 0] ++ c ++ [0, 0, 0, 0] ++ target ++ [opt, 1] ++ mac).length = 32 := by
    intro c hc; simp [hc, ht, hm]
  have hbody : ∀ c : List UInt8, c.length = 2 →
      leSum ([type, 0] ++ c ++ [0, 0, 0, 0] ++ target ++ [opt, 1] ++ mac) =
        leSum [type, 0] + leSum c + leSum [0, 0, 0, 0] + leSum target + leSum [opt, 1] + leSum mac := by
    intro c hc
    rw [leSum_append_even _ _ (by simp [hc, ht]), leSum_append_even _ _ (by simp [hc, ht]),
      leSum_append_even _ _ (by simp [hc]), leSum_append_even _ _ (by simp [hc]), leSum_append_even _ _ (by simp)]
  have hbl : p.body.length = 32 := by
    show ([type, 0] ++ le16 _ ++ [0, 0, 0, 0] ++ target ++ [opt, 1] ++ mac).length = 32
    exact hlen _ rfl
  refine ⟨?_, hbl.symm, rfl, rfl⟩
  obtain ⟨s, e, b, r⟩ := cksumBuffer_val (env.al 0).1 (env.al 0).2 68
    (b16 32 ++ [0, 58] ++ src ++ dst ++ ([type, 0] ++ [0, 0] ++ [0, 0, 0, 0] ++ target ++ [opt, 1] ++ mac))
    (by simp [b16, hs, hd, ht, hm]) (by decide)
  have hv : (cksumBuffer (env.al 0).1 (env.al 0).2 68
      (b16 32 ++ [0, 58] ++ src ++ dst ++ ([type, 0] ++ [0, 0] ++ [0, 0, 0, 0] ++ target ++ [opt, 1] ++ mac))).getD 0 =
      65535 - norm (leSum (b16 32 ++ [0, 58] ++ src ++ dst ++
        ([type, 0] ++ [0, 0] ++ [0, 0, 0, 0] ++ target ++ [opt, 1] ++ mac))) := by
    rw [e, Option.getD_some, fold_eq_norm (small_sum (by decide) b), norm_congr r, not16_le (norm_le _),
      List.take_of_length_le (by simp [b16, hs, hd, ht, hm])]
  unfold transport6
  rw [hbl]
  show Spec.checksum (pseudo6 src dst 32 58 ++ ([type, 0] ++ le16 _ ++ [0, 0, 0, 0] ++ target ++ [opt, 1] ++ mac)) = 0
  rw [hv]
  have hx : leSum (b16 32 ++ [0, 58] ++ src ++ dst ++
      ([type, 0] ++ [0, 0] ++ [0, 0, 0, 0] ++ target ++ [opt, 1] ++ mac)) =
      leSum (b16 32) + leSum [0, 58] + leSum src + leSum dst + (leSum [type, 0] + leSum [0, 0] + leSum [0, 0, 0, 0] +
        leSum target + leSum [opt, 1] + leSum mac) := by
    rw [leSum_append_even _ _ (by simp [b16, hs, hd]), leSum_append_even _ _ (by simp [b16, hs]),
      leSum_append_even _ _ (by simp [b16]), leSum_append_even _ _ (by simp [b16]), hbody _ rfl]
  have c1 : leSum (b16 32) = 256 * 32 := by decide
  have c2 : leSum [0, 58] = 256 * 58 := by decide
  have c3 : leSum (be32 32) = 256 * 32 := by decide
  have c4 : leSum [0, 0, 0, 58] = 256 * 58 := by decide
  have c5 : leSum [0, 0] = 0 := by decide
  have c6 : leSum [0, 0, 0, 0] = 0 := by decide
  apply filled _ (leSum (b16 32 ++ [0, 58] ++ src ++ dst ++
      ([type, 0] ++ [0, 0] ++ [0, 0, 0, 0] ++ target ++ [opt, 1] ++ mac)))
  · rw [hx]; omega
  · rw [leSum_pseudo _ _ hs hd, hbody _ rfl, leSum_le16 (by omega), hx]; omega

/-- **C154.** Every echo reply and ICMPv6 error sent carries a valid checksum, when no address has an embedded scope. -/
theorem icmp_checksum_valid (env : Env) (p : Pkt) (hp : p.wf) (hl : p.body.length ≤ 65535) (h4 : 4 ≤ p.body.length)
    (h1 : NoScope p.src) (h2 : NoScope p.dst) :
    transport6 (fillIcmp env p).src (fillIcmp env p).dst 58 (fillIcmp env p).body = 0 ∧
      (fillIcmp env p).body.length = p.body.length ∧
      ∀ i, i ≠ 2 → i ≠ 3 → (fillIcmp env p).body[i]? = p.body[i]? := by
  obtain ⟨b0, b1, b2, b3, r, hb⟩ : ∃ b0 b1 b2 b3 r, p.body = b0 :: b1 :: b2 :: b3 :: r := by
    match hb : p.body, h4 with
    | b0 :: b1 :: b2 :: b3 :: r, _ => exact ⟨_, _, _, _, _, rfl⟩
  have hz := in6Cksum_val env.al { p with body := b0 :: b1 :: 0 :: 0 :: r } hp 58 (by simp) (by rw [hb] at hl; simpa using hl)
  dsimp only at hz
  rw [clearScope_noScope _ hp.2.1 h1, clearScope_noScope _ hp.2.2 h2] at hz
  have hf : fillIcmp env p = { p with body := b0 :: b1 ::
      (le16 (65535 - norm (leSum (pseudo6 p.src p.dst (b0 :: b1 :: 0 :: 0 :: r).length (u8 58) ++
        (b0 :: b1 :: 0 :: 0 :: r)))) ++ r) } := by
    unfold fillIcmp
    have : (p.body.set 2 0).set 3 0 = b0 :: b1 :: 0 :: 0 :: r := by rw [hb]; rfl
    rw [this]
    dsimp only
    rw [hz]; rfl
  rw [hf]
  refine ⟨?_, by rw [hb]; simp [le16], ?_⟩
  · dsimp only
    unfold transport6
    rw [show (b0 :: b1 :: (le16 (65535 - norm (leSum (pseudo6 p.src p.dst (b0 :: b1 :: 0 :: 0 :: r).length (u8 58) ++
        (b0 :: b1 :: 0 :: 0 :: r)))) ++ r)).length = (b0 :: b1 :: 0 :: 0 :: r).length from by simp [le16]]
    apply filled _ (leSum (pseudo6 p.src p.dst (b0 :: b1 :: 0 :: 0 :: r).length (u8 58) ++ (b0 :: b1 :: 0 :: 0 :: r)))
    · rw [leSum_pseudo _ _ hp.2.1 hp.2.2]
      have : leSum [0, 0, 0, u8 58] = 256 * 58 := by decide
      omega
    · rw [leSum_pseudo _ _ hp.2.1 hp.2.2, leSum_pseudo _ _ hp.2.1 hp.2.2]
      have hn : ∀ x, 65535 - norm x ≤ 65535 := fun x => by omega
      simp only [leSum]
      rw [leSum_append_even _ _ (by simp [le16]), leSum_le16 (hn _)]
      have e58 : (u8 58).toNat = 58 := by decide
      have e58' : (58 : UInt8).toNat = 58 := by decide
      have e0 : (0 : UInt8).toNat = 0 := rfl
      rw [e58, e58', e0]; omega
  · intro i h2 h3
    dsimp only
    rw [hb]
    match i, h2, h3 with
    | 0, _, _ => rfl
    | 1, _, _ => rfl
    | i + 4, _, _ => simp [le16]

end Verif.Ip6

import Verif.Udp.Recv
import Verif.Udp.Deliver
/-! # Sending, and a datagram's way from `ofp_sendto` to `ofp_recvfrom` -/
namespace Verif.Udp

open Cksum in
theorem beSum_even : ∀ a d : List UInt8, a.length % 2 = 0 → beSum (a ++ d) = beSum a + beSum d
  | [], d, _ => by simp [beSum]
  | [_], _, h => by simp at h
  | x :: y :: a, d, h => by
    have := beSum_even a d (by simp only [List.length_cons] at h; omega)
    simp only [List.cons_append, beSum, this]
    omega

open Cksum in
theorem beSum_pair (a d : List UInt8) (x y : UInt8) (h : a.length % 2 = 0) :
    beSum (a ++ (x :: y :: d)) = beSum a + beSum d + (x.toNat * 256 + y.toNat) := by
  rw [beSum_even a _ h]
  simp only [beSum]
  omega

theorem add_zero' (a b c : Nat) : a + b + c = a + b + 0 + c := rfl

theorem all_ones (S z : Nat) (hz : z = 255) (h : S % 65535 = 65535 % 65535) : (S + (z * 256 + z)) % 65535 = 0 := by
  subst hz; omega

open Cksum in
theorem in4_of (al : Nat → Bool × Bool) (pre pad data : List UInt8)
    (b1 l0 l1 i0 i1 f0 f1 ttl h0 h1 s0 s1 s2 s3 d0 d1 d2 d3 p0 p1 p2 p3 u0 u1 c0 c1 : UInt8)
    (hl : l0.toNat * 256 + l1.toNat = data.length + 28) (hp : pre.length + pad.length ≤ 150000) :
    ∃ r, in4Cksum al [pre ++ (([0x45, b1, l0, l1, i0, i1, f0, f1, ttl, 17, h0, h1, s0, s1, s2, s3, d0, d1, d2, d3] ++
        ([p0, p1, p2, p3, u0, u1, c0, c1] ++ data)) ++ pad)] pre.length = .ok r ∧
      stored r = Spec.wireBytes (65535 - norm (beSum ([s0, s1, s2, s3] ++ [d0, d1, d2, d3] ++ [0, 17] ++
        Spec.be16 (data.length + 8) ++ ([p0, p1, p2, p3, u0, u1, c0, c1] ++ data)))) := by
  have h0' := l0.toNat_lt
  have h1' := l1.toNat_lt
  have hlen : data.length + 28 < 65536 := by omega
  have := ofp_in4_cksum_partial al pre ([p0, p1, p2, p3, u0, u1, c0, c1] ++ (data ++ pad)) [] []
    0x45 b1 l0 l1 i0 i1 f0 f1 ttl 17 h0 h1 s0 s1 s2 s3 d0 d1 d2 d3 5 (data.length + 28) (by decide) hl (by decide)
    _ rfl (by omega) (by simp only [List.length_append, List.length_cons, List.length_nil]; omega)
    (by simp only [List.length_append, List.length_cons, List.length_nil]; omega)
    (fun _ h => absurd h List.not_mem_nil) (by decide)
    (.inl ⟨rfl, by simp only [List.length_append, List.length_cons, List.length_nil]; omega⟩)
  obtain ⟨r, hr, hs⟩ := this
  refine ⟨r, ?_, ?_⟩
  · rw [← hr]
    simp only [List.nil_append, List.append_assoc]
  · rw [hs, spec_closed]
    congr 4
    have e1 : data.length + 28 - 4 * 5 = data.length + 8 := by omega
    rw [e1]
    unfold Spec.pseudoHeader
    congr 1
    simp only [List.nil_append, List.flatten_cons, List.flatten_nil, List.append_nil]
    rw [show pre.length + 4 * 5 = pre.length + 20 from rfl, ← List.drop_drop, List.drop_left]
    show ([p0, p1, p2, p3, u0, u1, c0, c1] ++ (data ++ pad)).take (data.length + 8) = _
    rw [← List.append_assoc, List.take_append_of_le_length (by simp), List.take_of_length_le (by simp)]

open Cksum in
/-- The checksum the sender stores makes the receiver's check succeed, whatever routers did to the fields it does not
cover, and is never the "no checksum" value. -/
theorem udpSum_verifies (al al' : Nat → Bool × Bool) (pre pad data : List UInt8)
    (b1 l0 l1 i0 i1 f0 f1 ttl h0 h1 s0 s1 s2 s3 d0 d1 d2 d3 p0 p1 p2 p3 u0 u1 x y : UInt8)
    (b1' i0' i1' f0' f1' ttl' h0' h1' : UInt8)
    (hl : l0.toNat * 256 + l1.toNat = data.length + 28) (hp : pre.length + pad.length ≤ 150000) :
    ∃ c0 c1, udpSum al ([0x45, b1, l0, l1, i0, i1, f0, f1, ttl, 17, h0, h1, s0, s1, s2, s3, d0, d1, d2, d3] ++
        ([p0, p1, p2, p3, u0, u1, x, y] ++ data)) = [c0, c1] ∧ ¬ (c0 = 0 ∧ c1 = 0) ∧
      in4Cksum al' [pre ++ (([0x45, b1', l0, l1, i0', i1', f0', f1', ttl', 17, h0', h1', s0, s1, s2, s3, d0, d1, d2, d3] ++
        ([p0, p1, p2, p3, u0, u1, c0, c1] ++ data)) ++ pad)] pre.length = .ok 0 := by
  obtain ⟨r, hr, hs⟩ := in4_of al [] [] data b1 l0 l1 i0 i1 f0 f1 ttl h0 h1 s0 s1 s2 s3 d0 d1 d2 d3 p0 p1 p2 p3 u0 u1 0 0
    hl (by simp)
  have hput : put ([0x45, b1, l0, l1, i0, i1, f0, f1, ttl, 17, h0, h1, s0, s1, s2, s3, d0, d1, d2, d3] ++
        ([p0, p1, p2, p3, u0, u1, x, y] ++ data)) 26 [0, 0] =
      [0x45, b1, l0, l1, i0, i1, f0, f1, ttl, 17, h0, h1, s0, s1, s2, s3, d0, d1, d2, d3] ++
        ([p0, p1, p2, p3, u0, u1, 0, 0] ++ data) := rfl
  rw [List.append_nil, List.nil_append] at hr
  change in4Cksum al _ 0 = _ at hr
  -- the sum without checksum
  obtain ⟨S, hSd⟩ : ∃ S, S = beSum ([s0, s1, s2, s3] ++ [d0, d1, d2, d3] ++ [0, 17] ++ Spec.be16 (data.length + 8) ++
    ([p0, p1, p2, p3, u0, u1, 0, 0] ++ data)) := ⟨_, rfl⟩
  have hS : ∀ c0 c1 : UInt8, beSum ([s0, s1, s2, s3] ++ [d0, d1, d2, d3] ++ [0, 17] ++ Spec.be16 (data.length + 8) ++
      ([p0, p1, p2, p3, u0, u1, c0, c1] ++ data)) = S + (c0.toNat * 256 + c1.toNat) := by
    intro c0 c1
    rw [hSd]
    have e : ∀ x y : UInt8, [s0, s1, s2, s3] ++ [d0, d1, d2, d3] ++ [0, 17] ++ Spec.be16 (data.length + 8) ++
        ([p0, p1, p2, p3, u0, u1, x, y] ++ data) = ([s0, s1, s2, s3] ++ [d0, d1, d2, d3] ++ [0, 17] ++
        Spec.be16 (data.length + 8) ++ [p0, p1, p2, p3, u0, u1]) ++ (x :: y :: data) := fun _ _ => rfl
    rw [e c0 c1, e 0 0, beSum_pair _ data c0 c1 (by simp [Spec.be16]), beSum_pair _ data 0 0 (by simp [Spec.be16])]
    have : (0 : UInt8).toNat * 256 + (0 : UInt8).toNat = 0 := rfl
    rw [this]
    exact add_zero' _ _ _
  have hpos : 0 < S := by
    rw [hSd]
    have e : [s0, s1, s2, s3] ++ [d0, d1, d2, d3] ++ [0, 17] ++ Spec.be16 (data.length + 8) ++
        ([p0, p1, p2, p3, u0, u1, 0, 0] ++ data) = [s0, s1, s2, s3, d0, d1, d2, d3] ++ (0 :: 17 ::
        (Spec.be16 (data.length + 8) ++ ([p0, p1, p2, p3, u0, u1, 0, 0] ++ data))) := rfl
    rw [e, beSum_pair _ _ _ _ (by simp)]
    exact Nat.add_pos_right _ (by decide)
  have hs' : stored r = Spec.wireBytes (65535 - norm S) := by rw [hSd]; exact hs
  clear hSd hs
  have hn1 : norm S ≤ 65535 := norm_le S
  have hn0 : norm S ≠ 0 := fun h => by have := norm_zero_iff.1 h; omega
  have hrl : r % 256 = (65535 - norm S) / 256 ∧ r / 256 = (65535 - norm S) % 256 := by
    unfold stored Spec.wireBytes at hs'
    simp only [List.cons.injEq, and_true] at hs'
    exact hs'
  have hfin : ∀ c0 c1 : UInt8, norm (S + (c0.toNat * 256 + c1.toNat)) = 65535 →
      in4Cksum al' [pre ++ (([0x45, b1', l0, l1, i0', i1', f0', f1', ttl', 17, h0', h1', s0, s1, s2, s3, d0, d1, d2, d3] ++
        ([p0, p1, p2, p3, u0, u1, c0, c1] ++ data)) ++ pad)] pre.length = .ok 0 := by
    intro c0 c1 h
    obtain ⟨r', hr', hs2⟩ := in4_of al' pre pad data b1' l0 l1 i0' i1' f0' f1' ttl' h0' h1' s0 s1 s2 s3 d0 d1 d2 d3
      p0 p1 p2 p3 u0 u1 c0 c1 hl hp
    rw [hr']
    rw [hS, h] at hs2
    unfold stored Spec.wireBytes at hs2
    simp only [List.cons.injEq, and_true] at hs2
    have : r' = 0 := by omega
    rw [this]
  have hnorm : ∀ v, v % 65535 = 0 → v ≠ 0 → norm v = 65535 := by
    intro v h1 h2
    unfold norm
    rw [if_neg h2, if_pos h1]
  have hmod : S % 65535 = norm S % 65535 := ((R_norm S).1).symm
  unfold udpSum
  rw [hput, hr]
  by_cases h : r = 0
  · rw [h]
    refine ⟨255, 255, rfl, by decide, hfin 255 255 (hnorm _ ?_ ?_)⟩
    · have h1 : norm S = 65535 := by omega
      rw [h1] at hmod
      exact all_ones S _ rfl hmod
    · exact Nat.ne_of_gt (Nat.add_pos_left hpos _)
  · refine ⟨UInt8.ofNat (r % 256), UInt8.ofNat (r / 256), ?_, ?_, hfin _ _ (hnorm _ ?_ ?_)⟩
    · cases r with
      | zero => exact absurd rfl h
      | succ m => rfl
    · rintro ⟨g1, g2⟩
      have g1' := congrArg UInt8.toNat g1
      have g2' := congrArg UInt8.toNat g2
      simp only [UInt8.toNat_ofNat', show (0 : UInt8).toNat = 0 from rfl] at g1' g2'
      omega
    · have h2 : (UInt8.ofNat (r % 256)).toNat = r % 256 := by simp only [UInt8.toNat_ofNat']; omega
      have h3 : (UInt8.ofNat (r / 256)).toNat = r / 256 := by simp only [UInt8.toNat_ofNat']; omega
      rw [h2, h3, hrl.1, hrl.2]
      clear hS hfin hnorm hr hput
      omega
    · omega

/-! ## Encoding -/

/-- A wire image of a datagram as a receiver finds it. -/
def image (b1 i0 i1 f0 f1 ttl h0 h1 c0 c1 : UInt8) (src sp dst dp : Nat) (data : List UInt8) : List UInt8 :=
  [0x45, b1, UInt8.ofNat ((data.length + 28) / 256), UInt8.ofNat ((data.length + 28) % 256), i0, i1, f0, f1, ttl, 17, h0, h1,
    UInt8.ofNat (src / 65536 / 256), UInt8.ofNat (src / 65536 % 256), UInt8.ofNat (src % 65536 / 256),
    UInt8.ofNat (src % 65536 % 256),
    UInt8.ofNat (dst / 65536 / 256), UInt8.ofNat (dst / 65536 % 256), UInt8.ofNat (dst % 65536 / 256),
    UInt8.ofNat (dst % 65536 % 256)] ++
  ([UInt8.ofNat (sp / 256), UInt8.ofNat (sp % 256), UInt8.ofNat (dp / 256), UInt8.ofNat (dp % 256),
    UInt8.ofNat ((data.length + 8) / 256), UInt8.ofNat ((data.length + 8) % 256), c0, c1] ++ data)

/-- Fields of a received image. -/
theorem image_fields (b : Buf) (b1 i0 i1 f0 f1 ttl h0 h1 c0 c1 : UInt8) (src sp dst dp : Nat) (data pad : List UInt8)
    (h3 : b.l3 = image b1 i0 i1 f0 f1 ttl h0 h1 c0 c1 src sp dst dp data ++ pad) (h4 : b.l4 = 20)
    (hs : src < 4294967296) (hd : dst < 4294967296) (hsp : sp < 65536) (hdp : dp < 65536)
    (hlen : data.length ≤ 65507) :
    b.hlen = 20 ∧ b.src = src ∧ b.dst = dst ∧ b.sport = sp ∧ b.dport = dp ∧ b.ttl = ttl.toNat ∧
    b.usum = c0.toNat * 256 + c1.toNat ∧ Whole b ∧ b.payload = data := by
  have hb : ∀ k (x : UInt8), (image b1 i0 i1 f0 f1 ttl h0 h1 c0 c1 src sp dst dp data)[k]? = some x → b.byte k = x := by
    intro k x hx
    unfold Buf.byte
    rw [h3]
    have hk : k < (image b1 i0 i1 f0 f1 ttl h0 h1 c0 c1 src sp dst dp data).length := by
      rcases Nat.lt_or_ge k (image b1 i0 i1 f0 f1 ttl h0 h1 c0 c1 src sp dst dp data).length with h | h
      · exact h
      · rw [List.getElem?_eq_none h] at hx; cases hx
    rw [getD_left _ _ _ (by rw [List.length_append]; omega), getD_left _ _ _ hk, List.getD_eq_getElem?_getD, hx]
    rfl
  have e0 : b.hlen = 20 := by unfold Buf.hlen; rw [hb 0 0x45 rfl]; rfl
  have e1 : b.src = src := by
    unfold Buf.src Buf.be32 Buf.be16
    rw [hb 12 _ rfl, hb 13 _ rfl, hb 14 _ rfl, hb 15 _ rfl, b16_toNat _ (by omega), b16_toNat _ (by omega)]
    omega
  have e2 : b.dst = dst := by
    unfold Buf.dst Buf.be32 Buf.be16
    rw [hb 16 _ rfl, hb 17 _ rfl, hb 18 _ rfl, hb 19 _ rfl, b16_toNat _ (by omega), b16_toNat _ (by omega)]
    omega
  have e3 : b.sport = sp := by
    unfold Buf.sport Buf.be16
    rw [e0, hb 20 _ rfl, hb 21 _ rfl, b16_toNat _ hsp]
  have e4 : b.dport = dp := by
    unfold Buf.dport Buf.be16
    rw [e0, hb 22 _ rfl, hb 23 _ rfl, b16_toNat _ hdp]
  have e5 : b.ulen = data.length + 8 := by
    unfold Buf.ulen Buf.be16
    rw [e0, hb 24 _ rfl, hb 25 _ rfl, b16_toNat _ (by omega)]
  have e6 : b.usum = c0.toNat * 256 + c1.toNat := by
    unfold Buf.usum Buf.be16
    rw [e0, hb 26 c0 rfl, hb 27 c1 rfl]
  have e7 : b.ttl = ttl.toNat := by unfold Buf.ttl; rw [hb 8 ttl rfl]
  have el : b.l3.length = data.length + 28 + pad.length := by
    rw [h3]; simp [image]; omega
  refine ⟨e0, e1, e2, e3, e4, e7, e6, ⟨by omega, by omega, by omega, by omega⟩, ?_⟩
  unfold Buf.payload
  rw [e0, e5, h3]
  show (data ++ pad).take (data.length + 8 - 8) = data
  rw [Nat.add_sub_cancel, List.take_left]

/-- What `ofp_ip_output` makes of the datagram is such an image, with a checksum the receiver will accept. -/
theorem onWire_image (al : Nat → Bool × Bool) (ifAddr ident : Nat) (hsum : List UInt8 → List UInt8)
    (hh : ∀ x, (hsum x).length = 2) (k : Snd) (la lp fa fp : Nat) (data : List UInt8) (hl : data.length ≤ 65507)
    (hla : la < 4294967296) :
    ∃ b1 i0 i1 ttl h0 h1 c0 c1,
      onWire al ifAddr ident hsum (datagram k la lp fa fp data) =
        image b1 i0 i1 0 0 ttl h0 h1 c0 c1 (if la = 0 then ifAddr else la) lp fa fp data ∧ ¬ (c0 = 0 ∧ c1 = 0) ∧
      b1 = UInt8.ofNat k.tos ∧ ttl = UInt8.ofNat k.ttl ∧ [i0, i1] = b16 ident ∧
      ∀ al' pre pad b1' i0' i1' f0' f1' ttl' h0' h1', pre.length + pad.length ≤ 150000 →
        Cksum.in4Cksum al' [pre ++ (image b1' i0' i1' f0' f1' ttl' h0' h1' c0 c1 (if la = 0 then ifAddr else la) lp fa fp data
          ++ pad)] pre.length = .ok 0 := by
  let src := if la = 0 then ifAddr else la
  -- source
  have hsrc : (if ((datagram k la lp fa fp data).drop 12).take 4 = [0, 0, 0, 0] then
      put (datagram k la lp fa fp data) 12 (b32 ifAddr) else datagram k la lp fa fp data) =
      datagram k src lp fa fp data := by
    have hd : ((datagram k la lp fa fp data).drop 12).take 4 = b32 la := rfl
    rw [hd]
    by_cases h0 : la = 0
    · have : b32 la = [0, 0, 0, 0] := by rw [h0]; rfl
      rw [if_pos this]
      simp only [src, if_pos h0]
      rfl
    · have : b32 la ≠ [0, 0, 0, 0] := by
        intro h
        simp only [b32, b16, List.cons_append, List.nil_append, List.cons.injEq, and_true] at h
        have e1 := congrArg UInt8.toNat h.1
        have e2 := congrArg UInt8.toNat h.2.1
        have e3 := congrArg UInt8.toNat h.2.2.1
        have e4 := congrArg UInt8.toNat h.2.2.2
        simp only [UInt8.toNat_ofNat', show (0 : UInt8).toNat = 0 from rfl] at e1 e2 e3 e4
        omega
      rw [if_neg this]
      simp only [src, if_neg h0]
  have ha : put (datagram k src lp fa fp data) 4 (b16 ident) =
      image (UInt8.ofNat k.tos) (UInt8.ofNat (ident / 256)) (UInt8.ofNat (ident % 256)) 0 0 (UInt8.ofNat k.ttl) 0 0 0 0
        src lp fa fp data := rfl
  have hb : (UInt8.ofNat ((data.length + 28) / 256)).toNat * 256 + (UInt8.ofNat ((data.length + 28) % 256)).toNat =
      data.length + 28 := b16_toNat _ (by omega)
  have hc : ∃ c0 c1, udpSum al (image (UInt8.ofNat k.tos) (UInt8.ofNat (ident / 256)) (UInt8.ofNat (ident % 256)) 0 0
      (UInt8.ofNat k.ttl) 0 0 0 0 src lp fa fp data) = [c0, c1] := by
    obtain ⟨c0, c1, h, _⟩ := udpSum_verifies al al [] [] data _ _ _ _ _ _ _ _ _ _ _ _ _ _ _ _ _ _ _ _ _ _ _ _ _ _
      0 0 0 0 0 0 0 0 hb (by simp)
    exact ⟨c0, c1, h⟩
  obtain ⟨c0, c1, hc⟩ := hc
  have hput : ∀ h0 h1 : UInt8, put (put (image (UInt8.ofNat k.tos) (UInt8.ofNat (ident / 256)) (UInt8.ofNat (ident % 256))
      0 0 (UInt8.ofNat k.ttl) 0 0 0 0 src lp fa fp data) 26 [c0, c1]) 10 [h0, h1] =
      image (UInt8.ofNat k.tos) (UInt8.ofNat (ident / 256)) (UInt8.ofNat (ident % 256)) 0 0 (UInt8.ofNat k.ttl) h0 h1 c0 c1
        src lp fa fp data := fun _ _ => rfl
  have hcs : ∀ al' (pre pad : List UInt8) b1' i0' i1' f0' f1' ttl' h0' h1', pre.length + pad.length ≤ 150000 →
      ¬ (c0 = 0 ∧ c1 = 0) ∧ Cksum.in4Cksum al' [pre ++ (image b1' i0' i1' f0' f1' ttl' h0' h1' c0 c1 src lp fa fp data
          ++ pad)] pre.length = .ok 0 := by
    intro al' pre pad b1' i0' i1' f0' f1' ttl' h0' h1' hp
    obtain ⟨d0, d1, g1, g2, g3⟩ := udpSum_verifies al al' pre pad data _ _ _ _ _ _ _ _ _ _ _ _ _ _ _ _ _ _ _ _ _ _ _ _ _ _
      b1' i0' i1' f0' f1' ttl' h0' h1' hb hp
    have hg : [d0, d1] = [c0, c1] := g1.symm.trans hc
    simp only [List.cons.injEq, and_true] at hg
    rw [← hg.1, ← hg.2]
    exact ⟨g2, g3⟩
  have hh' := hh (put (image (UInt8.ofNat k.tos) (UInt8.ofNat (ident / 256)) (UInt8.ofNat (ident % 256))
      0 0 (UInt8.ofNat k.ttl) 0 0 0 0 src lp fa fp data) 26 [c0, c1])
  match hm : hsum (put (image (UInt8.ofNat k.tos) (UInt8.ofNat (ident / 256)) (UInt8.ofNat (ident % 256))
      0 0 (UInt8.ofNat k.ttl) 0 0 0 0 src lp fa fp data) 26 [c0, c1]), hh' with
  | [h0, h1], _ =>
    refine ⟨UInt8.ofNat k.tos, UInt8.ofNat (ident / 256), UInt8.ofNat (ident % 256), UInt8.ofNat k.ttl, h0, h1, c0, c1,
      ?_, (hcs al [] [] 0 0 0 0 0 0 0 0 (by simp)).1, rfl, rfl, rfl, ?_⟩
    · unfold onWire
      simp only
      rw [hsrc, ha, hc, hm]
      exact hput h0 h1
    · intro al' pre pad b1' i0' i1' f0' f1' ttl' h0' h1' hp
      exact (hcs al' pre pad b1' i0' i1' f0' f1' ttl' h0' h1' hp).2

end Verif.Udp

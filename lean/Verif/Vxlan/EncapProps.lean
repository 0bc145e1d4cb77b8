import Verif.Vxlan.Encap
import Verif.Vxlan.TabLemmas
/-! # C180-C182: VXLAN encapsulation -/
namespace Verif.Vxlan

theorem poke_left {h d bs : List Nat} {k : Nat} (hk : k + bs.length ≤ h.length) :
    poke (h ++ d) k bs = poke h k bs ++ d := by
  unfold poke
  rw [List.take_append_of_le_length (by omega), List.drop_append_of_le_length hk]
  simp

theorem poke_mid {a b c bs : List Nat} {k : Nat} (hk : k = a.length) (hb : bs.length = b.length) :
    poke (a ++ (b ++ c)) k bs = a ++ (bs ++ c) := by
  unfold poke
  subst hk
  rw [List.take_left, hb]
  have : a ++ (b ++ c) = (a ++ b) ++ c := by simp
  rw [this, ← List.length_append, List.drop_left]
  simp

theorem poke_length {d bs : List Nat} {k : Nat} (h : k + bs.length ≤ d.length) :
    (poke d k bs).length = d.length := by
  unfold poke; simp; omega

theorem b8_left {h d : List Nat} {k : Nat} (hk : k < h.length) : b8 (h ++ d) k = b8 h k := by
  unfold b8; rw [List.getD_eq_getElem?_getD, List.getElem?_append_left hk, ← List.getD_eq_getElem?_getD]

theorem b8_right {h d : List Nat} {k : Nat} : b8 (h ++ d) (h.length + k) = b8 d k := by
  unfold b8
  rw [List.getD_eq_getElem?_getD, List.getElem?_append_right (by omega), ← List.getD_eq_getElem?_getD]
  congr 1; omega

theorem b16_right {h d : List Nat} {k : Nat} : b16 (h ++ d) (h.length + k) = b16 d k := by
  unfold b16; rw [b8_right, Nat.add_assoc, b8_right]
theorem b32_right {h d : List Nat} {k : Nat} : b32 (h ++ d) (h.length + k) = b32 d k := by
  unfold b32; rw [b16_right, Nat.add_assoc, b16_right]
theorem b16_left {h d : List Nat} {k : Nat} (hk : k + 1 < h.length) : b16 (h ++ d) k = b16 h k := by
  unfold b16; rw [b8_left (by omega), b8_left hk]
theorem b32_left {h d : List Nat} {k : Nat} (hk : k + 3 < h.length) : b32 (h ++ d) k = b32 h k := by
  unfold b32; rw [b16_left (by omega), b16_left (by omega)]

theorem b16_be16 (x : Nat) : b16 (be16 x) 0 = x % 65536 := by
  simp [b16, b8, be16]; omega
theorem b32_be32 (x : Nat) : b32 (be32 x) 0 = x % 4294967296 := by
  simp [b32, b16, b8, be32, be16]; omega

theorem be16_length (x : Nat) : (be16 x).length = 2 := rfl
theorem be32_length (x : Nat) : (be32 x).length = 4 := rfl

/-- Specification (RFC 791, 768, 7348): the 36 bytes in front of a frame of `size` bytes sent by
VXLAN to `dst` with network identifier `vni`; `id` is the identification of the IP header. -/
def vxOuter (id : List Nat) (size vni dst : Nat) : List Nat :=
  [0x45, 0] ++ be16 (size + 36) ++ id ++ [0, 0] ++ [2, 17] ++ [0, 0] ++ be32 0 ++ be32 dst ++
  be16 17777 ++ be16 4789 ++ be16 (size + 16) ++ [0, 0] ++
  [8, 0, 0, 0] ++ be32 (vni * 256)

theorem vxOuter_length {id : List Nat} (h : id.length = 2) (size vni dst : Nat) :
    (vxOuter id size vni dst).length = 36 := by
  simp [vxOuter, be16, be32, h]

/-- Where the frame is sent: the known end point of the destination MAC address, else the group. -/
def vxDst (t : Tab) (dev : VxDev) (frame : List Nat) : Nat :=
  if getMac t (macAt frame 0) = 0 then dev.group else getMac t (macAt frame 0)

/-- C182: with enough head room, encapsulation succeeds, puts the specified 36 bytes in front of
the frame and changes nothing else of it; without, it fails. -/
theorem vx_prepend_exact (t : Tab) (dev : VxDev) (p : Pkt) :
    (p.head.length < 36 ∧ vxPrepend t dev p = none) ∨
    (∃ q id, vxPrepend t dev p = some q ∧ id.length = 2 ∧
      q.data = vxOuter id p.data.length dev.vni (vxDst t dev p.data) ++ p.data ∧
      q.head = p.head.take (p.head.length - 36) ∧ q.l2 = 0 ∧ q.l3 = 0) := by
  by_cases h : 36 ≤ p.head.length
  · right
    have hl : (p.head.drop (p.head.length - 36)).length = 36 := by simp; omega
    generalize hH : p.head.drop (p.head.length - 36) = H at hl
    refine ⟨⟨p.head.take (p.head.length - 36), vxOuter ((H.drop 4).take 2) p.data.length dev.vni
      (vxDst t dev p.data) ++ p.data, 0, 0, p.hasL2⟩, (H.drop 4).take 2, ?_, ?_, rfl, rfl, rfl, rfl⟩
    · unfold vxPrepend push
      simp only [if_pos h, hH, Option.some.injEq, Pkt.mk.injEq, true_and, and_true]
      have split : H = H.take 4 ++ ((H.drop 4).take 2 ++ ((H.drop 6).take 14 ++
          ((H.drop 20).take 8 ++ H.drop 28))) := by
        conv => lhs; rw [← List.take_append_drop 4 H]
        congr 1
        conv => lhs; rw [← List.take_append_drop 2 (H.drop 4), List.drop_drop]
        congr 1
        conv => lhs; rw [← List.take_append_drop 14 (H.drop 6), List.drop_drop]
        congr 1
        conv => lhs; rw [← List.take_append_drop 8 (H.drop 20), List.drop_drop]
      have e1 : (H.take 4).length = 4 := by simp; omega
      have e2 : ((H.drop 4).take 2).length = 2 := by simp; omega
      have e3 : ((H.drop 6).take 14).length = 14 := by simp; omega
      have e4 : ((H.drop 20).take 8).length = 8 := by simp; omega
      have e5 : (H.drop 28).length = 8 := by simp; omega
      generalize H.take 4 = a1 at *
      generalize (H.drop 4).take 2 = a2 at *
      generalize (H.drop 6).take 14 = a3 at *
      generalize (H.drop 20).take 8 = a4 at *
      generalize H.drop 28 = a5 at *
      rw [split]
      generalize hgw : (if getMac t (macAt p.data 0) = 0 then dev.group
        else getMac t (macAt p.data 0)) = gw
      have hgw' : vxDst t dev p.data = gw := hgw
      rw [hgw']
      have s1 : ∀ (A : List Nat), A.length = 4 →
          poke (a1 ++ (a2 ++ (a3 ++ (a4 ++ a5))) ++ p.data) 0 A =
            A ++ (a2 ++ (a3 ++ (a4 ++ (a5 ++ p.data)))) := by
        intro A hA
        have := poke_mid (a := []) (b := a1) (c := a2 ++ (a3 ++ (a4 ++ (a5 ++ p.data)))) (bs := A)
          (k := 0) rfl (by omega)
        simpa using this
      rw [s1 _ (by simp [be16])]
      have s2 : ∀ (A B : List Nat), A.length = 4 → B.length = 14 →
          poke (A ++ (a2 ++ (a3 ++ (a4 ++ (a5 ++ p.data))))) 6 B =
            A ++ (a2 ++ (B ++ (a4 ++ (a5 ++ p.data)))) := by
        intro A B hA hB
        have := poke_mid (a := A ++ a2) (b := a3) (c := a4 ++ (a5 ++ p.data)) (bs := B)
          (k := 6) (by simp; omega) (by omega)
        simpa using this
      rw [s2 _ _ (by simp [be16]) (by simp [be32, be16])]
      have s3 : ∀ (A B C : List Nat), A.length = 4 → B.length = 14 → C.length = 8 →
          poke (A ++ (a2 ++ (B ++ (a4 ++ (a5 ++ p.data))))) 20 C =
            A ++ (a2 ++ (B ++ (C ++ (a5 ++ p.data)))) := by
        intro A B C hA hB hC
        have := poke_mid (a := A ++ (a2 ++ B)) (b := a4) (c := a5 ++ p.data) (bs := C)
          (k := 20) (by simp; omega) (by omega)
        simpa using this
      rw [s3 _ _ _ (by simp [be16]) (by simp [be32, be16]) (by simp [be16])]
      have s4 : ∀ (A B C D : List Nat), A.length = 4 → B.length = 14 → C.length = 8 → D.length = 8 →
          poke (A ++ (a2 ++ (B ++ (C ++ (a5 ++ p.data))))) 28 D =
            A ++ (a2 ++ (B ++ (C ++ (D ++ p.data)))) := by
        intro A B C D hA hB hC hD
        have := poke_mid (a := A ++ (a2 ++ (B ++ C))) (b := a5) (c := p.data) (bs := D)
          (k := 28) (by simp; omega) (by omega)
        simpa using this
      rw [s4 _ _ _ _ (by simp [be16]) (by simp [be32, be16]) (by simp [be16]) (by simp [be32, be16])]
      simp [vxOuter, be16, be32]
    · simp; omega
  · left
    refine ⟨by omega, ?_⟩
    unfold vxPrepend push
    simp only [if_neg h]

theorem lenEqPart {id : List Nat} (h : id.length = 2) : ∃ a b, id = [a, b] := by
  match id, h with
  | [a, b], _ => exact ⟨a, b, rfl⟩

/-- C182, field by field, for frames that fit (at most 65499 bytes): the outer header is a correct
IPv4, UDP and VXLAN header.  Larger frames: `vx_lengths_violated`. -/
theorem vx_fields_partial {t : Tab} {dev : VxDev} {p q : Pkt} (h : vxPrepend t dev p = some q)
    (hs : p.data.length + 36 < 65536) (hv : dev.vni < 2 ^ 24) :
    b8 q.data 0 = 0x45 ∧ b16 q.data 2 = q.data.length ∧ b16 q.data 6 = 0 ∧ b8 q.data 8 = 2 ∧
    b8 q.data 9 = 17 ∧ b32 q.data 16 = vxDst t dev p.data % 2 ^ 32 ∧
    b16 q.data 22 = 4789 ∧ b16 q.data 24 = q.data.length - 20 ∧
    b8 q.data 28 = 8 ∧ b32 q.data 32 = dev.vni * 256 := by
  rcases vx_prepend_exact t dev p with ⟨_, e⟩ | ⟨q', id, e, hid, hd, _⟩
  · rw [e] at h; cases h
  · rw [e] at h; cases h
    obtain ⟨a, b, rfl⟩ := lenEqPart hid
    have hlen : q.data.length = p.data.length + 36 := by
      rw [hd, List.length_append, vxOuter_length hid]; omega
    rw [hlen, hd]
    generalize p.data.length = L at *
    generalize vxDst t dev p.data = D
    simp only [vxOuter, be16, be32, List.cons_append, List.nil_append, b32, b16, b8,
      List.getD_cons_zero, List.getD_cons_succ]
    refine ⟨trivial, ?_, trivial, trivial, trivial, ?_, trivial, ?_, trivial, ?_⟩ <;> omega

/-- C182 refuted for frames of 65500 bytes and more: the length fields are too small. -/
theorem vx_lengths_violated (t : Tab) (dev : VxDev) (p : Pkt) (hh : 36 ≤ p.head.length)
    (hs : 65500 ≤ p.data.length) :
    ∃ q, vxPrepend t dev p = some q ∧ b16 q.data 2 < q.data.length := by
  rcases vx_prepend_exact t dev p with ⟨hx, _⟩ | ⟨q, id, e, hid, hd, _⟩
  · omega
  · refine ⟨q, e, ?_⟩
    obtain ⟨a, b, rfl⟩ := lenEqPart hid
    have hlen : q.data.length = p.data.length + 36 := by
      rw [hd, List.length_append, vxOuter_length hid]; omega
    rw [hlen, hd]
    generalize p.data.length = L at *
    simp only [vxOuter, be16, be32, List.cons_append, List.nil_append, b16, b8,
      List.getD_cons_zero, List.getD_cons_succ]
    omega

/-- Specification: a UDP datagram to the VXLAN port in an IPv4 packet without options: link header,
IP header, ports, UDP length and sum, VXLAN flags, VNI, and a frame. -/
structure Arrives (r : Pkt) (l2h iph : List Nat) (sport : Nat) (lenSum flags : List Nat) (vni : Nat)
    (low : Nat) (frame : List Nat) : Prop where
  data : r.data = l2h ++ (iph ++ (be16 sport ++ be16 4789 ++ lenSum ++ flags ++
    be32 (vni * 256 + low) ++ frame))
  l3 : r.l3 = l2h.length
  ipl : iph.length = 20
  ver : b8 iph 0 = 0x45
  proto : b8 iph 9 = 17
  ls : lenSum.length = 4
  fl : flags.length = 4
  vn : vni < 2 ^ 24
  lo : low < 256

/-- What `ofp_vxlan_input` does with such a packet, exactly. -/
theorem vx_input_exact {r : Pkt} {l2h iph lenSum flags frame : List Nat} {sport vni low : Nat}
    (A : Arrives r l2h iph sport lenSum flags vni low frame) (t : Tab) (vx : Nat → Bool) :
    vxInput t vx r =
      if vni % 65536 ≠ 0 ∧ ¬ vx (vni % 65536) then (.cont r, t)
      else (.give (vni % 65536)
          ⟨r.head ++ (l2h ++ (iph ++ (be16 sport ++ be16 4789 ++ lenSum ++ flags ++
            be32 (vni * 256 + low)))), frame, 0, if b16 frame 12 = 0x8100 then 18 else 14, r.hasL2⟩,
        setMac t (macAt frame 6) (b32 iph 12)) := by
  obtain ⟨hd, h3, hi, hv, hp, hls, hfl, hvn, hlo⟩ := A
  generalize hU : be16 sport ++ be16 4789 ++ lenSum ++ flags ++ be32 (vni * 256 + low) = U
  have hUl : U.length = 16 := by rw [← hU]; simp [be16, be32, hls, hfl]
  have hd' : r.data = l2h ++ (iph ++ (U ++ frame)) := by rw [hd, ← hU]
  have p9 : b8 r.data (r.l3 + 9) = 17 := by
    rw [hd', h3, b8_right, b8_left (by omega)]; exact hp
  have p0 : b8 r.data r.l3 = 0x45 := by
    have : r.l3 = l2h.length + 0 := by omega
    rw [hd', this, b8_right, b8_left (by omega)]; exact hv
  have pd : b16 r.data (r.l3 + 20 + 2) = 4789 := by
    have : r.l3 + 20 + 2 = l2h.length + (iph.length + 2) := by omega
    rw [hd', this, b16_right, b16_right, b16_left (by omega), ← hU]
    rfl
  have pv : b32 r.data (r.l3 + 20 + 12) = vni * 256 + low := by
    have : r.l3 + 20 + 12 = l2h.length + (iph.length + 12) := by omega
    rw [hd', this, b32_right, b32_right, b32_left (by omega), ← hU]
    have : 12 = (be16 sport ++ be16 4789 ++ lenSum ++ flags).length + 0 := by
      simp [be16, hls, hfl]
    rw [this, b32_right, b32_be32]
    omega
  have ps : b32 r.data (r.l3 + 12) = b32 iph 12 := by
    rw [hd', h3, b32_right, b32_left (by omega)]
  have hvni : (vni * 256 + low) / 256 = vni := by omega
  have hpull : pull r (r.l3 + 20 + 8 + 8) =
      some { r with head := r.head ++ (l2h ++ (iph ++ U)), data := frame } := by
    have e : r.l3 + 20 + 8 + 8 = (l2h ++ (iph ++ U)).length := by simp; omega
    have e2 : r.data = (l2h ++ (iph ++ U)) ++ frame := by rw [hd']; simp
    unfold pull
    rw [if_pos (by rw [e, e2]; simp), e, e2, List.take_left, List.drop_left]
  unfold vxInput
  simp only [p9, p0, ne_eq, not_true_eq_false, if_false]
  have e45 : 69 % 16 * 4 = 20 := rfl
  simp only [e45, pd, not_true_eq_false, if_false, pv, hvni, ps, hpull]

/-- C180: round trip.  A frame that one end encapsulates for interface `vni` arrives, through any
IPv4 path that delivers the UDP datagram with an IP header without options, as exactly the same
frame on the interface with the same number, and the source MAC address of the frame is learned
with the address of the sender. -/
theorem vx_round_trip {t : Tab} {dev : VxDev} {p q r : Pkt} (h : vxPrepend t dev p = some q)
    (hv : dev.vni < 2 ^ 16) {l2h iph : List Nat} (hr : r.data = l2h ++ (iph ++ q.data.drop 20))
    (h3 : r.l3 = l2h.length) (hi : iph.length = 20) (h0 : b8 iph 0 = 0x45) (h9 : b8 iph 9 = 17)
    (t' : Tab) (vx : Nat → Bool) (hx : vx dev.vni = true) :
    ∃ q', vxInput t' vx r = (.give dev.vni q', setMac t' (macAt p.data 6) (b32 iph 12)) ∧
      q'.data = p.data ∧ q'.l2 = 0 ∧ q'.l3 = (if b16 p.data 12 = 0x8100 then 18 else 14) := by
  rcases vx_prepend_exact t dev p with ⟨_, e⟩ | ⟨q', id, e, hid, hd, _⟩
  · rw [e] at h; cases h
  · rw [e] at h; cases h
    obtain ⟨a, b, rfl⟩ := lenEqPart hid
    have A : Arrives r l2h iph 17777 (be16 (p.data.length + 16) ++ [0, 0]) [8, 0, 0, 0] dev.vni 0
        p.data := by
      refine ⟨?_, h3, hi, h0, h9, rfl, rfl, by omega, by omega⟩
      rw [hr, hd]
      simp [vxOuter, be16, be32]
    have := vx_input_exact A t' vx
    rw [Nat.mod_eq_of_lt hv] at this
    rw [if_neg (by simp [hx])] at this
    exact ⟨_, this, rfl, rfl, rfl⟩

/-- C181, the part that holds: a packet whose VNI is below 65536 and not 0 is taken by the
interface with exactly that number, if there is one, and left alone otherwise. -/
theorem vni_demux_partial {r : Pkt} {l2h iph lenSum flags frame : List Nat} {sport vni low : Nat}
    (A : Arrives r l2h iph sport lenSum flags vni low frame) (hv : vni < 65536) (h0 : vni ≠ 0)
    (t : Tab) (vx : Nat → Bool) :
    (vx vni = true → ∃ q, (vxInput t vx r).1 = .give vni q ∧ q.data = frame) ∧
    (vx vni = false → vxInput t vx r = (.cont r, t)) := by
  have e := vx_input_exact A t vx
  rw [Nat.mod_eq_of_lt hv] at e
  constructor
  · intro h
    rw [if_neg (by simp [h])] at e
    exact ⟨_, by rw [e], rfl⟩
  · intro h
    rw [if_pos ⟨h0, by simp [h]⟩] at e
    exact e

/-- C181 refuted: a packet of network 65536 + v is delivered to the interface of network v. -/
theorem vni_isolation_violated {r : Pkt} {l2h iph lenSum flags frame : List Nat} {sport v low : Nat}
    (A : Arrives r l2h iph sport lenSum flags (65536 + v) low frame) (hv : v < 65536)
    (t : Tab) (vx : Nat → Bool) (hx : vx v = true) :
    ∃ q, (vxInput t vx r).1 = .give v q ∧ q.data = frame := by
  have e := vx_input_exact A t vx
  have : (65536 + v) % 65536 = v := by omega
  rw [this, if_neg (by simp [hx])] at e
  exact ⟨_, by rw [e], rfl⟩

/-- C181 refuted: network 0 is taken although no interface for it has been configured, and its
sender is learned. -/
theorem vni_zero_violated {r : Pkt} {l2h iph lenSum flags frame : List Nat} {sport low : Nat}
    (A : Arrives r l2h iph sport lenSum flags 0 low frame) (t : Tab) :
    ∃ q, vxInput t (fun _ => false) r = (.give 0 q, setMac t (macAt frame 6) (b32 iph 12)) := by
  have e := vx_input_exact A t (fun _ => false)
  rw [if_neg (by simp)] at e
  exact ⟨_, e⟩

/-- C181 refuted: the flag that says that the VNI is valid (RFC 7348, section 5) is not looked at,
and a frame need not even have an Ethernet header. -/
theorem vx_validation_violated {r : Pkt} {l2h iph lenSum : List Nat} {sport vni low : Nat}
    (A : Arrives r l2h iph sport lenSum [0, 0, 0, 0] vni low []) (hv : vni < 65536)
    (t : Tab) (vx : Nat → Bool) (hx : vx vni = true) :
    ∃ q, (vxInput t vx r).1 = .give vni q ∧ q.data = [] := by
  have e := vx_input_exact A t vx
  rw [Nat.mod_eq_of_lt hv, if_neg (by simp [hx])] at e
  exact ⟨_, by rw [e], rfl⟩

/-- An IPv4 header for the examples, from 10.0.0.1 to 10.0.0.2. -/
def exIp : List Nat := [0x45, 0, 0, 50, 0, 1, 0, 0, 2, 17, 0, 0, 10, 0, 0, 1, 10, 0, 0, 2]

/-- Packets as described by `Arrives` exist, for every VNI. -/
theorem arrives_exists (l2h flags frame : List Nat) (vni : Nat) (hf : flags.length = 4)
    (hv : vni < 2 ^ 24) :
    ∃ r, Arrives r l2h exIp 1000 [0, 0, 0, 0] flags vni 0 frame :=
  ⟨⟨[], l2h ++ (exIp ++ (be16 1000 ++ be16 4789 ++ [0, 0, 0, 0] ++ flags ++
    be32 (vni * 256 + 0) ++ frame)), 0, l2h.length, true⟩,
    rfl, rfl, rfl, rfl, rfl, rfl, hf, hv, by omega⟩

/-- And packets that can be encapsulated. -/
example : ∃ q, vxPrepend init ⟨5, 0xE0000001⟩ ⟨List.replicate 64 0, List.replicate 60 7, 0, 14, true⟩ =
    some q ∧ b32 q.data 16 = 0xE0000001 := by
  rcases vx_prepend_exact init ⟨5, 0xE0000001⟩ ⟨List.replicate 64 0, List.replicate 60 7, 0, 14, true⟩
    with ⟨h, _⟩ | ⟨q, _, e, _⟩
  · simp at h
  · have hf := vx_fields_partial e (by simp) (by decide)
    refine ⟨q, e, ?_⟩
    rw [hf.2.2.2.2.2.1]
    have : getMac init (macAt (List.replicate 60 7) 0) = 0 := by
      have : getMac init (macAt (List.replicate 60 7) 0) =
          getLoop _ init (8191 + 1) (home (macAt (List.replicate 60 7) 0)) := rfl
      rw [this]; rfl
    simp only [vxDst, this, if_true]

end Verif.Vxlan

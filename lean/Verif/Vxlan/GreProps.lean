import Verif.Vxlan.EncapProps
/-! # C183-C186: GRE tunnels and VLAN tags -/
namespace Verif.Vxlan

/-! ## C183: the outer header -/

/-- The packet is what the IP output path hands to the tunnel: an Ethernet header of less than 256
bytes at the start of the packet, or none. -/
def OutOk (p : Pkt) : Prop :=
  p.l3 ≤ p.data.length ∧ ((p.hasL2 = true ∧ p.l2 = 0 ∧ p.l3 < 256) ∨ (p.hasL2 = false ∧ p.l3 = 0))

/-- Specification (RFC 791, 2784): the 24 bytes in front of a packet that is sent through a GRE
tunnel from `loc` to `rem`: `len` is the total length, `pt` the protocol type. -/
def greOuter (id : List Nat) (tos len ttl loc rem pt : Nat) : List Nat :=
  [0x45, tos] ++ be16 len ++ id ++ [0, 0] ++ [ttl, 47] ++ [0, 0] ++ be32 loc ++ be32 rem ++
  [0, 0] ++ be16 pt

theorem greOuter_length {id : List Nat} (h : id.length = 2) (tos len ttl loc rem pt : Nat) :
    (greOuter id tos len ttl loc rem pt).length = 24 := by simp [greOuter, be16, be32, h]

/-- Making room: afterwards 24 bytes stand in front of the inner packet. -/
theorem make_room {p : Pkt} (h : OutOk p) :
    (∃ q X, (if (if p.hasL2 then (p.l3 - p.l2) % 256 else 0) ≤ 24
        then push p (24 - (if p.hasL2 then (p.l3 - p.l2) % 256 else 0))
        else pull p ((if p.hasL2 then (p.l3 - p.l2) % 256 else 0) - 24)) = some q ∧
      X.length = 24 ∧ q.data = X ++ p.data.drop p.l3 ∧ 24 ≤ p.head.length + p.l3) ∨
    (p.head.length + p.l3 < 24 ∧ (if (if p.hasL2 then (p.l3 - p.l2) % 256 else 0) ≤ 24
        then push p (24 - (if p.hasL2 then (p.l3 - p.l2) % 256 else 0))
        else pull p ((if p.hasL2 then (p.l3 - p.l2) % 256 else 0) - 24)) = none) := by
  obtain ⟨hl, h⟩ := h
  have e : (if p.hasL2 then (p.l3 - p.l2) % 256 else 0) = p.l3 := by
    rcases h with ⟨h1, h2, h3⟩ | ⟨h1, h2⟩
    · simp only [h1, if_true, h2]; omega
    · simp only [h1, h2]; rfl
  rw [e]
  by_cases c : p.l3 ≤ 24
  · rw [if_pos c]
    unfold push
    by_cases c2 : 24 - p.l3 ≤ p.head.length
    · left
      rw [if_pos c2]
      refine ⟨_, p.head.drop (p.head.length - (24 - p.l3)) ++ p.data.take p.l3, rfl, ?_, ?_, by omega⟩
      · simp; omega
      · simp
    · right
      rw [if_neg c2]; exact ⟨by omega, rfl⟩
  · rw [if_neg c]
    unfold pull
    rw [if_pos (by omega)]
    left
    refine ⟨_, (p.data.drop (p.l3 - 24)).take 24, rfl, ?_, ?_, by omega⟩
    · simp; omega
    · show p.data.drop (p.l3 - 24) = _
      conv => lhs; rw [← List.take_append_drop 24 (p.data.drop (p.l3 - 24)), List.drop_drop]
      congr 2; omega

theorem pokes24 {X d A B C : List Nat} (hX : X.length = 24) (hA : A.length = 4) (hB : B.length = 14)
    (hC : C.length = 4) :
    poke (poke (poke (X ++ d) 20 C) 0 A) 6 B = A ++ (X.drop 4).take 2 ++ B ++ C ++ d := by
  have split : X = X.take 4 ++ ((X.drop 4).take 2 ++ ((X.drop 6).take 14 ++ X.drop 20)) := by
    conv => lhs; rw [← List.take_append_drop 4 X]
    congr 1
    conv => lhs; rw [← List.take_append_drop 2 (X.drop 4), List.drop_drop]
    congr 1
    conv => lhs; rw [← List.take_append_drop 14 (X.drop 6), List.drop_drop]
  have e1 : (X.take 4).length = 4 := by simp; omega
  have e2 : ((X.drop 4).take 2).length = 2 := by simp; omega
  have e3 : ((X.drop 6).take 14).length = 14 := by simp; omega
  have e4 : (X.drop 20).length = 4 := by simp; omega
  generalize X.take 4 = a1 at *
  generalize (X.drop 4).take 2 = a2 at *
  generalize (X.drop 6).take 14 = a3 at *
  generalize X.drop 20 = a4 at *
  rw [split]
  have s1 : poke (a1 ++ (a2 ++ (a3 ++ a4)) ++ d) 20 C = (a1 ++ (a2 ++ a3)) ++ (C ++ d) := by
    have := poke_mid (a := a1 ++ (a2 ++ a3)) (b := a4) (c := d) (bs := C) (k := 20)
      (by simp; omega) (by omega)
    simpa using this
  have s2 : poke ((a1 ++ (a2 ++ a3)) ++ (C ++ d)) 0 A = A ++ (a2 ++ (a3 ++ (C ++ d))) := by
    have := poke_mid (a := []) (b := a1) (c := a2 ++ (a3 ++ (C ++ d))) (bs := A) (k := 0) rfl (by omega)
    simpa using this
  have s3 : poke (A ++ (a2 ++ (a3 ++ (C ++ d)))) 6 B = A ++ a2 ++ B ++ C ++ d := by
    have := poke_mid (a := A ++ a2) (b := a3) (c := C ++ d) (bs := B) (k := 6)
      (by simp; omega) (by omega)
    simpa using this
  rw [s1, s2, s3]

/-- C183: sending an IPv4 packet into a GRE tunnel removes the link header, puts the specified 24
bytes in front of the IP packet, and changes nothing of it; it fails only for lack of head room. -/
theorem gre_out4_exact {p : Pkt} (h : OutOk p) (loc rem : Nat) :
    (p.head.length + p.l3 < 24 ∧ greOut4 loc rem p = none) ∨
    (∃ q id, greOut4 loc rem p = some q ∧ id.length = 2 ∧
      q.data = greOuter id (b8 (p.data.drop p.l3) 1) (b16 (p.data.drop p.l3) 2 + 24)
        (b8 (p.data.drop p.l3) 8) loc rem 0x0800 ++ p.data.drop p.l3 ∧ q.l3 = 0 ∧ q.hasL2 = false) := by
  rcases make_room h with ⟨q, X, e, hX, hd, _⟩ | ⟨h1, e⟩
  · right
    unfold greOut4
    simp only [e]
    refine ⟨_, (X.drop 4).take 2, rfl, by simp; omega, ?_, rfl, rfl⟩
    simp only [hd]
    rw [pokes24 hX (by simp [be16]) (by simp [be16, be32]) (by simp [be16])]
    simp [greOuter, be16, be32]
  · left
    unfold greOut4
    simp only [e]
    exact ⟨h1, trivial⟩

/-- C183 for IPv6. -/
theorem gre_out6_exact {p : Pkt} (h : OutOk p) (loc rem : Nat) :
    (p.head.length + p.l3 < 24 ∧ greOut6 loc rem p = none) ∨
    (∃ q id, greOut6 loc rem p = some q ∧ id.length = 2 ∧
      q.data = greOuter id 0 (b16 (p.data.drop p.l3) 4 + 64)
        (b8 (p.data.drop p.l3) 7) loc rem 0x86dd ++ p.data.drop p.l3 ∧ q.l3 = 0 ∧ q.hasL2 = false) := by
  rcases make_room h with ⟨q, X, e, hX, hd, _⟩ | ⟨h1, e⟩
  · right
    unfold greOut6
    simp only [e]
    refine ⟨_, (X.drop 4).take 2, rfl, by simp; omega, ?_, rfl, rfl⟩
    simp only [hd]
    rw [pokes24 hX (by simp [be16]) (by simp [be16, be32]) (by simp [be16])]
    simp [greOuter, be16, be32]
  · left
    unfold greOut6
    simp only [e]
    exact ⟨h1, trivial⟩

/-- C183, the length: if the inner packet is as long as it says and the sum fits, the outer packet is
too.  Otherwise the field is truncated, see `gre_length_violated`. -/
theorem gre_length_partial {p q : Pkt} (h : OutOk p) {loc rem : Nat} (hq : greOut4 loc rem p = some q)
    (hl : b16 (p.data.drop p.l3) 2 = (p.data.drop p.l3).length)
    (hs : (p.data.drop p.l3).length + 24 < 65536) : b16 q.data 2 = q.data.length := by
  rcases gre_out4_exact h loc rem with ⟨_, e⟩ | ⟨q', id, e, hid, hd, _⟩
  · rw [e] at hq; cases hq
  · rw [e] at hq; cases hq
    obtain ⟨a, b, rfl⟩ := lenEqPart hid
    have hlen : q.data.length = (p.data.drop p.l3).length + 24 := by
      rw [hd, List.length_append, greOuter_length hid]; omega
    rw [hlen, hd, hl]
    generalize (p.data.drop p.l3).length = L at *
    simp only [greOuter, be16, be32, List.cons_append, List.nil_append, b16, b8,
      List.getD_cons_zero, List.getD_cons_succ]
    omega

/-- C183 refuted for packets of more than 65511 bytes: the outer total length is wrong. -/
theorem gre_length_violated {p : Pkt} (h : OutOk p) (loc rem : Nat) (hr : 24 ≤ p.head.length + p.l3)
    (hs : 65512 ≤ (p.data.drop p.l3).length) :
    ∃ q, greOut4 loc rem p = some q ∧ b16 q.data 2 < q.data.length := by
  rcases gre_out4_exact h loc rem with ⟨hx, _⟩ | ⟨q, id, e, hid, hd, _⟩
  · omega
  · refine ⟨q, e, ?_⟩
    obtain ⟨a, b, rfl⟩ := lenEqPart hid
    have hlen : q.data.length = (p.data.drop p.l3).length + 24 := by
      rw [hd, List.length_append, greOuter_length hid]; omega
    rw [hlen, hd]
    generalize (p.data.drop p.l3).length = L at *
    generalize b16 (p.data.drop p.l3) 2 = M
    simp only [greOuter, be16, be32, List.cons_append, List.nil_append, b16, b8,
      List.getD_cons_zero, List.getD_cons_succ]
    omega

/-! ## C184: which packets a tunnel takes -/

/-- C184: a packet is taken by a tunnel only if its outer destination and source are the local and
remote end point of that tunnel and the VRFs agree; every other packet is left alone. -/
theorem gre_demux (ts : List Tun) (vlan vrf : Nat) (p : Pkt) :
    (∀ dev q, greInput ts vlan vrf p = .give dev q → dev ≠ 0 ∧ ∃ x ∈ ts, x.id = dev ∧
      x.loc = b32 p.data (p.l3 + 16) ∧ x.rem = b32 p.data (p.l3 + 12) ∧ x.vrf = vrf) ∧
    ((¬ ∃ x ∈ ts, x.id ≠ 0 ∧ x.loc = b32 p.data (p.l3 + 16) ∧ x.rem = b32 p.data (p.l3 + 12) ∧
      x.vrf = vrf) → greInput ts vlan vrf p = .cont p) := by
  constructor
  · intro dev q h
    unfold greInput at h
    simp only at h
    cases hb : byTunnel ts (b32 p.data (p.l3 + 16)) (b32 p.data (p.l3 + 12)) vrf with
    | none => rw [hb] at h; cases h
    | some d =>
      rw [hb] at h
      simp only at h
      have hd : d = dev := by
        generalize pull p _ = r at h
        cases r with
        | none => cases h
        | some r => simp only at h; injection h
      subst hd
      unfold byTunnel at hb
      rw [Option.map_eq_some_iff] at hb
      obtain ⟨x, hx, hid⟩ := hb
      have h1 := List.mem_of_find?_eq_some hx
      have h2 := List.find?_some hx
      simp only [decide_eq_true_eq] at h2
      subst hid
      exact ⟨h2.2.2.2, x, h1, rfl, h2.1, h2.2.1, h2.2.2.1⟩
  · intro h
    have : byTunnel ts (b32 p.data (p.l3 + 16)) (b32 p.data (p.l3 + 12)) vrf = none := by
      unfold byTunnel
      rw [Option.map_eq_none_iff, List.find?_eq_none]
      intro x hx hc
      simp only [decide_eq_true_eq] at hc
      exact h ⟨x, hx, hc.2.2.2, hc.1, hc.2.1, hc.2.2.1⟩
    unfold greInput
    simp only [this]

/-! ## C185: decapsulation -/

/-- Specification: a GRE packet arrives: link header, IPv4 header without options, two flag bytes,
protocol type, and the rest (optional GRE fields and the inner packet). -/
structure GreArr (r : Pkt) (l2h iph : List Nat) (f1 f2 : Nat) (pt rest : List Nat) : Prop where
  data : r.data = l2h ++ (iph ++ ([f1, f2] ++ (pt ++ rest)))
  l2 : r.l2 = 0
  l3 : r.l3 = l2h.length
  ipl : iph.length = 20
  ver : b8 iph 0 = 0x45
  ptl : pt.length = 2

theorem arr_reads {r : Pkt} {l2h iph pt rest : List Nat} {f1 f2 : Nat}
    (A : GreArr r l2h iph f1 f2 pt rest) :
    b32 r.data (r.l3 + 16) = b32 iph 16 ∧ b32 r.data (r.l3 + 12) = b32 iph 12 ∧
    b8 r.data r.l3 = 0x45 ∧ b8 r.data (r.l3 + 21) = f2 ∧
    [b8 r.data (r.l3 + 22), b8 r.data (r.l3 + 23)] = pt := by
  obtain ⟨hd, _, h3, hi, hv, hp⟩ := A
  obtain ⟨a, b, rfl⟩ := lenEqPart hp
  refine ⟨?_, ?_, ?_, ?_, ?_⟩
  · rw [hd, h3, b32_right, b32_left (by omega)]
  · rw [hd, h3, b32_right, b32_left (by omega)]
  · have : r.l3 = l2h.length + 0 := by omega
    rw [hd, this, b8_right, b8_left (by omega)]; exact hv
  · have : r.l3 + 21 = l2h.length + (iph.length + 1) := by omega
    rw [hd, this, b8_right, b8_right]; rfl
  · have e1 : r.l3 + 22 = l2h.length + (iph.length + 2) := by omega
    have e2 : r.l3 + 23 = l2h.length + (iph.length + 3) := by omega
    rw [hd, e1, e2, b8_right, b8_right, b8_right, b8_right]; rfl

/-- C185, untagged interface: the inner packet starts right behind the four bytes of the GRE header
if the second flag byte is 0; the link header keeps its addresses and gets the protocol type. -/
theorem gre_input_untagged {r : Pkt} {l2h iph pt rest : List Nat} {f1 : Nat}
    (A : GreArr r l2h iph f1 0 pt rest) (hl : l2h.length = 14) {ts : List Tun} {vrf dev : Nat}
    (ht : byTunnel ts (b32 iph 16) (b32 iph 12) vrf = some dev) :
    ∃ q, greInput ts 0 vrf r = .give dev q ∧ q.data = l2h.take 12 ++ pt ++ rest ∧ q.l2 = 0 ∧
      q.l3 = 14 := by
  obtain ⟨e1, e2, e3, e4, e5⟩ := arr_reads A
  obtain ⟨hd, h2, h3, hi, hv, hp⟩ := A
  unfold greInput
  simp only [e1, e2, e3, e4, e5, ht, h2, Nat.zero_add, ne_eq, not_true_eq_false, if_false]
  have hoff : (r.l3 + 69 % 16 * 4 + greLen 0 - 14) % 65536 = 24 := by
    have : greLen 0 = 4 := rfl
    rw [this, h3, hl]
  rw [hoff]
  have hlen : r.data.length = 38 + rest.length := by rw [hd]; simp; omega
  unfold pull
  rw [if_pos (by omega)]
  refine ⟨_, rfl, ?_, rfl, rfl⟩
  simp only
  have hdrop : r.data.drop 24 = ((iph.drop 10) ++ ([f1, 0] ++ pt)) ++ rest := by
    have : r.data = (l2h ++ iph.take 10) ++ ((iph.drop 10 ++ ([f1, 0] ++ pt)) ++ rest) := by
      rw [hd]
      simp only [List.append_assoc]
      rw [← List.append_assoc (iph.take 10), List.take_append_drop]
    have h24 : 24 = (l2h ++ iph.take 10).length := by simp; omega
    rw [this, h24, List.drop_left]
  rw [hdrop, List.drop_zero]
  have hY : (iph.drop 10 ++ ([f1, 0] ++ pt)).length = 14 := by simp; omega
  generalize iph.drop 10 ++ ([f1, 0] ++ pt) = Y at hY
  have hdh : (r.data.take 6).length = 6 := by simp; omega
  have hsh : ((r.data.drop 6).take 6).length = 6 := by simp; omega
  have h12 : r.data.take 6 ++ (r.data.drop 6).take 6 = l2h.take 12 := by
    rw [← List.take_add, hd, List.take_append_of_le_length (by omega)]
  generalize r.data.take 6 = dh at *
  generalize (r.data.drop 6).take 6 = sh at *
  have split : Y = Y.take 6 ++ ((Y.drop 6).take 6 ++ Y.drop 12) := by
    conv => lhs; rw [← List.take_append_drop 6 Y]
    congr 1
    conv => lhs; rw [← List.take_append_drop 6 (Y.drop 6), List.drop_drop]
  have y1 : (Y.take 6).length = 6 := by simp; omega
  have y2 : ((Y.drop 6).take 6).length = 6 := by simp; omega
  have y3 : (Y.drop 12).length = 2 := by simp; omega
  generalize Y.take 6 = a at *
  generalize (Y.drop 6).take 6 = b at *
  generalize Y.drop 12 = c at *
  rw [split]
  have s1 : poke (a ++ (b ++ c) ++ rest) 0 dh = dh ++ (b ++ (c ++ rest)) := by
    have := poke_mid (a := []) (b := a) (c := b ++ (c ++ rest)) (bs := dh) (k := 0) rfl (by omega)
    simpa using this
  have s2 : poke (dh ++ (b ++ (c ++ rest))) 6 sh = dh ++ (sh ++ (c ++ rest)) :=
    poke_mid (by omega) (by omega)
  have s3 : poke (dh ++ (sh ++ (c ++ rest))) 12 pt = dh ++ (sh ++ (pt ++ rest)) := by
    have := poke_mid (a := dh ++ sh) (b := c) (c := rest) (bs := pt) (k := 12)
      (by simp; omega) (by omega)
    simpa using this
  rw [s1, s2, s3, ← h12]
  simp

/-- C185: round trip.  An IPv4 packet sent into a tunnel arrives at the other end of the tunnel,
through any path that delivers it with an IP header without options, as exactly the same packet
on the interface of the tunnel. -/
theorem gre_round_trip {p q r : Pkt} (h : OutOk p) {loc rem : Nat} (hq : greOut4 loc rem p = some q)
    {l2h iph : List Nat} (hr : r.data = l2h ++ (iph ++ q.data.drop 20)) (h2 : r.l2 = 0)
    (h3 : r.l3 = l2h.length) (hl : l2h.length = 14) (hi : iph.length = 20) (h0 : b8 iph 0 = 0x45)
    {ts : List Tun} {vrf dev : Nat} (ht : byTunnel ts (b32 iph 16) (b32 iph 12) vrf = some dev) :
    ∃ q', greInput ts 0 vrf r = .give dev q' ∧
      q'.data = l2h.take 12 ++ [8, 0] ++ p.data.drop p.l3 ∧ q'.l2 = 0 ∧ q'.l3 = 14 := by
  rcases gre_out4_exact h loc rem with ⟨_, e⟩ | ⟨q', id, e, hid, hd, _⟩
  · rw [e] at hq; cases hq
  · rw [e] at hq; cases hq
    obtain ⟨a, b, rfl⟩ := lenEqPart hid
    refine gre_input_untagged (f1 := 0) (pt := [8, 0]) ⟨?_, h2, h3, hi, h0, rfl⟩ hl ht
    rw [hr, hd]
    simp [greOuter, be16, be32]

/-- The same for IPv6. -/
theorem gre_round_trip6 {p q r : Pkt} (h : OutOk p) {loc rem : Nat} (hq : greOut6 loc rem p = some q)
    {l2h iph : List Nat} (hr : r.data = l2h ++ (iph ++ q.data.drop 20)) (h2 : r.l2 = 0)
    (h3 : r.l3 = l2h.length) (hl : l2h.length = 14) (hi : iph.length = 20) (h0 : b8 iph 0 = 0x45)
    {ts : List Tun} {vrf dev : Nat} (ht : byTunnel ts (b32 iph 16) (b32 iph 12) vrf = some dev) :
    ∃ q', greInput ts 0 vrf r = .give dev q' ∧
      q'.data = l2h.take 12 ++ [0x86, 0xdd] ++ p.data.drop p.l3 ∧ q'.l2 = 0 ∧ q'.l3 = 14 := by
  rcases gre_out6_exact h loc rem with ⟨_, e⟩ | ⟨q', id, e, hid, hd, _⟩
  · rw [e] at hq; cases hq
  · rw [e] at hq; cases hq
    obtain ⟨a, b, rfl⟩ := lenEqPart hid
    refine gre_input_untagged (f1 := 0) (pt := [0x86, 0xdd]) ⟨?_, h2, h3, hi, h0, rfl⟩ hl ht
    rw [hr, hd]
    simp [greOuter, be16, be32]

/-- C185 refuted for GRE packets with a key (RFC 2890: flag 0x2000, four bytes after the protocol
type): the key is taken for the beginning of the inner packet. -/
theorem gre_key_violated {r : Pkt} {l2h iph key inner : List Nat}
    (A : GreArr r l2h iph 0x20 0 [8, 0] (key ++ inner)) (hl : l2h.length = 14)
    {ts : List Tun} {vrf dev : Nat} (ht : byTunnel ts (b32 iph 16) (b32 iph 12) vrf = some dev) :
    ∃ q, greInput ts 0 vrf r = .give dev q ∧ q.data.drop q.l3 = key ++ inner := by
  obtain ⟨q, h1, h2, _, h4⟩ := gre_input_untagged A hl ht
  refine ⟨q, h1, ?_⟩
  rw [h2, h4]
  have : 14 = (l2h.take 12 ++ [8, 0]).length := by simp; omega
  rw [this, List.drop_left]

/-- Such packets exist. -/
example : ∃ r, GreArr r (List.replicate 14 1) exIp 0x20 0 [8, 0] ([1, 2, 3, 4] ++ exIp) ∧
    byTunnel [⟨7, b32 exIp 16, b32 exIp 12, 0⟩] (b32 exIp 16) (b32 exIp 12) 0 = some 7 :=
  ⟨⟨[], List.replicate 14 1 ++ (exIp ++ ([0x20, 0] ++ ([8, 0] ++ ([1, 2, 3, 4] ++ exIp)))), 0, 14, true⟩,
    ⟨rfl, rfl, rfl, rfl, rfl, rfl⟩, by decide +kernel⟩

/-- A GRE packet whose outer IP header carries four bytes of options, and the packet the tunnel
makes of it. -/
def optPkt : Pkt :=
  ⟨[], List.replicate 14 1 ++ ([0x46, 0, 0, 48, 0, 1, 0, 0, 2, 47, 0, 0, 10, 0, 0, 1, 10, 0, 0, 2] ++
    [1, 1, 1, 0] ++ [0, 0, 8, 0] ++ exIp), 0, 14, true⟩

/-- C185 refuted for outer headers with options: the protocol type is read from the options, and an
IPv4 packet (type 0x0800) is handed on with type 0x0100. -/
theorem gre_options_violated :
    ∃ q, greInput [⟨7, b32 exIp 16, b32 exIp 12, 0⟩] 0 0 optPkt = .give 7 q ∧
      q.data.drop 12 = [1, 0] ++ exIp := by
  refine ⟨⟨List.replicate 14 1 ++ [0x46, 0, 0, 48, 0, 1, 0, 0, 2, 47, 0, 0, 10, 0],
    List.replicate 12 1 ++ [1, 0] ++ exIp, 0, 14, true⟩, ?_, ?_⟩ <;> decide +kernel

/-- C185 refuted for tagged interfaces: the destination address of the link header is the source
address of the received frame, and its source address consists of the outer source IP address and
half of the outer destination IP address. -/
theorem gre_vlan_violated {r : Pkt} {l2h iph pt rest : List Nat} {f1 : Nat}
    (A : GreArr r l2h iph f1 0 pt rest) (hl : l2h.length = 18) {ts : List Tun} {vrf dev vlan : Nat}
    (hv : vlan ≠ 0) (ht : byTunnel ts (b32 iph 16) (b32 iph 12) vrf = some dev) :
    ∃ q, greInput ts vlan vrf r = .give dev q ∧
      q.data = (l2h.drop 6).take 6 ++ (iph.drop 12).take 6 ++ [0x81, 0x00] ++ be16 vlan ++ pt ++ rest ∧
      q.l3 = 18 := by
  obtain ⟨e1, e2, e3, e4, e5⟩ := arr_reads A
  obtain ⟨hd, h2, h3, hi, hv', hp⟩ := A
  unfold greInput
  simp only [e1, e2, e3, e4, e5, ht, h2, Nat.zero_add, ne_eq, hv, not_false_eq_true, if_true]
  have hoff : (r.l3 + 69 % 16 * 4 + greLen 0 - 18) % 65536 = 24 := by
    have : greLen 0 = 4 := rfl
    rw [this, h3, hl]
  rw [hoff]
  have hlen : r.data.length = 42 + rest.length := by rw [hd]; simp; omega
  unfold pull
  rw [if_pos (by omega)]
  refine ⟨_, rfl, ?_, rfl⟩
  simp only
  have hdrop : r.data.drop 24 = ((iph.drop 6) ++ ([f1, 0] ++ pt)) ++ rest := by
    have : r.data = (l2h ++ iph.take 6) ++ ((iph.drop 6 ++ ([f1, 0] ++ pt)) ++ rest) := by
      rw [hd]
      simp only [List.append_assoc]
      rw [← List.append_assoc (iph.take 6), List.take_append_drop]
    have h24 : 24 = (l2h ++ iph.take 6).length := by simp; omega
    rw [this, h24, List.drop_left]
  rw [hdrop, List.drop_zero]
  have hdh : (r.data.take 6).length = 6 := by simp; omega
  have hsh : (r.data.drop 6).take 6 = (l2h.drop 6).take 6 := by
    rw [hd, List.drop_append_of_le_length (by omega), List.take_append_of_le_length (by simp; omega)]
  rw [hsh]
  have hsl : ((l2h.drop 6).take 6).length = 6 := by simp; omega
  generalize (l2h.drop 6).take 6 = sh at *
  generalize r.data.take 6 = dh at *
  have split : iph.drop 6 = (iph.drop 6).take 6 ++ ((iph.drop 12).take 6 ++ iph.drop 18) := by
    conv => lhs; rw [← List.take_append_drop 6 (iph.drop 6), List.drop_drop]
    congr 1
    conv => lhs; rw [← List.take_append_drop 6 (iph.drop 12), List.drop_drop]
  have y1 : ((iph.drop 6).take 6).length = 6 := by simp; omega
  have y2 : ((iph.drop 12).take 6).length = 6 := by simp; omega
  have y3 : (iph.drop 18).length = 2 := by simp; omega
  generalize (iph.drop 6).take 6 = a at *
  generalize (iph.drop 12).take 6 = b at *
  generalize iph.drop 18 = c at *
  rw [split]
  obtain ⟨x, y, rfl⟩ := lenEqPart hp
  have s1 : ∀ z : List Nat, z.length = 6 → ∀ w : List Nat, w.length = 6 →
      poke (z ++ (b ++ (c ++ ([f1, 0] ++ ([x, y] ++ rest))))) 0 w =
        w ++ (b ++ (c ++ ([f1, 0] ++ ([x, y] ++ rest)))) := by
    intro z hz w hw
    exact poke_mid (a := []) (b := z) (bs := w) (k := 0) rfl (by omega)
  have s2 : poke (sh ++ (b ++ (c ++ ([f1, 0] ++ ([x, y] ++ rest))))) 12
      ([0x81, 0] ++ be16 vlan ++ [x, y]) =
      sh ++ (b ++ ([0x81, 0] ++ be16 vlan ++ [x, y] ++ rest)) := by
    have := poke_mid (a := sh ++ b) (b := c ++ ([f1, 0] ++ [x, y])) (c := rest)
      (bs := [0x81, 0] ++ be16 vlan ++ [x, y]) (k := 12) (by simp; omega) (by simp [be16]; omega)
    simpa using this
  have e : a ++ (b ++ c) ++ ([f1, 0] ++ [x, y]) ++ rest =
      a ++ (b ++ (c ++ ([f1, 0] ++ ([x, y] ++ rest)))) := by simp
  rw [e, s1 a y1 dh hdh, s1 dh hdh sh hsl, s2]
  simp

/-! ## C186: VLAN tags -/

/-- An untagged Ethernet frame. -/
def plain (dst src ty pl : List Nat) : List Nat := dst ++ src ++ ty ++ pl

/-- A tagged Ethernet frame (IEEE 802.1Q). -/
def tagged (dst src tci ty pl : List Nat) : List Nat := dst ++ src ++ [0x81, 0x00] ++ tci ++ ty ++ pl

/-- C186: on an interface without VLAN, an untagged frame is sent as it is, if its payload fits. -/
theorem send_plain_plain {p : Pkt} {dst src ty pl : List Nat} (hd : p.data = plain dst src ty pl)
    (h1 : dst.length = 6) (h2 : src.length = 6) (h3 : ty.length = 2) (hty : ty ≠ [0x81, 0x00])
    (hb : ∀ b ∈ ty, b < 256) (hl : p.l2 = 0) (hsz : pl.length < 2 ^ 31) (mtu : Nat) :
    sendFrame 0 mtu p = if pl.length ≤ mtu then some p else none := by
  obtain ⟨a, b, rfl⟩ := lenEqPart h3
  have hab : b16 p.data 12 = 256 * a + b := by
    rw [hd]
    have : 12 = (dst ++ src).length + 0 := by simp; omega
    unfold plain
    rw [List.append_assoc, this, b16_right, b16_left (by simp)]; rfl
  have hne : b16 p.data 12 ≠ 0x8100 := by
    rw [hab]
    intro e
    have h1 := hb a (by simp)
    have h2 := hb b (by simp)
    apply hty
    have : a = 129 ∧ b = 0 := by omega
    rw [this.1, this.2]
  have hlen : p.data.length = 14 + pl.length := by rw [hd]; simp [plain]; omega
  unfold sendFrame
  simp only [hl, List.drop_zero, hne, if_false, ne_eq, not_true_eq_false, hlen]
  have : (14 + pl.length + 2 ^ 32 - 14) % 2 ^ 32 = pl.length := by omega
  rw [this]
  by_cases c : pl.length ≤ mtu
  · rw [if_pos c, if_neg (by omega)]
  · rw [if_neg c, if_pos (by omega)]

/-- C186: on a VLAN interface, an untagged frame gets the tag of the interface; addresses, type and
payload are unchanged. -/
theorem send_plain_tagged {p : Pkt} {dst src ty pl : List Nat} (hd : p.data = plain dst src ty pl)
    (h1 : dst.length = 6) (h2 : src.length = 6) (h3 : ty.length = 2) (hty : ty ≠ [0x81, 0x00])
    (hb : ∀ b ∈ ty, b < 256) (hl : p.l2 = 0) (hsz : pl.length < 2 ^ 31) (mtu vlan : Nat)
    (hv : vlan ≠ 0) (hh : 4 ≤ p.head.length) :
    ∃ q, q.data = tagged dst src (be16 vlan) ty pl ∧ q.l3 = p.l3 + 4 ∧
      sendFrame vlan mtu p = if pl.length ≤ mtu then some q else none := by
  obtain ⟨a, b, rfl⟩ := lenEqPart h3
  have hab : b16 p.data 12 = 256 * a + b := by
    rw [hd]
    have : 12 = (dst ++ src).length + 0 := by simp; omega
    unfold plain
    rw [List.append_assoc, this, b16_right, b16_left (by simp)]; rfl
  have hne : b16 p.data 12 ≠ 0x8100 := by
    rw [hab]
    intro e
    have h1 := hb a (by simp)
    have h2 := hb b (by simp)
    apply hty
    have : a = 129 ∧ b = 0 := by omega
    rw [this.1, this.2]
  have htk : p.data.take 12 = dst ++ src := by
    rw [hd]
    have : 12 = (dst ++ src).length := by simp; omega
    unfold plain
    rw [List.append_assoc, this, List.take_left]
  have hdr : p.data.drop 12 = [a, b] ++ pl := by
    rw [hd]
    have : 12 = (dst ++ src).length := by simp; omega
    unfold plain
    rw [List.append_assoc, this, List.drop_left]
  have hHl : (p.head.drop (p.head.length - 4)).length = 4 := by simp; omega
  have hpk : poke (p.head.drop (p.head.length - 4) ++ p.data) 0
      (p.data.take 12 ++ be16 0x8100 ++ be16 vlan ++ (p.data.drop 12).take 2) =
      tagged dst src (be16 vlan) [a, b] pl := by
    have e : p.head.drop (p.head.length - 4) ++ p.data =
        [] ++ ((p.head.drop (p.head.length - 4) ++ (dst ++ src ++ [a, b])) ++ pl) := by
      rw [hd]; simp [plain]
    rw [htk, hdr, e]
    rw [poke_mid (a := []) (b := p.head.drop (p.head.length - 4) ++ (dst ++ src ++ [a, b])) (c := pl)
      (bs := dst ++ src ++ be16 33024 ++ be16 vlan ++ List.take 2 ([a, b] ++ pl)) (k := 0) rfl
      (by simp [be16]; omega)]
    simp [tagged, be16]
  refine ⟨⟨p.head.take (p.head.length - 4), tagged dst src (be16 vlan) [a, b] pl, p.l2, p.l3 + 4,
    p.hasL2⟩, rfl, rfl, ?_⟩
  unfold sendFrame push
  simp only [hl, List.drop_zero, hne, if_false, ne_eq, hv, not_false_eq_true, if_true, hh, hpk]
  have hlen : (tagged dst src (be16 vlan) [a, b] pl).length = 18 + pl.length := by
    simp [tagged, be16]; omega
  rw [hlen]
  have : (18 + pl.length + 2 ^ 32 - 18) % 2 ^ 32 = pl.length := by omega
  rw [this]
  by_cases c : pl.length ≤ mtu
  · rw [if_pos c, if_neg (by omega)]
  · rw [if_neg c, if_pos (by omega)]

/-- C186: on a VLAN interface, a tagged frame gets the tag of the interface instead of its own. -/
theorem send_tagged_tagged {p : Pkt} {dst src tci ty pl : List Nat}
    (hd : p.data = tagged dst src tci ty pl)
    (h1 : dst.length = 6) (h2 : src.length = 6) (h3 : ty.length = 2) (h4 : tci.length = 2)
    (hl : p.l2 = 0) (hsz : pl.length < 2 ^ 31) (mtu vlan : Nat) (hv : vlan ≠ 0) :
    sendFrame vlan mtu p =
      if pl.length ≤ mtu then some { p with data := tagged dst src (be16 vlan) ty pl } else none := by
  have hv16 : b16 p.data 12 = 0x8100 := by
    rw [hd]
    have : 12 = (dst ++ src).length + 0 := by simp; omega
    unfold tagged
    rw [List.append_assoc, List.append_assoc, List.append_assoc, this, b16_right]
    rfl
  have hpk : poke p.data 14 (be16 vlan) = tagged dst src (be16 vlan) ty pl := by
    have e : p.data = (dst ++ src ++ [0x81, 0]) ++ (tci ++ (ty ++ pl)) := by
      rw [hd]; simp [tagged]
    rw [e, poke_mid (by simp; omega) (by simp [be16]; omega)]
    simp [tagged]
  unfold sendFrame
  simp only [hl, List.drop_zero, hv16, if_true, ne_eq, hv, not_false_eq_true, Nat.zero_add, hpk]
  have hlen : (tagged dst src (be16 vlan) ty pl).length = 18 + pl.length := by
    simp [tagged, be16]; omega
  rw [hlen]
  have : (18 + pl.length + 2 ^ 32 - 18) % 2 ^ 32 = pl.length := by omega
  rw [this]
  by_cases c : pl.length ≤ mtu
  · rw [if_pos c, if_neg (by omega)]
  · rw [if_neg c, if_pos (by omega)]

/-- C186: on an interface without VLAN, the (outer) tag of a frame is removed. -/
theorem send_tagged_plain {p : Pkt} {dst src tci ty pl : List Nat}
    (hd : p.data = tagged dst src tci ty pl)
    (h1 : dst.length = 6) (h2 : src.length = 6) (h3 : ty.length = 2) (h4 : tci.length = 2)
    (hl : p.l2 = 0) (hsz : pl.length < 2 ^ 31) (mtu : Nat) :
    ∃ q, q.data = plain dst src ty pl ∧ q.l3 = p.l3 - 4 ∧
      sendFrame 0 mtu p = if pl.length ≤ mtu then some q else none := by
  have hv16 : b16 p.data 12 = 0x8100 := by
    rw [hd]
    have : 12 = (dst ++ src).length + 0 := by simp; omega
    unfold tagged
    rw [List.append_assoc, List.append_assoc, List.append_assoc, this, b16_right]
    rfl
  have hlen : p.data.length = 18 + pl.length := by rw [hd]; simp [tagged]; omega
  have htk : p.data.take 12 = dst ++ src := by
    rw [hd]
    have : 12 = (dst ++ src).length := by simp; omega
    unfold tagged
    rw [List.append_assoc, List.append_assoc, List.append_assoc, this, List.take_left]
  have hdr : p.data.drop 16 = ty ++ pl := by
    have e : p.data = (dst ++ src ++ [0x81, 0] ++ tci) ++ (ty ++ pl) := by
      rw [hd]; simp [tagged]
    have : 16 = (dst ++ src ++ [0x81, 0] ++ tci).length := by simp; omega
    rw [e, this, List.drop_left]
  have hpk : poke (p.data.drop 4) 0 (p.data.take 12 ++ (p.data.drop 16).take 2) =
      plain dst src ty pl := by
    have e : p.data.drop 4 = [] ++ ((p.data.drop 4).take 14 ++ pl) := by
      have : (p.data.drop 4).drop 14 = pl := by
        rw [List.drop_drop]
        have : p.data.drop (4 + 14) = (p.data.drop 16).drop 2 := by rw [List.drop_drop]
        rw [this, hdr, ← h3, List.drop_left]
      conv => lhs; rw [← List.take_append_drop 14 (p.data.drop 4), this]
      rfl
    have ht2 : (p.data.drop 16).take 2 = ty := by rw [hdr, ← h3, List.take_left]
    rw [e, htk, ht2]
    rw [poke_mid (a := []) (b := (p.data.drop 4).take 14) (c := pl) (bs := dst ++ src ++ ty) (k := 0)
      rfl (by simp; omega)]
    simp [plain]
  refine ⟨⟨p.head ++ p.data.take 4, plain dst src ty pl, p.l2, p.l3 - 4, p.hasL2⟩, rfl, rfl, ?_⟩
  unfold sendFrame pull
  simp only [hl, List.drop_zero, hv16, if_true, ne_eq, not_true_eq_false, if_false]
  rw [if_pos (by omega)]
  simp only [hpk]
  have hlen2 : (plain dst src ty pl).length = 14 + pl.length := by
    simp [plain]; omega
  rw [hlen2]
  have : (14 + pl.length + 2 ^ 32 - 14) % 2 ^ 32 = pl.length := by omega
  rw [this]
  by_cases c : pl.length ≤ mtu
  · rw [if_pos c, if_neg (by omega)]
  · rw [if_neg c, if_pos (by omega)]

/-- C186 refuted for frames with two tags: an interface without VLAN sends a tagged frame. -/
theorem untagged_interface_violated {p : Pkt} {dst src tci tci2 ty pl : List Nat}
    (hd : p.data = tagged dst src tci [0x81, 0x00] (tci2 ++ ty ++ pl))
    (h1 : dst.length = 6) (h2 : src.length = 6) (h4 : tci.length = 2)
    (hl : p.l2 = 0) (hsz : (tci2 ++ ty ++ pl).length < 2 ^ 31) (mtu : Nat)
    (hm : (tci2 ++ ty ++ pl).length ≤ mtu) :
    ∃ q, sendFrame 0 mtu p = some q ∧ q.data = tagged dst src tci2 ty pl := by
  obtain ⟨q, e1, _, e3⟩ := send_tagged_plain hd h1 h2 rfl h4 hl hsz mtu
  rw [if_pos hm] at e3
  refine ⟨q, e3, ?_⟩
  rw [e1]
  simp [plain, tagged]

/-- The hypotheses are met. -/
example : sendFrame 5 1500 ⟨[9, 9, 9, 9], plain [1, 1, 1, 1, 1, 1] [2, 2, 2, 2, 2, 2] [8, 0] [3, 4], 0, 14,
    true⟩ = some ⟨[], tagged [1, 1, 1, 1, 1, 1] [2, 2, 2, 2, 2, 2] [0, 5] [8, 0] [3, 4], 0, 18, true⟩ := by
  decide +kernel

end Verif.Vxlan

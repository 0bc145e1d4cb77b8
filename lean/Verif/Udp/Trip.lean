import Verif.Udp.Send
/-! # From `ofp_sendto` to `ofp_recvfrom` -/
namespace Verif.Udp

/-- What routers do to a packet on its way: another TTL, another header checksum. -/
def transit (w : List UInt8) (ttl h0 h1 : UInt8) : List UInt8 := put (put w 8 [ttl]) 10 [h0, h1]

/-- **C118 (sending).**  `ofp_sendto` either hands its packet to the IP layer and reports the whole length, or reports an
error and has freed the packet if it had allocated one.  It succeeds exactly if the socket can send, has no pending
error, knows where to send to and finds its addresses, the data fits in a datagram, and the resources are there. -/
theorem sendto_outcome (e : SEnv) (t : Pcb.Tab) (k : Snd) (i : Nat) (data : List UInt8) (dst : Option (Nat × Nat)) :
    let r := sendto e t k i data dst
    ((∃ n, r.res = .ok n) ↔ r.fate = .sent) ∧
    (∀ n, r.res = .ok n → n = data.length ∧ r.snd = k) ∧
    (r.fate = .none ↔ k.shut = true ∨ k.err ≠ 0 ∨ (k.conn = false ∧ dst = none) ∨ e.alloc = false) ∧
    (r.fate = .sent ↔ k.shut = false ∧ k.err = 0 ∧ (k.conn = true ∨ dst ≠ none) ∧ e.alloc = true ∧
      data.length ≤ 65507 ∧ (∃ a, (addresses e t i dst).1 = .ok a) ∧ e.push = true ∧ e.out = true) := by
  intro r
  show ((∃ n, (sendto e t k i data dst).res = .ok n) ↔ (sendto e t k i data dst).fate = .sent) ∧
    (∀ n, (sendto e t k i data dst).res = .ok n → n = data.length ∧ (sendto e t k i data dst).snd = k) ∧
    ((sendto e t k i data dst).fate = .none ↔ _) ∧ ((sendto e t k i data dst).fate = .sent ↔ _)
  unfold sendto
  cases hs : k.shut
  case true => simp
  by_cases he : k.err = 0
  case neg => simp [he]
  rw [if_neg (by simp), if_neg (by simp [he])]
  by_cases hc : k.conn = false ∧ dst = none
  · rw [if_pos hc]; simp [hc.1, hc.2]
  rw [if_neg hc]
  have hc' : k.conn = true ∨ dst ≠ none := by
    cases hk : k.conn with
    | true => exact .inl rfl
    | false => exact .inr (fun h => hc ⟨hk, h⟩)
  cases ha : e.alloc
  case false => simp
  rw [if_neg (by simp)]
  by_cases hl : data.length + 28 > 65535
  · rw [if_pos hl]
    refine ⟨by simp, by simp, ?_, ?_⟩
    · constructor
      · intro h; cases h
      · rintro (h | h | h | h)
        · cases h
        · exact absurd he h
        · exact absurd h hc
        · cases h
    · constructor
      · intro h; cases h
      · rintro ⟨_, _, _, _, h, _⟩; omega
  rw [if_neg hl]
  have hnone : ¬ (false = true ∨ k.err ≠ 0 ∨ (k.conn = false ∧ dst = none) ∨ true = false) := by
    rintro (h | h | h | h)
    · cases h
    · exact absurd he h
    · exact absurd h hc
    · cases h
  have hlen : data.length ≤ 65507 := by omega
  match hx : addresses e t i dst with
  | (.error x, t1) =>
    simp only
    refine ⟨by simp, by simp, ⟨fun h => (by cases h), fun h => absurd h hnone⟩, ⟨fun h => (by cases h), ?_⟩⟩
    rintro ⟨_, _, _, _, _, ⟨a, h⟩, _⟩
    cases h
  | (.ok (la, lp, fa, fp), t1) =>
    simp only
    cases hp : e.push
    case false =>
      rw [if_pos rfl]
      refine ⟨by simp, by simp, ⟨fun h => (by cases h), fun h => absurd h hnone⟩, ⟨fun h => (by cases h), ?_⟩⟩
      rintro ⟨_, _, _, _, _, _, h, _⟩
      cases h
    rw [if_neg (by simp)]
    cases ho : e.out
    case false =>
      rw [if_neg (by simp)]
      refine ⟨by simp, by simp, ⟨fun h => (by cases h), fun h => absurd h hnone⟩, ⟨fun h => (by cases h), ?_⟩⟩
      rintro ⟨_, _, _, _, _, _, _, h⟩
      cases h
    rw [if_pos rfl]
    refine ⟨by simp, ?_, ⟨fun h => (by cases h), fun h => absurd h hnone⟩, ⟨fun _ => ?_, fun _ => rfl⟩⟩
    · intro n h; cases h; exact ⟨rfl, rfl⟩
    · simpa using ⟨he, hc', hlen⟩

/-- **C115 (addresses).**  The datagram of a connected socket goes from its own address and port to its peer; one sent with
an address goes to that address and port, and from the address and port the socket is bound to if it is bound to
both. -/
theorem send_addresses (e : SEnv) (t : Pcb.Tab) (i la lp fa fp : Nat) (dst : Option (Nat × Nat))
    (h : (addresses e t i dst).1 = .ok (la, lp, fa, fp)) :
    (dst = none → ∃ p, t.pcb i = some p ∧ p.faddr ≠ 0 ∧ fa = p.faddr ∧ fp = p.fport ∧ la = p.laddr ∧ lp = p.lport) ∧
    (∀ d dp, dst = some (d, dp) → fp = dp ∧ (d ≠ 0 → fa = d ∧
      ∀ p, t.pcb i = some p → p.laddr ≠ 0 → p.lport ≠ 0 → la = p.laddr ∧ lp = p.lport)) := by
  unfold addresses at h
  cases hp : t.pcb i with
  | none => rw [hp] at h; cases h
  | some p =>
    rw [hp] at h
    cases dst with
    | none =>
      simp only at h
      by_cases hf : p.faddr = 0
      · rw [if_pos hf] at h; cases h
      · rw [if_neg hf] at h
        cases h
        exact ⟨fun _ => ⟨p, rfl, hf, rfl, rfl, rfl, rfl⟩, fun _ _ h => by cases h⟩
    | some x =>
      obtain ⟨d, dp⟩ := x
      simp only at h
      refine ⟨fun h => (by cases h), fun d' dp' hd => ?_⟩
      cases hd
      have hsrc : ∀ a b, (Pcb.sendto e.cfg e.pcb t i d dp).1 = .ok (a, b) → d ≠ 0 → p.laddr ≠ 0 → p.lport ≠ 0 →
          a = p.laddr ∧ b = p.lport := by
        intro a b hs hd0 h1 h2
        unfold Pcb.sendto at hs
        rw [hp] at hs
        simp only at hs
        split at hs
        · cases hs
        · split at hs
          · cases hs
          · rw [if_neg (by rintro (g | g | g); exact h1 g; exact h2 g; exact hd0 g)] at hs
            cases hs
            exact ⟨rfl, rfl⟩
      cases hr : (Pcb.sendto e.cfg e.pcb t i d dp).1 with
      | error x => rw [hr] at h; cases h
      | ok y =>
        obtain ⟨a, b⟩ := y
        rw [hr] at h
        simp only [Except.ok.injEq, Prod.mk.injEq] at h
        obtain ⟨rfl, rfl, rfl, rfl⟩ := h
        refine ⟨rfl, fun hd0 => ⟨by rw [if_neg hd0], fun q hq h1 h2 => ?_⟩⟩
        cases hq
        exact hsrc _ _ hr hd0 h1 h2

/-- **C115.**  A successful `ofp_sendto` sends one datagram.  However it comes to the receiver - another TTL and header
checksum, link padding behind it, checksum verified by hardware or not - it is accepted, put at the end of the
receive buffer of the socket the lookup finds, and when it is at the head `ofp_recvfrom` returns exactly the bytes
that were sent (as many as fit) with address and port of the sender. -/
theorem udp_round_trip (e : SEnv) (t : Pcb.Tab) (k : Snd) (i : Nat) (data : List UInt8) (dst : Option (Nat × Nat)) (n : Nat)
    (hok : (sendto e t k i data dst).res = .ok n) :
    n = data.length ∧ ∃ la lp fa fp pkt, (addresses e t i dst).1 = .ok (la, lp, fa, fp) ∧
      (sendto e t k i data dst).pkt = some pkt ∧
      ∀ (al : Nat → Bool × Bool) (ifAddr ident : Nat) (hsum : List UInt8 → List UInt8), (∀ x, (hsum x).length = 2) →
      la < 4294967296 → fa < 4294967296 → ifAddr < 4294967296 → lp < 65536 → fp < 65536 → fp ≠ 0 →
      (multicast fa || broadcast fa) = false →
      ∀ (ttl h0 h1 : UInt8) (pad : List UInt8) (b : Buf),
        b.l3 = transit (onWire al ifAddr ident hsum pkt) ttl h0 h1 ++ pad → b.l4 = 20 → b.hw ≠ .bad →
        b.l2.length + pad.length ≤ 150000 →
      ∀ (er : Env) (s : St) (j : Nat),
        Pcb.lookupHash er.cfg s.tab (if la = 0 then ifAddr else la) lp fa fp true = some j →
        (s.sk j).minttl ≤ ttl.toNat → (s.sk j).takes b.id = false → (s.sk j).rcv.length < room →
      ∃ q, input er s b = (.processed, { s with sk := Pcb.upd s.sk j { s.sk j with rcv := (s.sk j).rcv ++ [q] } }) ∧
        ∀ (s2 : St) (l : List Buf), (s2.sk j).rcv = q :: l → ∀ m,
          ∃ g, (recvfrom s2 j m).1 = some g ∧ g.data = data.take m ∧ Names g.from' (if la = 0 then ifAddr else la) lp := by
  have ho := sendto_outcome e t k i data dst
  simp only at ho
  refine ⟨(ho.2.1 n hok).1, ?_⟩
  obtain ⟨h1, h2, h3, h4, h5, ⟨⟨la, lp, fa, fp⟩, h6⟩, h7, h8⟩ := ho.2.2.2.1 (ho.1.1 ⟨n, hok⟩)
  have hpkt : (sendto e t k i data dst).pkt = some (datagram k la lp fa fp data) := by
    unfold sendto
    rw [if_neg (by simp [h1]), if_neg (by simp [h2]), if_neg (by
      rintro ⟨g1, g2⟩
      rcases h3 with h | h
      · rw [h] at g1; cases g1
      · exact h g2), if_neg (by simp [h4]), if_neg (by omega)]
    match hx : addresses e t i dst with
    | (.error x, t1) => rw [hx] at h6; cases h6
    | (.ok (la', lp', fa', fp'), t1) =>
      rw [hx] at h6
      cases h6
      simp only
      rw [if_neg (by simp [h7]), if_pos h8]
  refine ⟨la, lp, fa, fp, _, h6, hpkt, ?_⟩
  intro al ifAddr ident hsum hhs hla hfa hif hlp hfp hfp0 huni ttl x0 x1 pad b hl3 hl4 hhw hpad er s j hlk httl htk hroom
  obtain ⟨b1, i0, i1, tt, y0, y1, c0, c1, himg, hnz, _, _, _, hsum'⟩ :=
    onWire_image al ifAddr ident hsum hhs k la lp fa fp data h5 hla
  rw [himg] at hl3
  have htr : transit (image b1 i0 i1 0 0 tt y0 y1 c0 c1 (if la = 0 then ifAddr else la) lp fa fp data) ttl x0 x1 =
      image b1 i0 i1 0 0 ttl x0 x1 c0 c1 (if la = 0 then ifAddr else la) lp fa fp data := rfl
  rw [htr] at hl3
  have hsrc : (if la = 0 then ifAddr else la) < 4294967296 := by
    by_cases h : la = 0
    · rw [if_pos h]; exact hif
    · rw [if_neg h]; exact hla
  obtain ⟨f1, f2, f3, f4, f5, f6, f7, f8, f9⟩ := image_fields b _ _ _ _ _ _ _ _ _ _ _ _ _ _ _ _ hl3 hl4 hsrc hfa hlp hfp h5
  have hsb : sumBad er.al b = false := by
    unfold sumBad
    rw [hl3, hsum' er.al b.l2 pad b1 i0 i1 0 0 ttl x0 x1 hpad]
    rfl
  have hacc : Accepted er b := by
    refine ⟨?_, by rw [f5]; exact hfp0, ?_⟩
    · have := f8.len
      have := f8.hdr
      omega
    · unfold rejects
      cases hh : b.hw with
      | bad => exact absurd hh hhw
      | ok => simp
      | none => simp [hsb]
      | unknown => simp [hsb]
  refine ⟨b.save (sockaddr b.src b.sport), unicast_delivery er s b hacc (by rw [f3]; exact huni) j (by
    rw [f2, f4, f3, f5]; exact hlk) (by rw [f6]; exact httl) htk hroom, ?_⟩
  intro s2 l hq m
  have := (recvfrom_exact s2 j m b l f8 hq).1
  exact ⟨_, this, by rw [f9], by rw [f2, f4]; exact sockaddr_names _ _ hsrc hlp⟩

end Verif.Udp

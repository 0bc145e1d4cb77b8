import Verif.Fwd.Account
/-! # C74, C75: no packet buffer is used twice, none is lost -/
namespace Verif.Fwd

theorem emit_if_acc (lo : Bool) (id : Nat) {c : Code} (s : St) (e : Ev) (b : Prop) [Decidable b] (hc : c ≠ .processed)
    (he : e.ends = none) (ha : ∀ j, e ≠ .alloc j) : Acc lo id c s (if b then s.emit e else s) := by
  split
  · exact Acc.note lo id s e hc he ha
  · exact Acc.refl lo id s hc

theorem icmpDeliver_acc (lo env id p prc) (s : St) (hid : id < s.next) :
    Acc lo id (icmpDeliver env id p prc s).1 s (icmpDeliver env id p prc s).2 := by
  unfold icmpDeliver
  simp only
  have h1 := emit_if_acc lo id (c := .drop) s (.outside id) (p.body.length < 9) (by simp) rfl (by intro j; simp)
  generalize (if p.body.length < 9 then s.emit (.outside id) else s) = s1 at h1 ⊢
  have h2 := emit_if_acc lo id (c := .drop) s1 (.outside id) (p.body.length < 28) (by simp) rfl (by intro j; simp)
  generalize (if p.body.length < 28 then s1.emit (.outside id) else s1) = s2 at h2 ⊢
  split
  · exact Acc.refl lo id s (by simp)
  split
  · exact h1
  · exact (h1.trans (by simp) hid h2).trans (by simp) hid (Acc.note lo id s2 _ (by simp) rfl (by intro j; simp))

theorem icmpDeliver_drop (env id p prc) (s : St) : (icmpDeliver env id p prc s).1 = .drop := by
  unfold icmpDeliver
  simp only
  repeat' split
  all_goals rfl

/-- What the ICMP replies need so that they are not lost. -/
def ReplyFits (env : Env) (p : Pkt) : Prop := ∀ d, (p.hdr.len + 65536 - p.opts.length) % 65536 ≤ (env.dev d).mtu

theorem icmpType_acc {lo env out id p t c} {s : St} (hid : id < s.next) (ho : OutAcc lo env out)
    (hok : lo = true → OutOk env out) (hr : lo = true → Routed env) (hs : lo = true → ReplyFits env p) :
    Acc lo id (icmpType env out id p t c s).1 s (icmpType env out id p t c s).2 := by
  unfold icmpType
  split
  · split
    · exact icmpDeliver_acc lo env id p _ s hid
    · exact Acc.refl lo id s (by simp)
  split
  · split
    · exact Acc.refl lo id s (by simp)
    · exact icmpDeliver_acc lo env id p _ s hid
  split
  · split
    · exact Acc.refl lo id s (by simp)
    · exact icmpDeliver_acc lo env id p _ s hid
  split
  · split
    · exact Acc.refl lo id s (by simp)
    · exact icmpDeliver_acc lo env id p _ s hid
  split
  · exact reflect_acc hid ho hok (fun h => hs h) hr
  split
  · split
    · exact Acc.refl lo id s (by simp)
    · have h1 := emit_if_acc lo id (c := .drop) s (.outside id) (p.body.length < 20) (by simp) rfl (by intro j; simp)
      generalize (if p.body.length < 20 then s.emit (.outside id) else s) = s1 at h1 ⊢
      exact h1.trans (by simp) hid (reflect_acc (h1.lt hid) ho hok (fun h => hs h) hr)
  split
  · exact Acc.refl lo id s (by simp)
  · exact Acc.refl lo id s (by simp)

theorem icmpInput_acc {lo env out id p} {s : St} (hid : id < s.next) (ho : OutAcc lo env out)
    (hok : lo = true → OutOk env out) (hr : lo = true → Routed env) (hs : lo = true → ReplyFits env p) :
    Acc lo id (icmpInput env out id p s).1 s (icmpInput env out id p s).2 := by
  unfold icmpInput
  split
  · unfold icmpSwitch
    split
    · exact Acc.refl lo id s (by simp)
    · have h1 := emit_if_acc lo id (c := .drop) s (.outside id) (p.body.length < 2) (by simp) rfl (by intro j; simp)
      generalize (if p.body.length < 2 then s.emit (.outside id) else s) = s1 at h1 ⊢
      exact h1.trans (by simp) hid (icmpType_acc (h1.lt hid) ho hok hr hs)
  · exact Acc.refl lo id s (by simp)

/-- Is this a UDP datagram for a port without socket, answered by "port unreachable"? -/
def closedPort (env : Env) (p : Pkt) : Prop :=
  p.hdr.proto = 17 ∧ env.udp p = .noPort ∧ env.sp = false ∧ env.blackhole = false

/-- Conditions on a packet under which no buffer is lost. -/
structure Fine (env : Env) (p : Pkt) : Prop where
  opts : p.opts.length ≤ 40
  fits : p.hdr.proto = 1 → ReplyFits env p
  udp : ¬ closedPort env p
  frag : ∀ d, (env.dev d).mtu < p.hdr.len → fragEnds env p d

theorem udpNoPort_acc {lo env out id p} {s : St} (hid : id < s.next) (ho : OutAcc lo env out)
    (hu : lo = true → env.sp = true ∨ env.blackhole = true) :
    Acc lo id (udpNoPort env out p s).1 s (udpNoPort env out p s).2 := by
  unfold udpNoPort
  by_cases h1 : env.blackhole
  · rw [if_pos h1]; exact Acc.refl lo id s (by simp)
  rw [if_neg h1]
  by_cases h2 : env.sp
  · rw [if_pos h2]; exact Acc.refl lo id s (by simp)
  rw [if_neg h2]
  cases lo with
  | true => rcases hu rfl with h | h <;> contradiction
  | false => exact (icmpError_acc hid ho (by simp) (by simp)).forget

theorem transport_acc {lo env out id p} {s : St} (hid : id < s.next) (ho : OutAcc lo env out)
    (hok : lo = true → OutOk env out) (hr : lo = true → Routed env) (hf : lo = true → Fine env p) :
    Acc lo id (transport env out id p s).1 s (transport env out id p s).2 := by
  unfold transport
  split
  · next h => exact icmpInput_acc hid ho hok hr (fun hl => (hf hl).fits h)
  split
  · next h17 =>
    split
    · exact Acc.done lo id s _ hid rfl
    · exact Acc.refl lo id s (by simp)
    · exact Acc.refl lo id s (by simp)
    · next hn =>
      refine udpNoPort_acc hid ho ?_
      intro hl
      have := (hf hl).udp
      unfold closedPort at this
      cases h1 : env.sp with
      | true => exact .inl rfl
      | false =>
        cases h2 : env.blackhole with
        | true => exact .inr rfl
        | false => exact absurd ⟨h17, hn, h1, h2⟩ this
  split
  · exact Acc.done lo id s _ hid rfl
  · next h => exact Acc.refl lo id s h

theorem deliverUp_acc {lo env out id p} {s : St} (hid : id < s.next) (ho : OutAcc lo env out)
    (hok : lo = true → OutOk env out) (hr : lo = true → Routed env) (hf : lo = true → Fine env p) :
    Acc lo id (deliverUp env out id p s).1 s (deliverUp env out id p s).2 := by
  unfold deliverUp
  split
  · exact Acc.refl lo id s (by simp)
  split
  · exact Acc.refl lo id s (by simp)
  · exact Acc.done lo id s _ hid rfl
  split
  · exact Acc.refl lo id s (by simp)
  · exact Acc.done lo id s _ hid rfl
  · exact transport_acc hid ho hok hr hf

theorem localIn_acc {lo env out id p} {s : St} (hid : id < s.next) (ho : OutAcc lo env out)
    (hok : lo = true → OutOk env out) (hr : lo = true → Routed env) (hf : lo = true → Fine env p)
    (hre : lo = true → ∀ p', env.reass p = some p' → Fine env p') :
    Acc lo id (localIn env out id p s).1 s (localIn env out id p s).2 := by
  unfold localIn
  split
  · split
    · exact Acc.done lo id s _ hid rfl
    · next p' h => exact deliverUp_acc hid ho hok hr (fun hl => hre hl p' h)
  · exact deliverUp_acc hid ho hok hr hf

theorem fragEnds_decTtl {env p d} : fragEnds env (decTtl p) d ↔ fragEnds env p d := Iff.rfl

theorem forward_acc {lo env out id p} {s : St} (hid : id < s.next) (ho : OutAcc lo env out)
    (hg : lo = true → Good env out) (hf : lo = true → Fine env p) :
    Acc lo id (forward env out id p s).1 s (forward env out id p s).2 := by
  unfold forward
  simp only
  split
  · exact Acc.refl lo id s (by simp)
  split
  · exact Acc.refl lo id s (by simp)
  · exact Acc.done lo id s _ hid rfl
  split
  · exact Acc.refl lo id s (by simp)
  split
  · exact Acc.refl lo id s (by simp)
  split
  · exact icmpError_acc hid ho hg (fun h => (hf h).opts)
  · refine outCommon_acc hid ?_ (fun h => (hf h).opts) (fun h => (hf h).frag)
    intro id' p' mtu s' hid' ho'
    exact icmpError_acc hid' ho hg ho'

theorem ipv4Input_acc {lo env id p} {s : St} (hid : id < s.next) (hh : lo = true → Healthy env)
    (hf : lo = true → Fine env p) (hre : lo = true → ∀ p', env.reass p = some p' → Fine env p') :
    Acc lo id (ipv4Input env id p s).1 s (ipv4Input env id p s).2 := by
  have ho := ipOutput_acc lo env depth (fun h => ⟨hh h, by decide⟩)
  have hg : lo = true → Good env (ipOutput env depth) :=
    fun h => ⟨ipOutput_ok env (hh h) 2, (hh h).routed, (hh h).mtu⟩
  unfold ipv4Input
  split
  · exact Acc.refl lo id s (by simp)
  split
  · exact Acc.refl lo id s (by simp)
  split
  · exact localIn_acc hid ho (fun h => (hg h).ok) (fun h => (hg h).routed) hf hre
  · exact forward_acc hid ho hg hf

theorem packetInput_acc {lo env p} (hh : lo = true → Healthy env)
    (hf : lo = true → Fine env p) (hre : lo = true → ∀ p', env.reass p = some p' → Fine env p') :
    Acc lo 0 .processed ⟨1, []⟩ (packetInput env p).2 := by
  have h := ipv4Input_acc (lo := lo) (env := env) (id := 0) (p := p) (s := ⟨1, []⟩) (by decide) hh hf hre
  unfold packetInput
  simp only
  split
  · next e => exact h.free (by rw [e]; simp) (by decide)
  · next e => rw [e] at h; exact h
  · next e =>
    split
    · exact h.trans (by rw [e]; simp) (by decide) (Acc.done lo 0 _ _ (h.lt (by decide)) rfl)
    · exact h.free (by rw [e]; simp) (by decide)

/-- **C74.** Whatever the hooks, IPsec, the tables and the allocator do, and whatever fails: while a received IPv4
packet is processed, every buffer (the received one, number 0, and every one allocated meanwhile) is disposed of at most
once, buffer numbers are handed out at most once, and no other buffer is touched. -/
theorem buffers_used_at_most_once (env : Env) (p : Pkt) :
    (∀ j, cnt j (packetInput env p).2.evs ≤ 1) ∧ (∀ j, made j (packetInput env p).2.evs ≤ 1) ∧
    (∀ j, cnt j (packetInput env p).2.evs = 1 → j = 0 ∨ made j (packetInput env p).2.evs = 1) := by
  obtain ⟨l, n, e, m, o, b, z, _⟩ := packetInput_acc (lo := false) (env := env) (p := p) (by simp) (by simp) (by simp)
  have e : (packetInput env p).2.evs = n := by rw [e]; rfl
  rw [e]
  have l : 1 ≤ (packetInput env p).2.next := l
  have m : ∀ j, made j n = if 1 ≤ j ∧ j < (packetInput env p).2.next then 1 else 0 := m
  have o : ∀ j, j ≠ 0 → j < 1 ∨ (packetInput env p).2.next ≤ j → cnt j n = 0 := o
  have b : ∀ j, 1 ≤ j → j < (packetInput env p).2.next → Bd false (cnt j n) := b
  refine ⟨fun j => ?_, fun j => ?_, fun j hj => ?_⟩
  · by_cases h0 : j = 0
    · subst h0; exact (z rfl).1
    · by_cases h1 : j < (packetInput env p).2.next
      · exact (b j (by omega) h1).1
      · rw [o j h0 (by omega)]; omega
  · rw [m]; split <;> omega
  · by_cases h0 : j = 0
    · exact .inl h0
    · right
      rw [m, if_pos]
      by_cases h1 : j < (packetInput env p).2.next
      · omega
      · rw [o j h0 (by omega)] at hj; omega

/-- **C75 (partial: nothing fails on the way out, and no ICMP message has to be dropped).** The received buffer and
every buffer allocated while it is processed is disposed of exactly once.  Excluded are exactly: output failures, routes
that are missing, datagrams to a closed UDP port, ICMP replies that exceed an MTU and fragmentation that does not end
(C24). -/
theorem no_buffer_lost_partial (env : Env) (p : Pkt) (hh : Healthy env) (hf : Fine env p)
    (hre : ∀ p', env.reass p = some p' → Fine env p') :
    ∀ j, j = 0 ∨ made j (packetInput env p).2.evs = 1 → cnt j (packetInput env p).2.evs = 1 := by
  obtain ⟨l, n, e, m, o, b, z, _⟩ := packetInput_acc (lo := true) (env := env) (p := p) (fun _ => hh) (fun _ => hf)
    (fun _ => hre)
  have e : (packetInput env p).2.evs = n := by rw [e]; rfl
  rw [e]
  have m : ∀ j, made j n = if 1 ≤ j ∧ j < (packetInput env p).2.next then 1 else 0 := m
  have b : ∀ j, 1 ≤ j → j < (packetInput env p).2.next → Bd true (cnt j n) := b
  intro j hj
  rcases hj with rfl | hj
  · exact (z rfl).2 rfl
  · rw [m] at hj
    by_cases h : 1 ≤ j ∧ j < (packetInput env p).2.next
    · exact (b j h.1 h.2).2 rfl
    · rw [if_neg h] at hj; omega

/-! ### The received buffer when things fail -/

/-- The step disposes of `id` exactly once if it returns `processed`, and not at all otherwise. -/
def Own (id : Nat) (c : Code) (s s' : St) : Prop :=
  id < s'.next ∧ ∃ new, s'.evs = s.evs ++ new ∧ cnt id new = if c = .processed then 1 else 0

theorem Acc.own {id c s s'} (h : Acc true id c s s') (hid : id < s.next) : Own id c s s' := by
  obtain ⟨n, e, _, _, _, p, z⟩ := h.ext
  refine ⟨h.lt hid, n, e, ?_⟩
  by_cases hc : c = .processed
  · rw [if_pos hc]; exact (p hc).2 rfl
  · rw [if_neg hc]; exact z hc

theorem Acc.own_drop {lo id c s s'} (h : Acc lo id c s s') (hid : id < s.next) (hc : c ≠ .processed) : Own id c s s' := by
  obtain ⟨n, e, _, _, _, _, z⟩ := h.ext
  exact ⟨h.lt hid, n, e, by rw [if_neg hc]; exact z hc⟩

theorem Own.trans {id c c' s s1 s2} (h : Own id c s s1) (hc : c ≠ .processed) (h' : Own id c' s1 s2) : Own id c' s s2 := by
  obtain ⟨_, n1, e1, z1⟩ := h
  obtain ⟨l, n2, e2, z2⟩ := h'
  refine ⟨l, n1 ++ n2, by rw [e2, e1, List.append_assoc], ?_⟩
  rw [cnt_append, z1, z2, if_neg hc, Nat.zero_add]

theorem outCommon_own {env id p nh l sa t c dst out} {s : St} (hid : id < s.next) (ho : OutAcc false env out)
    (hf : ∀ d, (env.dev d).mtu < p.hdr.len → fragEnds env p d) :
    Own id (outCommon env (fun q mtu s => icmpError env out q t c dst mtu s) id p nh l sa s).1 s
      (outCommon env (fun q mtu s => icmpError env out q t c dst mtu s) id p nh l sa s).2 := by
  unfold outCommon
  split
  · exact (Acc.refl true id s (by simp)).own hid
  · exact (Acc.done true id s _ hid rfl).own hid
  · split
    · exact (Acc.refl true id s (by simp)).own hid
    · exact (Acc.done true id s _ hid rfl).own hid
    · unfold outRoute
      split
      · exact (Acc.refl true id s (by simp)).own hid
      · next n d q h =>
        obtain ⟨h1, h2, h3, a, h4, h5⟩ := findRoute_pkt h
        have e1 : (outPkt env id l q).opts = p.opts := by unfold outPkt; split <;> exact h1
        have e2 : (outPkt env id l q).hdr.len = p.hdr.len := by unfold outPkt; split <;> (try unfold setId) <;> simp [h4]
        have e3 : (outPkt env id l q).hdr.off = p.hdr.off := by unfold outPkt; split <;> (try unfold setId) <;> simp [h4]
        have e4 : (outPkt env id l q).body = p.body := by unfold outPkt; split <;> exact h2
        by_cases hm : (outPkt env id l q).hdr.len > (env.dev d).mtu
        · rw [if_pos hm]
          by_cases hd : df (outPkt env id l q)
          · rw [if_pos hd]
            exact (icmpError_acc (lo := false) hid ho (by simp) (by simp)).own_drop hid (by simp)
          · rw [if_neg hd]
            refine (fragmentPkt_acc true env id _ d _ s hid ?_).own hid
            intro _
            have := hf d (by omega)
            unfold fragEnds at this ⊢
            rw [e1, e2, e3, e4]
            unfold Pkt.hlen
            rw [e1]
            exact this
        · rw [if_neg hm]
          exact (outContinue_acc true env id _ d _ l s hid).own hid

theorem forward_own {env out id p} {s : St} (hid : id < s.next) (ho : OutAcc false env out)
    (hf : ∀ d, (env.dev d).mtu < p.hdr.len → fragEnds env p d) :
    Own id (forward env out id p s).1 s (forward env out id p s).2 := by
  unfold forward
  simp only
  split
  · exact (Acc.refl true id s (by simp)).own hid
  split
  · exact (Acc.refl true id s (by simp)).own hid
  · exact (Acc.done true id s _ hid rfl).own hid
  split
  · exact (Acc.refl true id s (by simp)).own hid
  split
  · exact (Acc.refl true id s (by simp)).own hid
  split
  · exact (icmpError_acc (lo := false) hid ho (by simp) (by simp)).own_drop hid (by simp)
  · exact outCommon_own hid ho hf

/-- May the packet be answered by rewriting it: an ICMP echo or timestamp request, or a datagram to a closed port? -/
def Answered (env : Env) (p : Pkt) : Prop :=
  p.hdr.proto = 1 ∧ ((p.body ++ env.beyond).headD 0).toNat ∈ [8, 13] ∨ closedPort env p

theorem icmpInput_own {env out id p} {s : St} (hid : id < s.next) (ho : OutAcc false env out)
    (hn : ¬ ((p.body ++ env.beyond).headD 0).toNat ∈ [8, 13]) :
    Own id (icmpInput env out id p s).1 s (icmpInput env out id p s).2 := by
  have h : (icmpInput env out id p s).1 ≠ .processed := by
    unfold icmpInput icmpSwitch icmpType
    generalize ((p.body ++ env.beyond).headD 0).toNat = t at hn ⊢
    have h8 : t ≠ 8 := fun h => hn (by simp [h])
    have h13 : t ≠ 13 := fun h => hn (by simp [h])
    repeat' split
    all_goals first | (rw [icmpDeliver_drop]; simp) | simp | contradiction
  exact (icmpInput_acc (lo := false) hid ho (by simp) (by simp) (by simp)).own_drop hid h

theorem deliverUp_own {env out id p} {s : St} (hid : id < s.next) (ho : OutAcc false env out) (hn : ¬ Answered env p) :
    Own id (deliverUp env out id p s).1 s (deliverUp env out id p s).2 := by
  unfold deliverUp
  split
  · exact (Acc.refl true id s (by simp)).own hid
  split
  · exact (Acc.refl true id s (by simp)).own hid
  · exact (Acc.done true id s _ hid rfl).own hid
  split
  · exact (Acc.refl true id s (by simp)).own hid
  · exact (Acc.done true id s _ hid rfl).own hid
  unfold transport
  split
  · next h => exact icmpInput_own hid ho (fun h' => hn (.inl ⟨h, h'⟩))
  split
  · next h17 =>
    split
    · exact (Acc.done true id s _ hid rfl).own hid
    · exact (Acc.refl true id s (by simp)).own hid
    · exact (Acc.refl true id s (by simp)).own hid
    · next h =>
      unfold udpNoPort
      by_cases h1 : env.blackhole
      · rw [if_pos h1]; exact (Acc.refl true id s (by simp)).own hid
      rw [if_neg h1]
      by_cases h2 : env.sp
      · rw [if_pos h2]; exact (Acc.refl true id s (by simp)).own hid
      · exact absurd (.inr ⟨h17, h, by simpa using h2, by simpa using h1⟩) hn
  split
  · exact (Acc.done true id s _ hid rfl).own hid
  · next h => exact (Acc.refl true id s h).own hid

/-- **C75 (partial, for the received buffer, whatever fails).** Unless the packet is answered in place (ICMP echo or
timestamp request) or is a datagram to a closed UDP port, or its fragmentation does not end (C24), the received buffer is
disposed of exactly once: sent, queued, handed on or freed. -/
theorem received_buffer_not_lost_partial (env : Env) (p : Pkt) (hn : ¬ Answered env p)
    (hre : ∀ p', env.reass p = some p' → ¬ Answered env p')
    (hf : ∀ d, (env.dev d).mtu < p.hdr.len → fragEnds env p d) :
    cnt 0 (packetInput env p).2.evs = 1 := by
  have ho := ipOutput_acc false env depth (by simp)
  have h : Own 0 (ipv4Input env 0 p ⟨1, []⟩).1 ⟨1, []⟩ (ipv4Input env 0 p ⟨1, []⟩).2 := by
    have hid : 0 < (⟨1, []⟩ : St).next := by decide
    unfold ipv4Input
    split
    · exact (Acc.refl true 0 _ (by simp)).own hid
    split
    · exact (Acc.refl true 0 _ (by simp)).own hid
    split
    · unfold localIn
      split
      · split
        · exact (Acc.done true 0 _ _ hid rfl).own hid
        · next p' h => exact deliverUp_own hid ho (hre p' h)
      · exact deliverUp_own hid ho hn
    · exact forward_own hid ho hf
  have fin : ∀ s' : St, Own 0 .processed ⟨1, []⟩ s' → cnt 0 s'.evs = 1 := by
    intro s' ⟨_, n, e, z⟩
    rw [e]
    exact z
  unfold packetInput
  simp only
  split
  · next e => exact fin _ (h.trans (by rw [e]; simp) ((Acc.done true 0 _ _ h.1 rfl).own h.1))
  · next e => rw [e] at h; exact fin _ h
  · next e =>
    split
    · exact fin _ (h.trans (by rw [e]; simp) ((Acc.done true 0 _ _ h.1 rfl).own h.1))
    · exact fin _ (h.trans (by rw [e]; simp) ((Acc.done true 0 _ _ h.1 rfl).own h.1))

end Verif.Fwd

import Verif.Fwd.Reply
/-! # C81: no access outside the packet; C82: packets for this host are not forwarded -/
namespace Verif.Fwd

/-- No access outside a packet between `s` and `s'`. -/
def InB (s s' : St) : Prop := ∀ e ∈ s'.evs, e ∈ s.evs ∨ ∀ i, e ≠ .outside i

theorem InB.refl (s : St) : InB s s := fun _ h => .inl h
theorem InB.trans {s s1 s2} (h : InB s s1) (h' : InB s1 s2) : InB s s2 := by
  intro e he
  rcases h' e he with h1 | h1
  · exact h e h1
  · exact .inr h1
theorem InB.note (s : St) (e : Ev) (he : ∀ i, e ≠ .outside i) : InB s (s.emit e) := by
  intro x hx
  rcases List.mem_append.1 hx with h | h
  · exact .inl h
  · rw [List.mem_singleton] at h; subst h; exact .inr he
theorem InB.alloc (s : St) : InB s s.alloc := by
  intro x hx
  rcases List.mem_append.1 hx with h | h
  · exact .inl h
  · rw [List.mem_singleton] at h; subst h; exact .inr (by simp)

theorem ethSend_inb (env id p d gw b) (s : St) : InB s (ethSend env id p d gw b s).2 := by
  unfold ethSend
  repeat' split
  all_goals first | exact InB.refl s | exact InB.note s _ (by simp)

theorem addEth_inb (env id p d gw) (s : St) : InB s (addEth env id p d gw s).2 := by
  unfold addEth
  simp only
  repeat' split
  all_goals first
    | exact InB.refl s
    | exact ethSend_inb _ _ _ _ _ _ _
    | exact (InB.note s _ (by simp)).trans (InB.note _ _ (by simp))
    | exact InB.note s _ (by simp)

theorem outContinue_inb (env id p d gw ins) (s : St) : InB s (outContinue env id p d gw ins s).2 := by
  unfold outContinue
  simp only
  by_cases hk : (env.dev d).kind = .gre
  · rw [if_pos hk]
    split
    · exact InB.note s _ (by simp)
    · exact InB.refl s
  · rw [if_neg hk]
    exact addEth_inb _ _ _ _ _ _

theorem sendFrags_inb (env id p d gw) : ∀ (fs : List Frag.Fragment) (pos : Nat) (s : St), InB s (sendFrags env id p d gw fs pos s).2 := by
  intro fs
  induction fs with
  | nil => intro pos s; exact InB.note s _ (by simp)
  | cons f fs ih =>
    intro pos s
    unfold sendFrags
    simp only
    split
    · exact InB.refl s
    split
    · exact (InB.alloc s).trans (InB.note _ _ (by simp))
    have h := (InB.alloc s).trans (outContinue_inb env s.next (fragPkt p f) d gw true s.alloc)
    split
    · exact h.trans (InB.note _ _ (by simp))
    · exact h.trans (ih _ _)

theorem fragmentPkt_inb (env id p d gw) (s : St) : InB s (fragmentPkt env id p d gw s).2 := by
  unfold fragmentPkt
  simp only
  split
  · exact InB.note s _ (by simp)
  · exact sendFrags_inb _ _ _ _ _ _ _ _

/-- `out` stays in bounds for packets in `R`. -/
def OutIn (R : Pkt → Prop) (out : Out) : Prop := ∀ id q nh s, R q → InB s (out id q nh s).2

theorem outCommon_inb {env err id p nh l sa} {s : St}
    (he : ∀ d q, Left env id p l d q → df q = true → ∀ m s, InB s (err q m s)) :
    InB s (outCommon env err id p nh l sa s).2 := by
  unfold outCommon
  split
  · exact InB.refl s
  · exact InB.note s _ (by simp)
  split
  · exact InB.refl s
  · exact InB.note s _ (by simp)
  unfold outRoute
  split
  · exact InB.refl s
  · next n d q h =>
    have hl := findRoute_left (id := id) (l := l) h
    generalize outPkt env id l q = q' at hl
    by_cases hm : q'.hdr.len > (env.dev d).mtu
    · rw [if_pos hm]
      by_cases hd : df q'
      · rw [if_pos hd]; exact he d q' hl hd _ s
      · rw [if_neg hd]; exact fragmentPkt_inb _ _ _ _ _ _
    · rw [if_neg hm]; exact outContinue_inb _ _ _ _ _ _ _

theorem reflect_inb {R env out id p} {s : St} (ho : OutIn R out) (hr : ∀ a, R (fillIcmp env (replyPkt p a))) :
    InB s (reflect env out id p s).2 := by
  unfold reflect reflectSend
  repeat' split
  all_goals first
    | exact InB.refl s
    | exact InB.note s _ (by simp)
    | exact ho _ _ _ _ (hr _)

/-- Large enough for the copy that `ofp_icmp_error` makes. -/
def Big (p : Pkt) : Prop := 36 + p.opts.length ≤ p.body.length

theorem icmpError_inb {R env out p t c dst mtu} {s : St} (hb : errQuiet env p t = false → Big p) (ho : OutIn R out)
    (hr : ∀ a, R (fillIcmp env (replyPkt (errPkt env (fillSum env p) t c dst mtu) a))) :
    InB s (icmpError env out p t c dst mtu s) := by
  unfold icmpError
  by_cases hq : errQuiet env p t = true
  · rw [if_pos hq]; exact InB.refl s
  rw [if_neg hq]
  split
  · exact InB.refl s
  have hb := hb (by simpa using hq)
  simp only
  rw [if_neg (by rw [bytes_length]; unfold Big at hb; unfold Pkt.hlen; omega)]
  exact (InB.alloc s).trans (reflect_inb ho hr)

theorem ipOutput_inb (env : Env) : ∀ n, OutIn (fun q => q.opts = [] ∧ (IsErr q ∨ 36 ≤ q.body.length)) (ipOutput env n) := by
  intro n
  induction n with
  | zero => intro id q nh s _; exact InB.note s _ (by simp)
  | succ n ih =>
    intro id p nh s hp
    have key : ∀ sa, InB s (outCommon env (fun p mtu s => icmpError env (ipOutput env n) p 3 4 0 mtu s) id p nh true sa s).2 := by
      intro sa
      refine outCommon_inb ?_
      intro d q hl _ m s
      refine icmpError_inb ?_ ih (fun a => ⟨by rw [fillIcmp_opts]; rfl, .inl (reply_isErr (errPkt_isErr env _ 3 4 0 m (by decide)))⟩)
      intro hq
      rcases hp.2 with h | h
      · rw [quiet_err (hl.isErr h)] at hq; cases hq
      · unfold Big; rw [hl.1, hp.1, hl.2.1]; simpa using h
    unfold ipOutput
    split
    · exact InB.refl s
    · exact key _

theorem deliverUp_inb {env id p n} {s : St} (hb : Big p) : InB s (deliverUp env (ipOutput env n) id p s).2 := by
  have hb' : 36 ≤ p.body.length := by unfold Big at hb; omega
  unfold deliverUp
  split
  · exact InB.refl s
  split
  · exact InB.refl s
  · exact InB.note s _ (by simp)
  split
  · exact InB.refl s
  · exact InB.note s _ (by simp)
  unfold transport
  split
  · unfold icmpInput
    split
    · unfold icmpSwitch
      rw [if_neg (show ¬ p.body.length < 2 by omega)]
      split
      · exact InB.refl s
      have hd : ∀ prc, InB s (icmpDeliver env id p prc s).2 := by
        intro prc
        unfold icmpDeliver
        simp only
        rw [if_neg (show ¬ p.body.length < 9 by omega), if_neg (show ¬ p.body.length < 28 by omega)]
        split
        · exact InB.refl s
        split
        · exact InB.refl s
        · exact InB.note s _ (by simp)
      unfold icmpType
      rw [if_neg (show ¬ p.body.length < 20 by omega)]
      have h8 : InB s (reflect env (ipOutput env n) id { p with body := p.body.set 0 0 } s).2 :=
        reflect_inb (ipOutput_inb env n) (fun a => ⟨by rw [fillIcmp_opts]; rfl, .inr (by rw [fillIcmp_len]; simpa [replyPkt] using hb')⟩)
      have h13 : InB s (reflect env (ipOutput env n) id (tstamp env p) s).2 :=
        reflect_inb (ipOutput_inb env n) (fun a => ⟨by rw [fillIcmp_opts]; rfl, .inr (by
          rw [fillIcmp_len]
          show 36 ≤ (tstamp env p).body.length
          simp only [tstamp, b32, List.length_append, List.length_cons, List.length_nil, List.length_take, List.length_drop]
          omega)⟩)
      repeat' split
      all_goals first | exact InB.refl s | exact hd _ | exact h8 | exact h13
    · exact InB.refl s
  split
  · split
    · exact InB.note s _ (by simp)
    · exact InB.refl s
    · exact InB.refl s
    · unfold udpNoPort
      split
      · exact InB.refl s
      split
      · exact InB.refl s
      · exact icmpError_inb (p := udpBad p) (fun _ => hb) (ipOutput_inb env n)
          (fun a => ⟨by rw [fillIcmp_opts]; rfl, .inl (reply_isErr (errPkt_isErr env _ 3 3 0 0 (by decide)))⟩)
  split
  · exact InB.note s _ (by simp)
  · exact InB.refl s

/-- **C81 (partial).** While a packet is processed that has at least 36 bytes (plus the length of its options) of payload,
and whose reassembled datagram, if any, does so too, no memory outside the packet is accessed. -/
theorem no_access_outside_partial (env : Env) (p : Pkt) (hb : Big p) (hre : ∀ p', env.reass p = some p' → Big p') :
    ∀ i, .outside i ∉ (packetInput env p).2.evs := by
  have h : InB ⟨1, []⟩ (ipv4Input env 0 p ⟨1, []⟩).2 := by
    unfold ipv4Input
    split
    · exact InB.refl _
    split
    · exact InB.refl _
    split
    · unfold localIn
      split
      · split
        · exact InB.note _ _ (by simp)
        · next p' hp => exact deliverUp_inb (hre p' hp)
      · exact deliverUp_inb hb
    · unfold forward
      simp only
      have hi := ipOutput_inb env depth
      split
      · exact InB.refl _
      split
      · exact InB.refl _
      · exact InB.note _ _ (by simp)
      split
      · exact InB.refl _
      split
      · exact InB.refl _
      split
      · exact icmpError_inb (fun _ => hb) hi (fun a => ⟨by rw [fillIcmp_opts]; rfl, .inl (reply_isErr (errPkt_isErr env _ 11 0 0 0 (by decide)))⟩)
      · refine outCommon_inb ?_
        intro d q hl _ m s
        exact icmpError_inb (fun _ => by unfold Big at *; rw [hl.1, hl.2.1]; exact hb) hi
          (fun a => ⟨by rw [fillIcmp_opts]; rfl, .inl (reply_isErr (errPkt_isErr env _ 3 4 0 m (by decide)))⟩)
  have key : InB ⟨1, []⟩ (packetInput env p).2 := by
    unfold packetInput
    simp only
    repeat' split
    all_goals first | exact h | exact h.trans (InB.note _ _ (by simp))
  intro i hi
  rcases key _ hi with h1 | h1
  · cases h1
  · exact h1 i rfl

/-- **C81 violated.** Every timestamp request whose ICMP message is between 8 and 19 bytes long makes the host write its
reply beyond the end of the packet: the length check uses the length of the whole IP datagram. -/
theorem short_timestamp_violated (env : Env) (p : Pkt) (hl : Local env p) (hp : IcmpMsg p 13) (hs : p.body.length < 20) :
    .outside 0 ∈ (packetInput env p).2.evs := by
  rw [local_step hl, icmp_step hp]
  have hr := hp.room
  have hh : p.hlen = 20 + p.opts.length := rfl
  have e : icmpType env (ipOutput env depth) 0 p 13 (((p.body ++ env.beyond).drop 1).headD 0).toNat ⟨1, []⟩ =
      reflect env (ipOutput env depth) 0 (tstamp env p) ⟨1, [.outside 0]⟩ := by
    unfold icmpType
    simp only [show ¬ (13 : Nat) = 3 by decide, show ¬ (13 : Nat) = 11 by decide, show ¬ (13 : Nat) = 12 by decide,
        show ¬ (13 : Nat) = 4 by decide, show ¬ (13 : Nat) = 8 by decide, if_false, if_true]
    rw [if_neg (by omega), if_pos hs]
    rfl
  rw [e]
  have acc := reflect_acc (lo := false) (env := env) (out := ipOutput env depth) (id := 0) (p := tstamp env p)
    (s := ⟨1, [.outside 0]⟩) (by decide) (ipOutput_acc false env depth (by simp)) (by simp) (by simp) (by simp)
  obtain ⟨new, he, _⟩ := acc.ext
  have hmem : Ev.outside 0 ∈ (reflect env (ipOutput env depth) 0 (tstamp env p) ⟨1, [.outside 0]⟩).2.evs := by
    rw [he]; simp
  unfold finish
  repeat' split
  all_goals first | exact hmem | exact List.mem_append_left _ hmem

/-! ### C82 -/

/-- An ICMP message of this host. -/
def OwnIcmp (_ : Nat) (q : Pkt) : Prop := q.hdr.proto = 1 ∧ q.hdr.ttl = 64

theorem ownIcmp_link {env d q q'} (h : q'.hdr.proto = q.hdr.proto ∧ q'.hdr.ttl = q.hdr.ttl) (hq : OwnIcmp d q) :
    Link OwnIcmp env d q' := by
  have : OwnIcmp d q' := by unfold OwnIcmp at *; rw [h.1, h.2]; exact hq
  exact link_of this this

theorem ipOutput_own (env : Env) : ∀ n, OutSent (fun q => q.hdr.proto = 1 ∧ q.hdr.ttl = 64) OwnIcmp (ipOutput env n) := by
  intro n
  induction n with
  | zero => intro id q nh s _; exact Sent.note s _ rfl
  | succ n ih =>
    refine ipOutput_sent ?_ ?_ ?_
    · intro id p hp d q hl _
      obtain ⟨_, _, _, x, i, h4, _⟩ := hl
      exact ownIcmp_link (q := q) ⟨rfl, rfl⟩ (by unfold OwnIcmp; rw [h4]; exact hp)
    · intro id p hp d q hl _ _ f k _
      obtain ⟨_, _, _, x, i, h4, _⟩ := hl
      exact ownIcmp_link (q := q) ⟨rfl, rfl⟩ (by unfold OwnIcmp; rw [h4]; exact hp)
    · intro id p hp d q hl _ _ s
      exact icmpError_sent ih (fun _ a => by rw [fillIcmp_hdr]; exact ⟨rfl, rfl⟩)

/-- **C82 (partial).** A packet whose destination is the address of the interface it came in on, an address with a local
route or a multicast address is never forwarded: while it is processed only ICMP messages of this host (TTL 64) are sent. -/
theorem local_not_forwarded_partial (env : Env) (p : Pkt)
    (h : p.hdr.dst = (env.dev p.dev).addr ∨ multicast p.hdr.dst = true ∨
      ∃ n, env.route (env.dev p.dev).vrf p.hdr.dst = some n ∧ n.isLocal = true) :
    AllSent OwnIcmp (packetInput env p).2.evs := by
  have ho : isOurs env p = true := by
    unfold isOurs
    rcases h with h | h | ⟨n, h1, h2⟩
    · simp [h]
    · simp [h]
    · simp [h1, h2]
  refine ours_sent ho (fun p' _ => deliverUp_sent ?_ ?_ ?_)
  · intro h1 _ s
    exact reflect_sent (ipOutput_own env depth) (fun a => by rw [fillIcmp_hdr]; exact ⟨h1, rfl⟩)
  · intro h1 _ s
    exact reflect_sent (ipOutput_own env depth) (fun a => by rw [fillIcmp_hdr]; exact ⟨h1, rfl⟩)
  · intro _ s
    exact icmpError_sent (ipOutput_own env depth) (fun _ a => by rw [fillIcmp_hdr]; exact ⟨rfl, rfl⟩)

/-- A packet for the broadcast address of the interface it came in on is freed, nothing is sent. -/
theorem directed_broadcast_dropped (env : Env) (p : Pkt) (h : p.hdr.dst = (env.dev p.dev).bcast) :
    packetInput env p = (.drop, ⟨1, [.free 0]⟩) := by
  have e : ipv4Input env 0 p ⟨1, []⟩ = (.drop, ⟨1, []⟩) := by
    unfold ipv4Input
    rw [if_pos h.symm]
    split <;> rfl
  unfold packetInput
  simp only [e]
  rfl

/-! ### C83: corrupt headers -/

/-- **C83.** When the header checksum is computed in software, the packet is accepted by the header check exactly when the
Internet checksum over the whole header, options included, is right; and when the hardware checks, exactly when it says
so. -/
theorem header_check (env : Env) (p : Pkt) (hw : Wire p) :
    hdrOk env p = true ↔
      (env.hwSum p = .ok ∨ (env.hwSum p ≠ .bad ∧ Cksum.Spec.checksum p.header = 0)) := by
  have k := iph_zero (odd := env.odd) hw.opts4 hw.opts40
  unfold hdrOk
  cases env.hwSum p <;> simp [k]

/-- **C83.** A packet whose header is corrupt is freed, and nothing is sent, delivered or reported. -/
theorem corrupt_header_dropped (env : Env) (p : Pkt) (hw : Wire p)
    (h : env.hwSum p = .bad ∨ (env.hwSum p ≠ .ok ∧ Cksum.Spec.checksum p.header ≠ 0)) :
    packetInput env p = (.drop, ⟨1, [.free 0]⟩) := by
  have hk : hdrOk env p = false := by
    cases e : hdrOk env p with
    | false => rfl
    | true =>
      have := (header_check env p hw).1 e
      rcases h with h | ⟨h, h'⟩ <;> rcases this with g | ⟨g, g'⟩
      · rw [h] at g; cases g
      · exact absurd h g
      · exact absurd g h
      · exact absurd g' h'
  unfold packetInput ipv4Input
  simp only [hk, if_true]
  rfl

end Verif.Fwd

import Verif.Fwd.Account
import Verif.Frag.Props
/-! # What is put on the links: which packets each function sends -/
namespace Verif.Fwd

/-- Everything sent between `s` and `s'` satisfies `Q` (interface, packet). -/
def Sent (Q : Nat → Pkt → Prop) (s s' : St) : Prop :=
  ∀ e ∈ s'.evs, e ∈ s.evs ∨ ∀ i d q, e.sent = some (i, d, q) → Q d q

theorem Sent.refl (Q) (s : St) : Sent Q s s := fun _ h => .inl h

theorem Sent.trans {Q s s1 s2} (h : Sent Q s s1) (h' : Sent Q s1 s2) : Sent Q s s2 := by
  intro e he
  rcases h' e he with h1 | h1
  · exact h e h1
  · exact .inr h1

theorem Sent.note {Q} (s : St) (e : Ev) (he : e.sent = none) : Sent Q s (s.emit e) := by
  intro x hx
  rcases List.mem_append.1 hx with h | h
  · exact .inl h
  · rw [List.mem_singleton] at h
    subst h
    exact .inr (fun i d q hh => by rw [he] at hh; cases hh)

theorem Sent.done {Q} (s : St) (e : Ev) (i d : Nat) (p : Pkt) (he : e.sent = some (i, d, p)) (hq : Q d p) :
    Sent Q s (s.emit e) := by
  intro x hx
  rcases List.mem_append.1 hx with h | h
  · exact .inl h
  · rw [List.mem_singleton] at h
    subst h
    exact .inr (fun i d q hh => by rw [he] at hh; cases hh; exact hq)

theorem Sent.alloc {Q} (s : St) : Sent Q s s.alloc := by
  intro x hx
  rcases List.mem_append.1 hx with h | h
  · exact .inl h
  · rw [List.mem_singleton] at h
    subst h
    exact .inr (fun i d q hh => by cases hh)

theorem Sent.mono {Q Q' : Nat → Pkt → Prop} {s s'} (h : Sent Q s s') (hq : ∀ d p, Q d p → Q' d p) : Sent Q' s s' := by
  intro e he
  rcases h e he with h1 | h1
  · exact .inl h1
  · exact .inr (fun i d q hh => hq d q (h1 i d q hh))

theorem ethSend_sent {Q env id p d gw b} {s : St} (hq : Q d p) : Sent Q s (ethSend env id p d gw b s).2 := by
  unfold ethSend
  repeat' split
  all_goals first | exact Sent.refl Q s | exact Sent.done s _ _ d p rfl hq

theorem addEth_sent {Q env id p d gw} {s : St} (hq : Q d (trimTail p)) : Sent Q s (addEth env id p d gw s).2 := by
  unfold addEth
  simp only
  repeat' split
  all_goals first
    | exact Sent.refl Q s
    | exact ethSend_sent hq
    | exact (Sent.note s _ rfl).trans (Sent.done _ _ _ d _ rfl hq)
    | exact Sent.note s _ rfl

/-- What goes out when `q` is passed to the link layer of `d`: bytes after the datagram are cut off, except in tunnels. -/
def Link (Q : Nat → Pkt → Prop) (env : Env) (d : Nat) (q : Pkt) : Prop :=
  ((env.dev d).kind = .gre → Q d q) ∧ ((env.dev d).kind ≠ .gre → Q d (trimTail q))

theorem outContinue_sent {Q env id p d gw} {ins : Bool} {s : St} (hq : Link Q env d (if ins then fillSum env p else p)) :
    Sent Q s (outContinue env id p d gw ins s).2 := by
  unfold outContinue
  simp only
  by_cases hk : (env.dev d).kind = .gre
  · rw [if_pos hk]
    split
    · exact Sent.done s _ _ d _ rfl (hq.1 hk)
    · exact Sent.refl Q s
  · rw [if_neg hk]
    exact addEth_sent (hq.2 hk)

/-- The pieces made of the payload `pl` (from position `pos` of the datagram's payload on). -/
def Pieces (mtu frag : Nat) : Nat → List UInt8 → List Frag.Fragment → Prop
  | _, _, [] => True
  | pos, pl, f :: fs => pos % 8 = 0 ∧ f.data ≠ [] ∧ (∃ rest, pl = f.data ++ rest ∧ Pieces mtu frag (pos + f.data.length) rest fs) ∧
      (f.field = (frag + pos / 8) % 65536 ∨ f.field = Frag.setMf ((frag + pos / 8) % 65536)) ∧
      (20 + f.opts.length + 8 ≤ mtu → mtu ≤ 65535 → f.len ≤ mtu)

theorem fragLoop_pieces (mtu frag : Nat) (fo : List UInt8) : ∀ (pl opts : List UInt8) (pos : Nat) (fs : List Frag.Fragment),
    pos % 8 = 0 → Frag.fragLoop mtu frag fo opts pos pl = some fs →
    Pieces mtu frag pos pl fs ∧ ∀ f ∈ fs, f.opts = opts ∨ f.opts = fo := by
  intro pl
  induction hn : pl.length using Nat.strongRecOn generalizing pl with
  | _ n ih =>
    intro opts pos fs hpos h
    subst hn
    unfold Frag.fragLoop at h
    by_cases h0 : pl = []
    · rw [dif_pos h0] at h
      cases h
      exact ⟨trivial, by simp⟩
    rw [dif_neg h0] at h
    simp only at h
    have hp := List.length_pos_iff.2 h0
    by_cases h1 : min (Frag.segLen mtu (20 + opts.length)) pl.length = 0
    · rw [dif_pos h1] at h; cases h
    rw [dif_neg h1] at h
    have hseg : Frag.segLen mtu (20 + opts.length) % 8 = 0 := by unfold Frag.segLen; omega
    generalize hfl : min (Frag.segLen mtu (20 + opts.length)) pl.length = fl at h h1
    have hld : (pl.take fl).length = fl := by rw [List.length_take]; omega
    split at h
    · cases h
    · next r hr =>
      injection h with h
      have key : Pieces mtu frag (pos + fl) (pl.drop fl) r ∧ ∀ f ∈ r, f.opts = fo ∨ f.opts = fo := by
        by_cases hlast : fl = pl.length
        · rw [hlast, List.drop_length] at hr
          unfold Frag.fragLoop at hr
          rw [dif_pos rfl] at hr
          cases hr
          exact ⟨trivial, by simp⟩
        · exact ih (pl.drop fl).length (by rw [List.length_drop]; omega) _ rfl fo (pos + fl) r (by omega) hr
      subst h
      refine ⟨⟨hpos, ?_, ⟨pl.drop fl, (List.take_append_drop _ _).symm, ?_⟩, ?_, ?_⟩, ?_⟩
      · intro h
        have : (pl.take fl).length = 0 := by rw [show pl.take fl = [] from h]; rfl
        omega
      · show Pieces mtu frag (pos + (pl.take fl).length) _ _
        rw [hld]
        exact key.1
      · show (if fl < pl.length then _ else _) = _ ∨ (if fl < pl.length then _ else _) = _
        split
        · exact .inr rfl
        · exact .inl rfl
      · intro a b
        obtain ⟨_, _, s3⟩ := Frag.segLen_spec a b
        show 20 + opts.length + (pl.take fl).length ≤ mtu
        have s3 : Frag.segLen mtu (20 + opts.length) + (20 + opts.length) ≤ mtu := s3
        omega
      · intro f hf
        rcases List.mem_cons.1 hf with rfl | hf
        · exact .inl rfl
        · rcases key.2 f hf with h | h <;> exact .inr h

/-- What is known of a fragment that gets sent: it carries bytes of the packet. -/
structure FragOf (p : Pkt) (mtu : Nat) (f : Frag.Fragment) (k : Nat) : Prop where
  pos : k % 8 = 0
  ne : f.data ≠ []
  data : f.data = (p.body.drop k).take f.data.length
  inside : k + f.data.length ≤ p.body.length
  announced : k + f.data.length ≤ p.hdr.len - p.hlen
  field : f.field = (p.hdr.off + k / 8) % 65536 ∨ f.field = Frag.setMf ((p.hdr.off + k / 8) % 65536)
  fits : 20 + f.opts.length + 8 ≤ mtu → mtu ≤ 65535 → f.len ≤ mtu
  opts : p.opts.length % 4 = 0 → f.opts.length % 4 = 0 ∧ f.opts.length ≤ p.opts.length

theorem sendFrags_sent {Q env id p d gw mtu} (hQ : ∀ f k, FragOf p mtu f k → Link Q env d (fillSum env (fragPkt p f)))
    (pl : List UInt8) (hpl : pl.length = p.hdr.len - p.hlen) (hpb : pl = (p.body ++ List.replicate pl.length 0).take pl.length) :
    ∀ (fs : List Frag.Fragment) (pos : Nat) (s : St), Pieces mtu p.hdr.off pos (pl.drop pos) fs → pos ≤ pl.length →
    (∀ f ∈ fs, p.opts.length % 4 = 0 → f.opts.length % 4 = 0 ∧ f.opts.length ≤ p.opts.length) →
    Sent Q s (sendFrags env id p d gw fs pos s).2 := by
  intro fs
  induction fs with
  | nil => intro pos s _ _ _; exact Sent.note s _ rfl
  | cons f fs ih =>
    intro pos s hp hle ho
    unfold sendFrags
    by_cases h1 : env.allocOk s.next = false
    · rw [if_pos h1]; exact Sent.refl Q s
    rw [if_neg h1]
    by_cases h2 : p.body.length < pos + f.data.length
    · rw [if_pos h2]; exact (Sent.alloc s).trans (Sent.note _ _ rfl)
    rw [if_neg h2]
    obtain ⟨a, b, ⟨rest, e, hr⟩, c, g⟩ := hp
    have hlen := congrArg List.length e
    rw [List.length_append, List.length_drop] at hlen
    have e1 : f.data = (pl.drop pos).take f.data.length := by rw [e]; simp
    have e2 : (pl.drop pos).take f.data.length = (p.body.drop pos).take f.data.length := by
      rw [hpb, List.drop_take, List.take_take, List.drop_append_of_le_length (by omega)]
      rw [show min f.data.length (pl.length - pos) = f.data.length by omega]
      rw [List.take_append_of_le_length (by rw [List.length_drop]; omega)]
    have hf : FragOf p mtu f pos := ⟨a, b, e1.trans e2, by omega, by omega, c, g, ho f (by simp)⟩
    have h3 : Sent Q s (outContinue env s.next (fragPkt p f) d gw true s.alloc).2 :=
      (Sent.alloc s).trans (outContinue_sent (by simpa using hQ f pos hf))
    simp only
    split
    · exact h3.trans (Sent.note _ _ rfl)
    · refine h3.trans (ih _ _ ?_ (by omega) (fun f hf => ho f (List.mem_cons_of_mem _ hf)))
      have : pl.drop (pos + f.data.length) = rest := by
        rw [← List.drop_drop, e]; simp
      rw [this]
      exact hr

theorem fragmentPkt_sent {Q env id p d gw} {s : St}
    (hQ : ∀ f k, FragOf p (env.dev d).mtu f k → Link Q env d (fillSum env (fragPkt p f))) :
    Sent Q s (fragmentPkt env id p d gw s).2 := by
  unfold fragmentPkt
  simp only
  split
  · exact Sent.note s _ rfl
  · next fs h =>
    generalize hpl : (p.body ++ List.replicate (p.hdr.len - p.hlen) 0).take (p.hdr.len - p.hlen) = pl at h
    have hl : pl.length = p.hdr.len - p.hlen := by rw [← hpl]; simp
    unfold Frag.fragment at h
    split at h
    · cases h
    · next fo hfo =>
      obtain ⟨h1, h2⟩ := fragLoop_pieces _ _ _ _ _ 0 fs rfl h
      refine sendFrags_sent hQ pl hl (by rw [hl]; exact hpl.symm) fs 0 s (by simpa using h1) (by omega) ?_
      intro f hf h4
      obtain ⟨p1, p2⟩ := Frag.padTo4_length fo
      have := Frag.optLoop_length _ _ _ hfo
      rcases h2 f hf with h | h
      · rw [h]; exact ⟨h4, Nat.le_refl _⟩
      · rw [h]; exact ⟨p1, by omega⟩

/-- `out` sends only `Q` for packets in `R`. -/
def OutSent (R : Pkt → Prop) (Q : Nat → Pkt → Prop) (out : Out) : Prop :=
  ∀ id q nh s, R q → Sent Q s (out id q nh s).2

theorem reflect_sent {R Q env out id p} {s : St} (ho : OutSent R Q out) (hr : ∀ a, R (fillIcmp env (replyPkt p a))) :
    Sent Q s (reflect env out id p s).2 := by
  unfold reflect reflectSend
  repeat' split
  all_goals first
    | exact Sent.refl Q s
    | exact Sent.note s _ rfl
    | exact ho _ _ _ _ (hr _)

theorem icmpError_sent {R Q env out p t c dst mtu} {s : St} (ho : OutSent R Q out)
    (hr : errQuiet env p t = false → ∀ a, R (fillIcmp env (replyPkt (errPkt env (fillSum env p) t c dst mtu) a))) :
    Sent Q s (icmpError env out p t c dst mtu s) := by
  unfold icmpError
  by_cases h1 : errQuiet env p t = true
  · rw [if_pos h1]; exact Sent.refl Q s
  rw [if_neg h1]
  split
  · exact Sent.refl Q s
  simp only
  refine Sent.trans ?_ (reflect_sent ho (hr (by simpa using h1)))
  split
  · exact (Sent.alloc s).trans (Sent.note _ _ rfl)
  · exact Sent.alloc s

/-- The packet that leaves through `d`: source address and identification filled in. -/
def Left (env : Env) (id : Nat) (p : Pkt) (l : Bool) (d : Nat) (q : Pkt) : Prop :=
  q.opts = p.opts ∧ q.body = p.body ∧ q.dev = p.dev ∧
  ∃ a i, q.hdr = { p.hdr with src := a, id := i } ∧ (p.hdr.src ≠ 0 → a = p.hdr.src) ∧
    (p.hdr.src = 0 → a = (env.dev d).addr) ∧ (l = false → i = p.hdr.id) ∧ (l = true → i = env.ipId id % 65536)

theorem findRoute_left {env p nh n d q id l} (h : findRoute env p nh = some (n, d, q)) : Left env id p l d (outPkt env id l q) := by
  obtain ⟨h1, h2, h3, a, h4, h5, h6⟩ := findRoute_pkt h
  unfold outPkt setId
  cases l with
  | true => exact ⟨h1, h2, h3, a, _, by simp [h4], h5, h6, by simp, fun _ => rfl⟩
  | false => exact ⟨h1, h2, h3, a, p.hdr.id, by simp [h4], h5, h6, fun _ => rfl, by simp⟩

theorem outCommon_sent {Q env err id p nh l sa} {s : St}
    (hw : ∀ d q, Left env id p l d q → q.hdr.len ≤ (env.dev d).mtu → Link Q env d (if l then fillSum env q else q))
    (hf : ∀ d q, Left env id p l d q → df q = false → (env.dev d).mtu < q.hdr.len →
      ∀ f k, FragOf q (env.dev d).mtu f k → Link Q env d (fillSum env (fragPkt q f)))
    (he : ∀ d q, Left env id p l d q → df q = true → (env.dev d).mtu < q.hdr.len → ∀ s, Sent Q s (err q (env.dev d).mtu s)) :
    Sent Q s (outCommon env err id p nh l sa s).2 := by
  unfold outCommon
  split
  · exact Sent.refl Q s
  · exact Sent.note s _ rfl
  split
  · exact Sent.refl Q s
  · exact Sent.note s _ rfl
  unfold outRoute
  split
  · exact Sent.refl Q s
  · next n d q h =>
    have hl := findRoute_left (id := id) (l := l) h
    generalize outPkt env id l q = q' at hl
    by_cases hm : q'.hdr.len > (env.dev d).mtu
    · rw [if_pos hm]
      by_cases hd : df q'
      · rw [if_pos hd]; exact he d q' hl hd hm s
      · rw [if_neg hd]
        exact fragmentPkt_sent (hf d q' hl (by simpa using hd) hm)
    · rw [if_neg hm]
      exact outContinue_sent (hw d q' hl (by omega))

theorem forward_sent {Q env out id p} {s : St}
    (hw : 2 ≤ p.hdr.ttl → ∀ d q, Left env id (decTtl p) false d q → q.hdr.len ≤ (env.dev d).mtu → Link Q env d q)
    (hf : 2 ≤ p.hdr.ttl → ∀ d q, Left env id (decTtl p) false d q → df q = false → (env.dev d).mtu < q.hdr.len →
      ∀ f k, FragOf q (env.dev d).mtu f k → Link Q env d (fillSum env (fragPkt q f)))
    (he : 2 ≤ p.hdr.ttl → ∀ d q, Left env id (decTtl p) false d q → df q = true → (env.dev d).mtu < q.hdr.len →
      ∀ s, Sent Q s (icmpError env out q 3 4 0 (env.dev d).mtu s))
    (ht : p.hdr.ttl ≤ 1 → ∀ s, Sent Q s (icmpError env out p 11 0 0 0 s)) :
    Sent Q s (forward env out id p s).2 := by
  unfold forward
  simp only
  split
  · exact Sent.refl Q s
  split
  · exact Sent.refl Q s
  · exact Sent.note s _ rfl
  split
  · exact Sent.refl Q s
  split
  · exact Sent.refl Q s
  by_cases h : p.hdr.ttl ≤ 1
  · rw [if_pos h]; exact ht h s
  · rw [if_neg h]
    refine outCommon_sent ?_ (hf (by omega)) (he (by omega))
    intro d q h1 h2
    exact hw (by omega) d q h1 h2

/-- Everything sent while a packet is processed satisfies `Q`. -/
def AllSent (Q : Nat → Pkt → Prop) (l : List Ev) : Prop := ∀ e ∈ l, ∀ i d q, e.sent = some (i, d, q) → Q d q

theorem packetInput_sent {Q env p} (h : Sent Q ⟨1, []⟩ (ipv4Input env 0 p ⟨1, []⟩).2) : AllSent Q (packetInput env p).2.evs := by
  have key : Sent Q ⟨1, []⟩ (packetInput env p).2 := by
    unfold packetInput
    simp only
    repeat' split
    all_goals first | exact h | exact h.trans (Sent.note _ _ rfl)
  intro e he
  rcases key e he with h1 | h1
  · cases h1
  · exact h1

theorem notOurs_sent {Q env p} (ho : isOurs env p = false)
    (h : Sent Q ⟨1, []⟩ (forward env (ipOutput env depth) 0 p ⟨1, []⟩).2) : AllSent Q (packetInput env p).2.evs := by
  apply packetInput_sent
  unfold ipv4Input
  rw [ho]
  repeat' split
  all_goals first | exact Sent.refl Q _ | exact h | contradiction

/-- `ipOutput` for packets `R`. -/
theorem ipOutput_sent {R Q env n} 
    (hw : ∀ id p, R p → ∀ d q, Left env id p true d q → q.hdr.len ≤ (env.dev d).mtu → Link Q env d (fillSum env q))
    (hf : ∀ id p, R p → ∀ d q, Left env id p true d q → df q = false → (env.dev d).mtu < q.hdr.len →
      ∀ f k, FragOf q (env.dev d).mtu f k → Link Q env d (fillSum env (fragPkt q f)))
    (he : ∀ id p, R p → ∀ d q, Left env id p true d q → df q = true → (env.dev d).mtu < q.hdr.len →
      ∀ s, Sent Q s (icmpError env (ipOutput env n) q 3 4 0 (env.dev d).mtu s)) :
    OutSent R Q (ipOutput env (n + 1)) := by
  intro id p nh s hr
  have key : ∀ sa, Sent Q s (outCommon env (fun p mtu s => icmpError env (ipOutput env n) p 3 4 0 mtu s) id p nh true sa s).2 := by
    intro sa
    refine outCommon_sent ?_ (hf id p hr) (he id p hr)
    intro d q h1 h2
    exact hw id p hr d q h1 h2
  unfold ipOutput
  split
  · exact Sent.refl Q s
  · exact key _

/-- Local delivery: what the ICMP code and the UDP port-unreachable message send. -/
theorem icmpType_sent {Q env out id p t c} {s : St}
    (h8 : t = 8 → ∀ s, Sent Q s (reflect env out id { p with body := p.body.set 0 0 } s).2)
    (h13 : t = 13 → ∀ s, Sent Q s (reflect env out id (tstamp env p) s).2) :
    Sent Q s (icmpType env out id p t c s).2 := by
  have hd : ∀ prc, Sent Q s (icmpDeliver env id p prc s).2 := by
    intro prc
    unfold icmpDeliver
    simp only
    have h1 : Sent Q s (if p.body.length < 9 then s.emit (.outside id) else s) := by
      split
      · exact Sent.note s _ rfl
      · exact Sent.refl Q s
    generalize (if p.body.length < 9 then s.emit (.outside id) else s) = s1 at h1 ⊢
    split
    · exact Sent.refl Q s
    split
    · exact h1
    · split
      · exact (h1.trans (Sent.note _ _ rfl)).trans (Sent.note _ _ rfl)
      · exact h1.trans (Sent.note _ _ rfl)
  unfold icmpType
  split
  · split
    · exact hd _
    · exact Sent.refl Q s
  split
  · split
    · exact Sent.refl Q s
    · exact hd _
  split
  · split
    · exact Sent.refl Q s
    · exact hd _
  split
  · split
    · exact Sent.refl Q s
    · exact hd _
  split
  · next h => exact h8 h s
  split
  · next h =>
    split
    · exact Sent.refl Q s
    · refine Sent.trans ?_ (h13 h _)
      split
      · exact Sent.note s _ rfl
      · exact Sent.refl Q s
  split
  · exact Sent.refl Q s
  · exact Sent.refl Q s

/-- The packet as `udp_input` passes it to `ofp_icmp_error`. -/
def udpBad (p : Pkt) : Pkt := { p with hdr := { p.hdr with len := Cksum.swap16 ((Cksum.swap16 p.hdr.len + p.hlen) % 65536) } }

theorem deliverUp_sent {Q env out id p} {s : St}
    (h8 : p.hdr.proto = 1 → ((p.body ++ env.beyond).headD 0).toNat = 8 → ∀ s, Sent Q s (reflect env out id { p with body := p.body.set 0 0 } s).2)
    (h13 : p.hdr.proto = 1 → ((p.body ++ env.beyond).headD 0).toNat = 13 → ∀ s, Sent Q s (reflect env out id (tstamp env p) s).2)
    (hu : p.hdr.proto = 17 → ∀ s, Sent Q s (icmpError env out (udpBad p) 3 3 0 0 s)) :
    Sent Q s (deliverUp env out id p s).2 := by
  unfold deliverUp
  split
  · exact Sent.refl Q s
  split
  · exact Sent.refl Q s
  · exact Sent.note s _ rfl
  split
  · exact Sent.refl Q s
  · exact Sent.note s _ rfl
  unfold transport
  split
  · next h =>
    unfold icmpInput
    split
    · unfold icmpSwitch
      split
      · exact Sent.refl Q s
      · refine Sent.trans ?_ (icmpType_sent (h8 h) (h13 h))
        split
        · exact Sent.note s _ rfl
        · exact Sent.refl Q s
    · exact Sent.refl Q s
  split
  · next h =>
    split
    · exact Sent.note s _ rfl
    · exact Sent.refl Q s
    · exact Sent.refl Q s
    · unfold udpNoPort
      split
      · exact Sent.refl Q s
      split
      · exact Sent.refl Q s
      · exact hu h s
  split
  · exact Sent.note s _ rfl
  · exact Sent.refl Q s

/-- The packet that is delivered locally: the received one, or the result of reassembly. -/
def Arrives (env : Env) (p p' : Pkt) : Prop := (p.hdr.off % 16384 = 0 ∧ p' = p) ∨ (p.hdr.off % 16384 ≠ 0 ∧ env.reass p = some p')

theorem ours_sent {Q env p} (ho : isOurs env p = true)
    (h : ∀ p', Arrives env p p' → Sent Q ⟨1, []⟩ (deliverUp env (ipOutput env depth) 0 p' ⟨1, []⟩).2) : AllSent Q (packetInput env p).2.evs := by
  apply packetInput_sent
  unfold ipv4Input
  rw [ho]
  split
  · exact Sent.refl Q _
  split
  · exact Sent.refl Q _
  rw [if_pos rfl]
  unfold localIn
  by_cases hh : p.hdr.off % 16384 ≠ 0
  · rw [if_pos hh]
    split
    · exact Sent.note _ _ rfl
    · next p' hp => exact h p' (.inr ⟨hh, hp⟩)
  · rw [if_neg hh]
    exact h p (.inl ⟨by omega, rfl⟩)

end Verif.Fwd

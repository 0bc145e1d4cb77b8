import Verif.Reass.Lemmas
/-!
# C19: reassembly never invents or misplaces data
-/
namespace Verif.Reass

theorem findChain_some {k : Key} {l : List Chain} {c : Chain} (h : findChain k l = some c) :
    c ∈ l ∧ c.key? = some k := by
  unfold findChain at h
  exact ⟨List.mem_of_find?_eq_some h, by simpa using List.find?_some h⟩

/-- Rule for invariants that speak about one chain at a time. -/
theorem reass_chains (Q : Chain → Prop) (s : St) (p : Pkt) (hs : ∀ i, ∀ c ∈ s.ipq i, Q c)
    (hnew : malformed p = false → Q ⟨[p.frag], 1, if p.ttl < 15 then 15 else p.ttl⟩)
    (hmal : ∀ c, Q c → c.key? = some p.key → malformed p = true → Q { c with nfrags := c.nfrags - 1 })
    (hdup : ∀ c, Q c → c.key? = some p.key → insert c p.frag p.ttl p.junk = none → Q (droppedDup c p.ttl))
    (hins : ∀ c c', Q c → c.key? = some p.key → malformed p = false → insert c p.frag p.ttl p.junk = some c' →
      check c' (20 + p.opts.length) = .keep → Q c') :
    ∀ i, ∀ c ∈ (reass s p).1.ipq i, Q c := by
  intro i c hc
  unfold reass at hc
  split at hc
  · exact hs i c hc
  · split at hc
    · exact hs i c hc
    · have repl : ∀ o dn, (∀ x, o = some x → Q x) →
          c ∈ (setBucket s p.key (replace p.key o (s.ipq (hash p.key))) dn).ipq i → Q c := by
        intro o dn ho h
        unfold setBucket at h
        simp only at h
        split at h
        · rcases replace_mem h with h | h
          · exact hs _ c h
          · exact ho c h
        · exact hs _ c h
      simp only at hc
      split at hc
      · split at hc
        · exact hs i c hc
        · next hm =>
          unfold setBucket at hc
          simp only at hc
          split at hc
          · rcases List.mem_cons.1 hc with rfl | hc
            · exact hnew (by simpa using hm)
            · exact hs _ c hc
          · exact hs _ c hc
      · next c0 hf =>
        obtain ⟨hm0, hk0⟩ := findChain_some hf
        have q0 := hs _ _ hm0
        split at hc
        · next hm => exact repl _ _ (fun x hx => by cases hx; exact hmal c0 q0 hk0 hm) hc
        · next hm =>
          split at hc
          · next hi => exact repl _ _ (fun x hx => by cases hx; exact hdup c0 q0 hk0 hi) hc
          · next c' hi =>
            split at hc
            · next hk => exact repl _ _ (fun x hx => by cases hx; exact hins c0 c' q0 hk0 (by simpa using hm) hi hk) hc
            · exact repl _ _ (fun x hx => by cases hx) hc
            · exact repl _ _ (fun x hx => by cases hx) hc

/-- When a packet is delivered it comes from a chain that was extended by the arriving fragment. -/
theorem reass_out {s : St} {p : Pkt} {d : Dgram} (h : (reass s p).2 = .pkt d) :
    ∃ c ∈ s.ipq (hash p.key), ∃ c', c.key? = some p.key ∧ insert c p.frag p.ttl p.junk = some c' ∧
      check c' (20 + p.opts.length) = .done d := by
  unfold reass at h
  split at h
  · cases h
  · split at h
    · cases h
    · simp only at h
      split at h
      · split at h <;> cases h
      · next c0 hf =>
        obtain ⟨hm0, hk0⟩ := findChain_some hf
        split at h
        · cases h
        · split at h
          · cases h
          · next c' hi =>
            split at h
            · cases h
            · cases h
            · next d' hk => cases h; exact ⟨c0, hm0, c', hk0, hi, hk⟩

theorem fragOK_mono {D : Key → List UInt8} {h h' : List Pkt} {f : Frag} (hsub : ∀ q ∈ h, q ∈ h') (hf : FragOK D h f) :
    FragOK D h' f :=
  ⟨hf.1, fun h0 => by obtain ⟨q, hq, r⟩ := hf.2 h0; exact ⟨q, hsub q hq, r⟩⟩

theorem chainOK_mono {D : Key → List UInt8} {h h' : List Pkt} {c : Chain} (hsub : ∀ q ∈ h, q ∈ h')
    (hc : ChainOK D h c) : ChainOK D h' c := by
  obtain ⟨h1, k, h2⟩ := hc
  exact ⟨h1, k, fun f hf => ⟨(h2 f hf).1, fragOK_mono hsub (h2 f hf).2⟩⟩

/-- Chains whose fragments all have the key of the first one. -/
theorem key_of_chain {P : Frag → Prop} {c : Chain} {k k' : Key} (hk : c.key? = some k')
    (h : ∀ f ∈ c.frags, f.key = k ∧ P f) : k = k' := by
  unfold Chain.key? at hk
  cases hfr : c.frags with
  | nil => rw [hfr] at hk; simp at hk
  | cons a l =>
    rw [hfr] at hk
    simp only [List.head?_cons, Option.map_some, Option.some.injEq] at hk
    rw [← hk]
    exact ((h a (by rw [hfr]; simp)).1).symm

theorem pktFrag_ok {D : Key → List UInt8} {hist : List Pkt} {p : Pkt} (hp : IsFragOf (D p.key) p) :
    FragOK D (p :: hist) p.frag :=
  ⟨hp, fun h0 => ⟨p, List.mem_cons_self .., rfl, by
    have : p.off * 8 = 0 := h0
    omega, rfl, rfl⟩⟩

theorem insert_chainOK {D : Key → List UInt8} (hD : ∀ k, (D k).length ≤ 65535) {hist : List Pkt} {p : Pkt}
    (hp : IsFragOf (D p.key) p) {c c' : Chain} (hc : ChainOK D hist c) (hk : c.key? = some p.key)
    (hi : insert c p.frag p.ttl p.junk = some c') :
    c'.frags ≠ [] ∧ ∀ f ∈ c'.frags, f.key = p.key ∧ FragOK D (p :: hist) f := by
  obtain ⟨_, k, h2⟩ := chainOK_mono (h' := p :: hist) (fun q hq => List.mem_cons_of_mem _ hq) hc
  have hkk := key_of_chain hk h2
  subst hkk
  exact insert_all (fun f => f.key = p.key ∧ FragOK D (p :: hist) f)
    (fun f n hf h0 hn => ⟨hf.1, trim_ok hD hf.2 h0 hn⟩) h2 ⟨rfl, pktFrag_ok hp⟩ hi

theorem step_sound {D : Key → List UInt8} (hD : ∀ k, (D k).length ≤ 65535) {hist : List Pkt} {s : St}
    (hs : ∀ i, ∀ c ∈ s.ipq i, ChainOK D hist c) {p : Pkt} (hp : IsFragOf (D p.key) p) :
    ∀ i, ∀ c ∈ (reass s p).1.ipq i, ChainOK D (p :: hist) c := by
  have hs' : ∀ i, ∀ c ∈ s.ipq i, ChainOK D (p :: hist) c := fun i c hc =>
    chainOK_mono (fun q hq => List.mem_cons_of_mem _ hq) (hs i c hc)
  refine reass_chains (fun c => ChainOK D (p :: hist) c) s p hs' ?_ ?_ ?_ ?_
  · intro _
    refine ⟨by simp, p.key, fun f hf => ?_⟩
    simp only [List.mem_singleton] at hf
    subst hf
    exact ⟨rfl, pktFrag_ok hp⟩
  · intro c hc _ _; exact hc
  · intro c hc _ _; exact hc
  · intro c c' hc hk _ hi _
    obtain ⟨_, k, h2⟩ := hc
    have hkk := key_of_chain hk h2
    subst hkk
    have := insert_all (fun f => f.key = p.key ∧ FragOK D (p :: hist) f)
      (fun f n hf h0 hn => ⟨hf.1, trim_ok hD hf.2 h0 hn⟩) h2 ⟨rfl, pktFrag_ok hp⟩ hi
    exact ⟨this.1, p.key, this.2⟩

theorem out_sound {D : Key → List UInt8} (hD : ∀ k, (D k).length ≤ 65535) {hist : List Pkt} {s : St}
    (hs : ∀ i, ∀ c ∈ s.ipq i, ChainOK D hist c) {p : Pkt} (hp : IsFragOf (D p.key) p) {d : Dgram}
    (hd : (reass s p).2 = .pkt d) :
    d.data = D d.key ∧ d.key = p.key ∧ d.len = (20 + d.opts.length + (D d.key).length) % 65536 ∧
    ∃ q ∈ p :: hist, q.key = d.key ∧ q.off = 0 ∧ q.opts = d.opts ∧ q.ttl = d.ttl := by
  obtain ⟨c, hc, c', hk, hi, hdone⟩ := reass_out hd
  obtain ⟨_, h2⟩ := insert_chainOK hD hp (hs _ c hc) hk hi
  obtain ⟨f, l, n, hfr, hcg, hmf, _, rfl⟩ := check_done hdone
  have hf := h2 f (by rw [hfr]; simp)
  have hpay := contig_payload (D p.key) c'.frags 0 n (by omega)
    (fun g hg => by have := h2 g hg; rw [← this.1]; exact this.2.1) hcg
  obtain ⟨_, _, h3, h4⟩ := hpay
  have hn := h4 (by rw [hfr]; simp) hmf
  have hpl : payload c'.frags = D p.key := by rw [h3, hn]; simp
  have hoff : f.off = 0 := by
    rw [hfr] at hcg
    unfold contig at hcg
    split at hcg
    · cases hcg
    · next h => simpa using h
  refine ⟨?_, hf.1, ?_, hf.2.2 hoff⟩
  · show payload c'.frags = D f.key
    rw [hf.1, hpl]
  · show (20 + f.opts.length + n) % 65536 = _
    rw [hn]
    show _ = (20 + f.opts.length + (D f.key).length) % 65536
    rw [hf.1]

theorem tick_sound {Q : Chain → Prop} (hQ : ∀ c c', ageChain c = some c' → Q c → Q c') {s : St}
    (hs : ∀ i, ∀ c ∈ s.ipq i, Q c) : ∀ i, ∀ c ∈ (tick s).ipq i, Q c := by
  intro i c hc
  obtain ⟨c0, h0, h1⟩ := List.mem_filterMap.1 hc
  exact hQ c0 c h1 (hs i c0 h0)

/-- **C19, payload.** Any history of fragments and timer ticks in which every fragment received for datagram `k` is a
slice of one payload `D k` (arrivals in any order, repeated, overlapping, interleaved): every datagram that is
delivered carries exactly the payload `D` of its key, with a header (options, TTL) of a received first fragment and
the length of that header and payload. -/
theorem reassembly_sound (D : Key → List UInt8) (hD : ∀ k, (D k).length ≤ 65535) (ops : List Op)
    (hops : ∀ p ∈ pkts ops, IsFragOf (D p.key) p ∧ 20 + p.opts.length + (D p.key).length ≤ 65535) :
    ∀ d ∈ delivered (run init ops).2, d.data = D d.key ∧ d.len = 20 + d.opts.length + (D d.key).length ∧
      ∃ q ∈ pkts ops, q.key = d.key ∧ q.off = 0 ∧ q.opts = d.opts ∧ q.ttl = d.ttl := by
  have main : ∀ (ops : List Op) (hist : List Pkt) (s : St), (∀ i, ∀ c ∈ s.ipq i, ChainOK D hist c) →
      (∀ p ∈ pkts ops, IsFragOf (D p.key) p) →
      ∀ d ∈ delivered (run s ops).2, d.data = D d.key ∧
        d.len = (20 + d.opts.length + (D d.key).length) % 65536 ∧
        ∃ q, (q ∈ pkts ops ∨ q ∈ hist) ∧ q.key = d.key ∧ q.off = 0 ∧ q.opts = d.opts ∧ q.ttl = d.ttl := by
    intro ops
    induction ops with
    | nil => intro hist s _ _ d hd; simp [run, delivered] at hd
    | cons o ops ih =>
      intro hist s hs hp d hd
      cases o with
      | tick =>
        exact ih hist (tick s) (tick_sound (fun c c' h hc => by
          obtain ⟨e, _⟩ := ageChain_frags h
          unfold ChainOK; rw [e]; exact hc) hs) hp d hd
      | recv p =>
        have hpp := hp p (List.mem_cons_self ..)
        have hrest := ih (p :: hist) (reass s p).1 (step_sound hD hs hpp)
          (fun q hq => hp q (List.mem_cons_of_mem _ hq)) d
        show d.data = D d.key ∧ d.len = (20 + d.opts.length + (D d.key).length) % 65536 ∧
          ∃ q, (q ∈ p :: pkts ops ∨ q ∈ hist) ∧ q.key = d.key ∧ q.off = 0 ∧ q.opts = d.opts ∧ q.ttl = d.ttl
        have fin : d ∈ delivered (run (reass s p).1 ops).2 →
            d.data = D d.key ∧ d.len = (20 + d.opts.length + (D d.key).length) % 65536 ∧
            ∃ q, (q ∈ p :: pkts ops ∨ q ∈ hist) ∧ q.key = d.key ∧ q.off = 0 ∧ q.opts = d.opts ∧ q.ttl = d.ttl := fun h => by
          obtain ⟨a, b, q, hq, r⟩ := hrest h
          refine ⟨a, b, q, ?_, r⟩
          rcases hq with h | h
          · exact Or.inl (List.mem_cons_of_mem _ h)
          · rcases List.mem_cons.1 h with rfl | h
            · exact Or.inl (List.mem_cons_self ..)
            · exact Or.inr h
        have hd' : d ∈ delivered ((reass s p).2 :: (run (reass s p).1 ops).2) := hd
        cases ho : (reass s p).2 with
        | nothing => rw [ho] at hd'; exact fin hd'
        | unlockUnheld => rw [ho] at hd'; exact fin hd'
        | pkt d' =>
          rw [ho] at hd'
          rcases List.mem_cons.1 hd' with rfl | h
          · obtain ⟨a, _, b, q, hq, r⟩ := out_sound hD hs hpp ho
            refine ⟨a, b, q, ?_, r⟩
            rcases List.mem_cons.1 hq with rfl | h
            · exact Or.inl (List.mem_cons_self ..)
            · exact Or.inr h
          · exact fin h
  intro d hd
  obtain ⟨a, b, q, hq, r⟩ := main ops [] init (by intro i c hc; simp [init] at hc) (fun p hp => (hops p hp).1) d hd
  have hq : q ∈ pkts ops := by simpa using hq
  have hfit := (hops q hq).2
  refine ⟨a, ?_, q, hq, r⟩
  rw [b]
  obtain ⟨r1, _, r3, _⟩ := r
  rw [r1, r3] at hfit
  exact Nat.mod_eq_of_lt (by omega)

/-- A concrete history that meets the hypotheses and delivers: three overlapping pieces of a 20-byte payload, the
last one first. -/
def demoD : List UInt8 := [0, 1, 2, 3, 4, 5, 6, 7, 8, 9, 10, 11, 12, 13, 14, 15, 16, 17, 18, 19]
def demoKey : Key := ⟨7, 0x0a000001, 0x0a000002, 17⟩
def demoOps : List Op :=
  [.recv { key := demoKey, off := 2, mf := false, data := [16, 17, 18, 19] },
   .tick,
   .recv { key := { demoKey with proto := 6 }, off := 0, mf := true, data := [9, 9, 9, 9, 9, 9, 9, 9] },
   .recv { key := demoKey, off := 0, mf := true, data := [0, 1, 2, 3, 4, 5, 6, 7], opts := [1, 1, 1, 0] },
   .recv { key := demoKey, off := 0, mf := true, data := [0, 1, 2, 3, 4, 5, 6, 7] },
   .recv { key := demoKey, off := 1, mf := false, data := [8, 9, 10, 11, 12, 13, 14, 15, 16, 17, 18, 19] }]

def demoDs (k : Key) : List UInt8 := if k = demoKey then demoD else List.replicate 16 9
instance (D : List UInt8) (o : Nat) (d : List UInt8) (m : Bool) : Decidable (Slice D o d m) := by
  unfold Slice; infer_instance
instance (D : List UInt8) (p : Pkt) : Decidable (IsFragOf D p) := by unfold IsFragOf; infer_instance
example : (∀ p ∈ pkts demoOps, IsFragOf (demoDs p.key) p ∧ 20 + p.opts.length + (demoDs p.key).length ≤ 65535) := by
  decide +kernel

example : ((run init demoOps).2).map (fun o => match o with | .pkt d => some (d.len, d.data) | _ => none) =
    [none, none, none, none, none, some (40, demoD)] := by decide +kernel

end Verif.Reass

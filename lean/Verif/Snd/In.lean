import Verif.Snd.Out
/-!
# Input, timers and user requests preserve the invariant
-/
namespace Verif.Snd
open Verif.Tcp

/-- What an operation guarantees: same stream, invariant again, `snd_una` and `snd_max` have not moved back, good
packets. -/
structure Res (s : Tcb) (fa mo : Nat) (r : Tcb × List Pkt) : Prop where
  iss : r.1.iss = s.iss
  written : r.1.written = s.written
  cant : r.1.cantSend = s.cantSend
  at_ : ∃ fa' no' mo', base s fa ≤ base r.1 fa' ∧ base s fa + mo ≤ base r.1 fa' + mo' ∧ At r.1 fa' no' mo'
  pkt : ∀ q ∈ r.2, PktOk s q

section
variable {s : Tcb} {fa no mo : Nat}

theorem Res.ofGoodL {s t : Tcb} {l : List Pkt} (g : GoodL s t fa mo l) : Res s fa mo (t, l) := by
  obtain ⟨no', mo', hm, a⟩ := g.at_
  exact ⟨g.frame.iss, g.frame.written, g.frame.cantSend, ⟨fa, no', mo', by rw [g.frame.base fa]; exact Nat.le_refl _,
    by rw [g.frame.base fa]; omega, a⟩, g.pkt⟩

theorem Res.chain {r r2 : Tcb × List Pkt} (h : Res s fa mo r)
    (h2 : ∀ fa' no' mo', At r.1 fa' no' mo' → Res r.1 fa' mo' r2) : Res s fa mo (r2.1, r.2 ++ r2.2) := by
  obtain ⟨fa', no', mo', b1, b2, a⟩ := h.at_
  have k := h2 fa' no' mo' a
  obtain ⟨f3, n3, m3, b3, b4, a3⟩ := k.at_
  refine ⟨by rw [k.iss, h.iss], by rw [k.written, h.written], by rw [k.cant, h.cant],
    ⟨f3, n3, m3, Nat.le_trans b1 b3, Nat.le_trans b2 b4, a3⟩, ?_⟩
  intro q hq
  simp only [List.mem_append] at hq
  rcases hq with hq | hq
  · exact h.pkt q hq
  · have := k.pkt q hq
    unfold PktOk at this ⊢
    rw [h.iss, h.written, h.cant] at this
    exact this

/-- No packets, the invariant with unmoved or advanced `snd_una`. -/
theorem Res.quiet {t : Tcb} {fa' no' mo' : Nat} (a : At t fa' no' mo') (h1 : t.iss = s.iss)
    (h2 : t.written = s.written) (h3 : t.cantSend = s.cantSend) (h4 : base s fa ≤ base t fa')
    (h5 : base s fa + mo ≤ base t fa' + mo') : Res s fa mo (t, []) :=
  ⟨h1, h2, h3, ⟨fa', no', mo', h4, h5, a⟩, by simp⟩

theorem Res.refl (h : At s fa no mo) : Res s fa mo (s, []) :=
  Res.quiet h rfl rfl rfl (Nat.le_refl _) (Nat.le_refl _)

/-- Start from a state that differs in fields the guarantee does not mention. -/
theorem Res.pre {t : Tcb} {r : Tcb × List Pkt} (h : Res t fa mo r) (h1 : t.iss = s.iss)
    (h2 : t.written = s.written) (h3 : t.cantSend = s.cantSend) (h4 : t.buf = s.buf) : Res s fa mo r := by
  obtain ⟨fa', no', mo', b1, b2, a⟩ := h.at_
  have hb : base t fa = base s fa := by unfold base; rw [h2, h4]
  refine ⟨by rw [h.iss, h1], by rw [h.written, h2], by rw [h.cant, h3], ⟨fa', no', mo', by omega, by omega, a⟩, ?_⟩
  intro q hq
  have := h.pkt q hq
  unfold PktOk at this ⊢
  rw [h1, h2, h3] at this
  exact this

/-- End in such a state. -/
theorem Res.post {t : Tcb} {r : Tcb × List Pkt} (h : Res s fa mo r) (h1 : t.st = r.1.st) (h2 : t.iss = r.1.iss)
    (h3 : t.una = r.1.una) (h4 : t.nxt = r.1.nxt) (h5 : t.max = r.1.max) (h6 : t.buf = r.1.buf)
    (h7 : t.needSyn = r.1.needSyn) (h8 : t.needFin = r.1.needFin) (h9 : t.sentFin = r.1.sentFin)
    (h10 : t.cantSend = r.1.cantSend) (h11 : t.dead = r.1.dead) (h12 : t.written = r.1.written) :
    Res s fa mo (t, r.2) := by
  obtain ⟨fa', no', mo', b1, b2, a⟩ := h.at_
  have hb : base t fa' = base r.1 fa' := by unfold base; rw [h6, h12]
  exact ⟨by rw [← h.iss]; exact h2, by rw [← h.written]; exact h12, by rw [← h.cant]; exact h10,
    ⟨fa', no', mo', by rw [hb]; exact b1, by rw [hb]; exact b2,
      a.congr h1 h2 h3 h4 h5 h6 h7 h8 h9 h10 h11 h12⟩, h.pkt⟩

theorem output_res (h : At s fa no mo) (es : List Env) (he : ∀ e ∈ es, e.Ok)
    (hd : s.dead = false) (hc : Clean (output s es).1) : Res s fa mo (output s es) :=
  Res.ofGoodL (output_good h es he hd hc)

/-- Close: the connection is gone. -/
theorem At.kill {t : Tcb} (h : At s fa no mo) (hd : t.dead = true) (hs : t.st = s.st ∨ t.st = .closed)
    (h2 : t.iss = s.iss) (h3 : t.una = s.una) (h4 : t.nxt = s.nxt) (h5 : t.max = s.max) (h6 : t.buf = s.buf)
    (h7 : t.needSyn = s.needSyn) (h8 : t.needFin = s.needFin) (h9 : t.sentFin = s.sentFin)
    (h10 : t.cantSend = s.cantSend) (h12 : t.written = s.written) : At t fa no mo := by
  have hb : base t fa = base s fa := by unfold base; rw [h6, h12]
  refine ⟨by rw [h6, h12]; exact h.le, by rw [h6, h12]; exact h.suf, by rw [h3, h2, hb]; exact h.una,
    by rw [h4, h2, hb]; exact h.nxt, by rw [h5, h2, hb]; exact h.max, h.nm, by rw [h6, h9]; exact h.mb, h.fa1,
    by rw [h6, h9]; exact h.fab, by rw [h6]; exact h.size, by rw [h7]; exact h.ns, by rw [h8]; exact h.nf, ?_,
    by rw [h9, h10]; exact h.fc, ?_, by rw [h9, h6]; exact h.fm, ?_, ?_, ?_⟩
  · rcases hs with c | c
    · rw [c]; exact h.stl
    · rw [c]; decide
  · rw [h10]; rcases hs with c | c
    · rw [c]; exact h.oc
    · rw [c]; intro d; exact absurd d (by decide)
  · rcases hs with c | c
    · rw [c]; exact h.f2
    · rw [c]; intro d; exact absurd d (by decide)
  · rw [h9]; rcases hs with c | c
    · rw [c]; exact h.es
    · rw [c]; intro d; exact absurd d (by decide)
  · intro _ d; rw [hd] at d; exact absurd d (by simp)

/-- Change of state. -/
theorem At.setSt {t : Tcb} (h : At s fa no mo) (x : St) (h1 : t.st = x) (h2 : t.iss = s.iss) (h3 : t.una = s.una)
    (h4 : t.nxt = s.nxt) (h5 : t.max = s.max) (h6 : t.buf = s.buf) (h7 : t.needSyn = s.needSyn)
    (h8 : t.needFin = s.needFin) (h9 : t.sentFin = s.sentFin) (h10 : s.cantSend = true → t.cantSend = true)
    (h12 : t.written = s.written)
    (x1 : x ≠ .listen ∧ x ≠ .synSent ∧ x ≠ .synRcvd) (x2 : outFin x = true → t.cantSend = true)
    (x3 : (x = .finWait2 ∨ x = .timeWait) → fa = 1) (x4 : (x = .established ∨ x = .closeWait) → s.sentFin = false)
    (x5 : outFin x = true → t.dead = false → fa = 0) : At t fa no mo := by
  have hb : base t fa = base s fa := by unfold base; rw [h6, h12]
  exact ⟨by rw [h6, h12]; exact h.le, by rw [h6, h12]; exact h.suf, by rw [h3, h2, hb]; exact h.una,
    by rw [h4, h2, hb]; exact h.nxt, by rw [h5, h2, hb]; exact h.max, h.nm, by rw [h6, h9]; exact h.mb, h.fa1,
    by rw [h6, h9]; exact h.fab, by rw [h6]; exact h.size, by rw [h7]; exact h.ns, by rw [h8]; exact h.nf,
    by rw [h1]; exact x1, by rw [h9]; exact fun d => h10 (h.fc d), by rw [h1]; exact x2, by rw [h9, h6]; exact h.fm,
    by rw [h1]; exact x3, by rw [h1, h9]; exact x4, by rw [h1]; exact x5⟩

theorem At.toClosed (h : At s fa no mo) : At { s with st := .closed } fa no mo :=
  h.setSt .closed rfl rfl rfl rfl rfl rfl rfl rfl rfl (fun d => d) rfl (by decide) (fun d => absurd d (by decide))
    (fun d => absurd d (by decide)) (fun d => absurd d (by decide)) (fun d => absurd d (by decide))

theorem tcpDrop_clean (s : Tcb) (es : List Env) (h : Clean (tcpDrop s es).1) : Clean s := by
  unfold tcpDrop at h
  split at h
  · exact output_clean { s with st := .closed } es h
  · exact h

theorem tcpDrop_res (h : At s fa no mo) (es : List Env) (he : ∀ e ∈ es, e.Ok) (hd : s.dead = false)
    (hc : Clean (tcpDrop s es).1) : Res s fa mo (tcpDrop s es) := by
  unfold tcpDrop at hc ⊢
  by_cases c : s.st.num ≥ 3
  · rw [if_pos c] at hc ⊢
    have g : Res { s with st := .closed } fa mo (output { s with st := .closed } es) :=
      output_res h.toClosed es he hd hc
    obtain ⟨fa', no', mo', b1, b2, a⟩ := g.at_
    exact ⟨g.iss, g.written, g.cant, ⟨fa', no', mo', b1, b2,
      a.kill rfl (.inl rfl) rfl rfl rfl rfl rfl rfl rfl rfl rfl rfl⟩, g.pkt⟩
  · rw [if_neg c]
    exact Res.quiet (h.kill rfl (.inl rfl) rfl rfl rfl rfl rfl rfl rfl rfl rfl rfl) rfl rfl rfl (Nat.le_refl _) (Nat.le_refl _)

theorem dropAfterAck_clean (s : Tcb) (g : Seg) (r : REnv) (h : Clean (dropAfterAck s g r).1) : Clean s := by
  unfold dropAfterAck at h
  split at h
  · exact h
  · exact output_clean { s with acknow := true } _ h

theorem dropAfterAck_res (h : At s fa no mo) (g : Seg) (r : REnv) (he : ∀ e ∈ r.es2, e.Ok) (hd : s.dead = false)
    (hc : Clean (dropAfterAck s g r).1) : Res s fa mo (dropAfterAck s g r) := by
  unfold dropAfterAck at hc ⊢
  split at hc
  · rename_i c; rw [if_pos c]; exact Res.refl h
  · rename_i c; rw [if_neg c]
    have a : At { s with acknow := true } fa no mo := h.congr rfl rfl rfl rfl rfl rfl rfl rfl rfl rfl rfl rfl
    exact Res.pre (s := s) (output_res a r.es2 he hd hc) rfl rfl rfl rfl

/-- The acknowledgement moves `snd_una` by `k`: the send buffer loses `min k cc` bytes. -/
theorem ack_at {t : Tcb} (h : At s fa no mo) (k : Nat) (hk0 : 0 < k) (hk : k ≤ mo)
    (hbuf : t.buf = s.buf.drop k)
    (huna : t.una = seqOf s.iss (base s fa + k))
    (hnxt : t.nxt = seqOf s.iss (base s fa + max no k))
    (hmax : t.max = s.max) (h2 : t.iss = s.iss) (h7 : t.needSyn = s.needSyn) (h8 : t.needFin = s.needFin)
    (h9 : t.sentFin = s.sentFin) (h10 : t.cantSend = s.cantSend) (h12 : t.written = s.written)
    (hst : (t.st = s.st ∧ t.dead = s.dead ∧ (k ≤ s.buf.length ∨ outFin s.st = false)) ∨
      (s.buf.length < k ∧ (t.st = .finWait2 ∨ t.st = .timeWait ∨ (outFin t.st = true ∧ t.dead = true ∧ t.cantSend = true))) ) :
    At t (if s.buf.length < k then 1 else 0) (max no k - k) (mo - k) ∧
      base t (if s.buf.length < k then 1 else 0) = base s fa + k := by
  have hnm := h.nm
  have hmb := h.mb
  have hle := h.le
  have hsz := h.size
  have hfa : fa = 0 := by
    have := h.fa1
    rcases Nat.lt_or_ge fa 1 with q | q
    · omega
    · have hfe : fa = 1 := by omega
      have hb := (h.fab hfe).1
      rw [hb] at hmb
      simp only [List.length_nil] at hmb
      split at hmb <;> omega
  subst hfa
  have hlen : t.buf.length = s.buf.length - k := by rw [hbuf, List.length_drop]
  have hsent : s.buf.length < k → s.sentFin = true ∧ k = s.buf.length + 1 := by
    intro c
    split at hmb
    · rename_i d; exact ⟨d, by omega⟩
    · omega
  have hbase : base t (if s.buf.length < k then 1 else 0) = base s 0 + k := by
    unfold base
    rw [h12, hlen]
    by_cases c : s.buf.length < k
    · have := (hsent c).2
      rw [if_pos c]; omega
    · rw [if_neg c]; omega
  refine ⟨⟨?_, ?_, ?_, ?_, ?_, ?_, ?_, ?_, ?_, ?_, ?_, ?_, ?_, ?_, ?_, ?_, ?_, ?_, ?_⟩, hbase⟩
  · rw [hlen, h12]; omega
  · rw [hlen, h12, hbuf]
    by_cases c : s.buf.length < k
    · rw [List.drop_eq_nil_of_le (by omega), List.drop_eq_nil_of_le (by omega)]
    · rw [show s.written.length - (s.buf.length - k) = (s.written.length - s.buf.length) + k by omega,
        ← List.drop_drop, ← h.suf]
  · rw [huna, h2, hbase]
  · rw [hnxt, h2, hbase]; congr 1; omega
  · rw [hmax, h.max, h2, hbase]; congr 1; omega
  · omega
  · rw [hlen, h9]
    by_cases c : s.buf.length < k
    · have := hsent c
      rw [this.1] at hmb
      simp only [if_true] at hmb
      rw [if_pos c, this.1]; simp only [if_true]; omega
    · rw [if_neg c]
      split <;> split at hmb <;> first | omega | (exfalso; simp_all)
  · split <;> omega
  · intro c
    split at c
    · rename_i d
      exact ⟨by rw [hbuf]; exact List.drop_eq_nil_of_le (by omega), by rw [h9]; exact (hsent d).1⟩
    · omega
  · rw [hlen]; omega
  · rw [h7]; exact h.ns
  · rw [h8]; exact h.nf
  · rcases hst with c | c
    · rw [c.1]; exact h.stl
    · rcases c.2 with d | d | d
      · rw [d]; decide
      · rw [d]; decide
      · refine ⟨?_, ?_, ?_⟩ <;> (intro z; rw [z] at d; exact absurd d.1 (by decide))
  · rw [h9, h10]; exact h.fc
  · rcases hst with c | c
    · rw [c.1, h10]; exact h.oc
    · rcases c.2 with d | d | d
      · rw [d]; intro z; exact absurd z (by decide)
      · rw [d]; intro z; exact absurd z (by decide)
      · intro _; exact d.2.2
  · intro c d
    rw [h9] at c
    have := h.fm c rfl
    rw [hlen]
    split at d <;> omega
  · intro c
    rcases hst with d | d
    · rw [d.1] at c
      have := h.f2 c
      omega
    · rw [if_pos d.1]
  · rcases hst with d | d
    · rw [d.1, h9]; exact h.es
    · rw [h9]
      intro c
      rcases d.2 with e | e | e
      · rw [e] at c; exact absurd c (by decide)
      · rw [e] at c; exact absurd c (by decide)
      · rcases c with c | c <;> (rw [c] at e; exact absurd e.1 (by decide))
  · intro c d
    rcases hst with e | e
    · rw [e.1] at c
      rcases e.2.2 with z | z
      · rw [if_neg (by omega)]
      · rw [z] at c; exact absurd c (by simp)
    · rcases e.2 with z | z | z
      · rw [z] at c; exact absurd c (by decide)
      · rw [z] at c; exact absurd c (by decide)
      · rw [z.2.1] at d; exact absurd d (by simp)

end

end Verif.Snd

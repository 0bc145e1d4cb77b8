import Verif.Snd.In3
/-!
# Every event preserves the invariant; histories
-/
namespace Verif.Snd
open Verif.Tcp

/-- Bytes the socket layer takes from an event: none once the write side is shut down or the connection is gone. -/
def taken (s : Tcb) (ev : Ev) : List UInt8 := if s.dead || s.hung || s.cantSend then [] else ev.bytes

/-- What an event guarantees. -/
structure StepRes (s : Tcb) (fa mo : Nat) (ev : Ev) (r : Tcb × List Pkt) : Prop where
  iss : r.1.iss = s.iss
  written : r.1.written = s.written ++ taken s ev
  cant : r.1.cantSend = true → s.cantSend = true ∨ ∃ es, ev = .close es
  cant' : s.cantSend = true → r.1.cantSend = true
  at_ : ∃ fa' no' mo', base s fa ≤ base r.1 fa' ∧ base s fa + mo ≤ base r.1 fa' + mo' ∧ At r.1 fa' no' mo'
  pkt : ∀ q ∈ r.2, PktOk r.1 q

section
variable {s : Tcb} {fa no mo : Nat}

theorem PktOk.of {s t : Tcb} {q : Pkt} (h : PktOk s q) (h1 : t.iss = s.iss) (h2 : t.written = s.written)
    (h3 : t.cantSend = s.cantSend) : PktOk t q := by
  unfold PktOk at h ⊢; rw [h1, h2, h3]; exact h

theorem Res.toStep {ev : Ev} {r : Tcb × List Pkt} (h : Res s fa mo r) (ht : taken s ev = []) : StepRes s fa mo ev r :=
  ⟨h.iss, by rw [h.written, ht, List.append_nil], by rw [h.cant]; exact .inl, by rw [h.cant]; exact fun d => d, h.at_,
    fun q hq => (h.pkt q hq).of h.iss h.written h.cant⟩

/-- Appending to the send buffer. -/
theorem write_at {t : Tcb} (h : At s fa no mo) (d : List UInt8) (hn : s.buf.length + d.length ≤ 2 ^ 30)
    (hc : s.cantSend = false) (h6 : t.buf = s.buf ++ d) (h12 : t.written = s.written ++ d) (h1 : t.st = s.st)
    (h2 : t.iss = s.iss) (h3 : t.una = s.una) (h4 : t.nxt = s.nxt) (h5 : t.max = s.max) (h7 : t.needSyn = s.needSyn)
    (h8 : t.needFin = s.needFin) (h9 : t.sentFin = s.sentFin) (h10 : t.cantSend = s.cantSend) (h11 : t.dead = s.dead) :
    At t fa no mo ∧ base t fa = base s fa := by
  have hsf : s.sentFin = false := by
    cases c : s.sentFin with
    | false => rfl
    | true => rw [h.fc c] at hc; exact absurd hc (by simp)
  have hfa : fa = 0 := by
    have := h.fa1
    rcases Nat.lt_or_ge fa 1 with q | q
    · omega
    · have := (h.fab (by omega)).2
      rw [hsf] at this; exact absurd this (by simp)
  have hle := h.le
  have hlb : t.buf.length = s.buf.length + d.length := by rw [h6, List.length_append]
  have hlw : t.written.length = s.written.length + d.length := by rw [h12, List.length_append]
  have hb : base t fa = base s fa := by unfold base; rw [hlb, hlw]; omega
  refine ⟨⟨by omega, ?_, by rw [h3, h2, hb]; exact h.una, by rw [h4, h2, hb]; exact h.nxt,
    by rw [h5, h2, hb]; exact h.max, h.nm, ?_, h.fa1, ?_, by omega, by rw [h7]; exact h.ns, by rw [h8]; exact h.nf,
    by rw [h1]; exact h.stl, by rw [h9, h10]; exact h.fc, by rw [h1, h10]; exact h.oc, ?_, by rw [h1]; exact h.f2,
    by rw [h1, h9]; exact h.es, by rw [h1, h11]; exact h.of⟩, hb⟩
  · rw [hlb, hlw, show s.written.length + d.length - (s.buf.length + d.length) = s.written.length - s.buf.length by omega,
      h6, h12, List.drop_append_of_le_length (by omega), ← h.suf]
  · rw [hlb, h9]; have := h.mb; omega
  · intro c; omega
  · rw [h9, hsf]; intro c; exact absurd c (by simp)

theorem write_step {t : Tcb} (h : At s fa no mo) (d : List UInt8) (hn : s.buf.length + d.length ≤ 2 ^ 30)
    (hc : s.cantSend = false) (h6 : t.buf = s.buf ++ d) (h12 : t.written = s.written ++ d) (h1 : t.st = s.st)
    (h2 : t.iss = s.iss) (h3 : t.una = s.una) (h4 : t.nxt = s.nxt) (h5 : t.max = s.max) (h7 : t.needSyn = s.needSyn)
    (h8 : t.needFin = s.needFin) (h9 : t.sentFin = s.sentFin) (h10 : t.cantSend = s.cantSend) (h11 : t.dead = s.dead)
    (es : List Env) (he : ∀ e ∈ es, e.Ok) (hd : s.dead = false) (hcl : Clean (output t es).1) (ev : Ev)
    (ht : taken s ev = d) : StepRes s fa mo ev (output t es) := by
  obtain ⟨a, hb⟩ := write_at h d hn hc h6 h12 h1 h2 h3 h4 h5 h7 h8 h9 h10 h11
  have o := output_res a es he (by rw [h11]; exact hd) hcl
  obtain ⟨fa', no', mo', b1, b2, a2⟩ := o.at_
  refine ⟨by rw [o.iss, h2], by rw [o.written, h12, ht], by rw [o.cant, h10]; exact .inl,
    by rw [o.cant, h10]; exact fun d => d, ⟨fa', no', mo', by rw [hb] at b1; exact b1, by rw [hb] at b2; exact b2, a2⟩, ?_⟩
  intro q hq
  exact (o.pkt q hq).of o.iss o.written o.cant

theorem usrClosed_at (h : At s fa no mo) : At (usrClosed { s with cantSend := true }) fa no mo := by
  have hfa : s.sentFin = false → fa = 0 := by
    intro c
    have := h.fa1
    rcases Nat.lt_or_ge fa 1 with q | q
    · omega
    · have := (h.fab (by omega)).2
      rw [c] at this; exact absurd this (by simp)
  have gen : At { s with cantSend := true } fa no mo :=
    h.setSt s.st rfl rfl rfl rfl rfl rfl rfl rfl rfl (fun _ => rfl) rfl h.stl (fun _ => rfl) h.f2 h.es h.of
  unfold usrClosed
  split <;> rename_i c <;> try (have c : s.st = _ := c)
  · exact gen.kill rfl (.inl rfl) rfl rfl rfl rfl rfl rfl rfl rfl rfl rfl
  · exact absurd c h.stl.1
  · exact absurd c h.stl.2.1
  · exact absurd c h.stl.2.2
  · exact h.setSt .finWait1 rfl rfl rfl rfl rfl rfl rfl rfl rfl (fun _ => rfl) rfl (by decide) (fun _ => rfl)
      (fun d => absurd d (by decide)) (fun d => absurd d (by decide)) (fun _ _ => hfa (h.es (.inl c)))
  · exact h.setSt .lastAck rfl rfl rfl rfl rfl rfl rfl rfl rfl (fun _ => rfl) rfl (by decide) (fun _ => rfl)
      (fun d => absurd d (by decide)) (fun d => absurd d (by decide)) (fun _ _ => hfa (h.es (.inr c)))
  · exact gen

theorem usrClosed_same (s : Tcb) : (usrClosed s).iss = s.iss ∧ (usrClosed s).written = s.written ∧
    (usrClosed s).cantSend = s.cantSend ∧ (usrClosed s).buf = s.buf ∧ (Clean (usrClosed s) → Clean s) := by
  unfold usrClosed
  split <;> exact ⟨rfl, rfl, rfl, rfl, fun h => h⟩

theorem unforce_step {r : Tcb × List Pkt} {ev : Ev} (h : StepRes s fa mo ev r) : StepRes s fa mo ev (unforce r) := by
  obtain ⟨fa', no', mo', b1, b2, a⟩ := h.at_
  exact ⟨h.iss, h.written, h.cant, h.cant', ⟨fa', no', mo', b1, b2,
    a.congr rfl rfl rfl rfl rfl rfl rfl rfl rfl rfl rfl rfl⟩, fun q hq => (h.pkt q hq).of rfl rfl rfl⟩

theorem nxtUna_at {t : Tcb} (h : At s fa no mo) (h4 : t.nxt = s.una) (h1 : t.st = s.st) (h2 : t.iss = s.iss)
    (h3 : t.una = s.una) (h5 : t.max = s.max) (h6 : t.buf = s.buf)
    (h7 : t.needSyn = s.needSyn) (h8 : t.needFin = s.needFin) (h9 : t.sentFin = s.sentFin)
    (h10 : t.cantSend = s.cantSend) (h11 : t.dead = s.dead) (h12 : t.written = s.written) : At t fa 0 mo :=
  h.setNxt (by omega) (by rw [h4, h.una]; rfl) h1 h2 h3 h5 h6 h7 h8 h9 h10 h11 h12

/-- Every event. -/
theorem step_res (h : At s fa no mo) (ev : Ev) (he : ∀ e ∈ ev.envs, e.Ok) (hn : s.buf.length + ev.bytes.length ≤ BufMax)
    (hc : Clean (step s ev).1) : StepRes s fa mo ev (step s ev) := by
  unfold BufMax at hn
  unfold step at hc ⊢
  by_cases c0 : (s.dead || s.hung) = true
  · rw [if_pos c0] at hc ⊢
    exact (Res.refl h).toStep (by unfold taken; rw [if_pos (by simp [c0])])
  rw [if_neg c0] at hc ⊢
  have hd : s.dead = false := by
    cases c : s.dead with
    | false => rfl
    | true => simp [c] at c0
  have nb : ev.bytes = [] → taken s ev = [] := by
    intro b; unfold taken; rw [b]; split <;> rfl
  cases ev with
  | write d es =>
    simp only at hc ⊢
    by_cases c1 : s.cantSend = true
    · rw [if_pos c1] at hc ⊢
      exact (Res.refl h).toStep (by unfold taken; rw [if_pos (by simp [c1])])
    · rw [if_neg c1] at hc ⊢
      have c1 : s.cantSend = false := by simpa using c1
      exact write_step (t := { s with buf := s.buf ++ d, written := s.written ++ d }) h d hn c1 rfl rfl rfl rfl rfl rfl
        rfl rfl rfl rfl rfl rfl es he hd hc _ (by unfold taken; rw [if_neg (by rw [c1]; simpa using c0)]; rfl)
  | oob d es =>
    simp only at hc ⊢
    by_cases c1 : s.cantSend = true
    · rw [if_pos c1] at hc ⊢
      exact (Res.refl h).toStep (by unfold taken; rw [if_pos (by simp [c1])])
    · rw [if_neg c1] at hc ⊢
      have c1 : s.cantSend = false := by simpa using c1
      refine unforce_step ?_
      exact write_step (t := { s with buf := s.buf ++ d, written := s.written ++ d, force := true }) h d hn c1 rfl rfl
        rfl rfl rfl rfl rfl rfl rfl rfl rfl rfl es he hd hc _
        (by unfold taken; rw [if_neg (by rw [c1]; simpa using c0)]; rfl)
  | close es =>
    simp only at hc ⊢
    have a := usrClosed_at h
    have u := usrClosed_same { s with cantSend := true }
    have key : ∀ r : Tcb × List Pkt, Res (usrClosed { s with cantSend := true }) fa mo r → StepRes s fa mo (.close es) r := by
      intro r o
      obtain ⟨fa', no', mo', b1, b2, a2⟩ := o.at_
      have hb : base (usrClosed { s with cantSend := true }) fa = base s fa := by
        unfold base; rw [u.2.1, u.2.2.2.1]
      refine ⟨by rw [o.iss, u.1], by rw [o.written, u.2.1, nb rfl, List.append_nil], fun _ => .inr ⟨es, rfl⟩,
        fun _ => by rw [o.cant, u.2.2.1], ⟨fa', no', mo', by rw [hb] at b1; exact b1, by rw [hb] at b2; exact b2, a2⟩, ?_⟩
      intro q hq
      exact (o.pkt q hq).of o.iss o.written o.cant
    by_cases c1 : (usrClosed { s with cantSend := true }).dead = true
    · rw [if_pos c1]
      exact key _ (Res.refl a)
    · rw [if_neg c1] at hc ⊢
      exact key _ (output_res a es he (by simpa using c1) hc)
  | seg g r =>
    exact (doSegment_res h g r (fun e x => he e (by simp [Ev.envs, x])) (fun e x => he e (by simp [Ev.envs, x])) hd
      hc).toStep (nb rfl)
  | rexmtTimer es =>
    simp only at hc ⊢
    by_cases c1 : s.rexmt = true
    · rw [if_pos c1] at hc ⊢
      have a : At { s with rexmt := false, nxt := s.una, recover := s.max, acknow := true } fa 0 mo :=
        nxtUna_at h rfl rfl rfl rfl rfl rfl rfl rfl rfl rfl rfl rfl
      exact (Res.pre (s := s) (output_res a es he hd hc) rfl rfl rfl rfl).toStep (nb rfl)
    · rw [if_neg c1]; exact (Res.refl h).toStep (nb rfl)
  | persistTimer es =>
    simp only at hc ⊢
    by_cases c1 : s.persist = true
    · rw [if_pos c1] at hc ⊢
      have a : At { s with force := true } fa no mo := h.congr rfl rfl rfl rfl rfl rfl rfl rfl rfl rfl rfl rfl
      exact unforce_step ((Res.pre (s := s) (output_res a es he hd hc) rfl rfl rfl rfl).toStep (nb rfl))
    · rw [if_neg c1]; exact (Res.refl h).toStep (nb rfl)
  | delackTimer es =>
    simp only at hc ⊢
    have a : At { s with acknow := true } fa no mo := h.congr rfl rfl rfl rfl rfl rfl rfl rfl rfl rfl rfl rfl
    exact (Res.pre (s := s) (output_res a es he hd hc) rfl rfl rfl rfl).toStep (nb rfl)
  | rcvd es => exact (output_res h es he hd hc).toStep (nb rfl)
  | mtudisc es =>
    simp only at hc ⊢
    have a : At { s with nxt := s.una, recover := s.max, fastrec := s.fastrec && !s.sackPermit } fa 0 mo :=
      nxtUna_at h rfl rfl rfl rfl rfl rfl rfl rfl rfl rfl rfl rfl
    exact (Res.pre (s := s) (output_res a es he hd hc) rfl rfl rfl rfl).toStep (nb rfl)
  | drop es => exact (tcpDrop_res h es he hd hc).toStep (nb rfl)

end

/-! ## The ghosts only ever go up -/

theorem dupAck_clean (s : Tcb) (g : Seg) (r : REnv) (h : Clean (dupAck s g r).1) : Clean s := by
  unfold dupAck at h
  by_cases c1 : (decide (g.tlen = 0) && g.win == s.wnd) = true
  · rw [if_pos c1] at h
    by_cases c2 : (!s.rexmt || g.ack != s.una) = true
    · rw [if_pos c2] at h; exact h
    · rw [if_neg c2] at h
      simp only at h
      by_cases c3 : (decide (s.dupacks + 1 > r.thresh) || s.fastrec) = true
      · rw [if_pos c3] at h; exact output_clean { s with dupacks := s.dupacks + 1 } _ h
      · rw [if_neg c3] at h
        by_cases c4 : s.dupacks + 1 = r.thresh
        · rw [if_pos c4] at h
          by_cases c5 : (!s.sackPermit && seqLEQ g.ack s.recover) = true
          · rw [if_pos c5] at h; exact h
          · rw [if_neg c5] at h
            exact output_clean { s with dupacks := s.dupacks + 1, rexmt := false, nxt := g.ack, recover := s.max, fastrec := true } _ h
        · rw [if_neg c4] at h
          by_cases c6 : r.limited = true
          · rw [if_pos c6] at h; exact output_clean { s with dupacks := s.dupacks + 1 } _ h
          · rw [if_neg c6] at h; exact h
  · rw [if_neg c1] at h; exact h

theorem ackBlk_clean (s : Tcb) (g : Seg) (r : REnv) (h : Clean (ackBlk s g r).1) : Clean s := by
  unfold ackBlk at h
  simp only at h
  generalize hs1 : (if s.st = .synRcvd then
      { s with wnd := if r.scaled then g.win else s.wnd, needFin := false,
               st := if s.needFin then .finWait1 else .established, wl1 := g.seq - 1 } else s) = s1 at h
  have k : Clean s1 → Clean s := by
    subst hs1
    by_cases c : s.st = .synRcvd
    · rw [if_pos c]; exact fun h => h
    · rw [if_neg c]; exact fun h => h
  apply k
  split at h
  · exact h
  · split at h
    · exact dupAck_clean s1 g r h
    · split at h
      · exact partialAck_clean s1 g r h
      · have := (processAck_clean _ g).1 h
        split at this <;> exact partialAck_clean s1 g r this

theorem syncBlk_clean (s : Tcb) (g : Seg) (r : REnv) (w : Nat) (hc : Clean (syncBlk s g r w).1) : Clean s := by
  unfold syncBlk at hc
  split at hc
  · exact hc
  · simp only at hc
    apply (trimHead_same s g).2.2.2.2.2
    generalize (trimHead s g).1 = p1 at *
    generalize (trimHead s g).2 = g2 at *
    split at hc
    · exact hc
    · generalize diff (g2.seq + BitVec.ofNat 32 g2.tlen) (p1.rcvNxt + BitVec.ofNat 32 w) = ov at *
      split at hc
      · exact dropAfterAck_clean _ _ _ hc
      · generalize (if ov > 0 then { g2 with tlen := g2.tlen - ov.toNat, fin := false } else g2) = g3 at *
        generalize hs2 : (if (decide (ov > 0) && decide (ov ≥ (g2.tlen : Int))) = true then { p1 with acknow := true } else p1) = s2 at *
        have k : Clean s2 → Clean p1 := by
          subst hs2; split <;> exact fun h => h
        apply k
        split at hc
        · exact tcpDrop_clean _ _ hc
        · split at hc
          · split at hc
            · exact step6_clean _ _ _ _ hc
            · split at hc
              · exact dropAfterAck_clean _ _ _ hc
              · exact hc
          · exact ackBlk_clean _ _ _ (afterAck_clean _ _ _ hc)

theorem synSentBlk_clean (s : Tcb) (g : Seg) (r : REnv) (w : Nat) (hc : Clean (synSentBlk s g r w).1) : Clean s := by
  unfold synSentBlk at hc
  split at hc
  · exact hc
  · split at hc
    · split at hc
      · exact tcpDrop_clean _ _ hc
      · exact hc
    · split at hc
      · exact hc
      · simp only at hc
        have k : Clean (synSentOn s g r w) → Clean s := by
          unfold synSentOn; split <;> exact fun h => h
        apply k
        generalize synSentOn s g r w = s3 at *
        split at hc
        · exact (processAck_clean _ _).1 (afterAck_clean _ _ _ hc)
        · exact step6_clean _ _ _ _ hc

theorem doSegment_clean (s : Tcb) (g : Seg) (r : REnv) (hc : Clean (doSegment s g r).1) : Clean s := by
  unfold doSegment at hc
  simp only at hc
  have pa : Clean (predAck s g) → Clean s := by
    unfold predAck
    simp only
    generalize (if (seqGT s.una s.recover && seqLEQ g.ack s.recover) = true then g.ack - 1 else s.recover) = rc
    split
    · exact fun h => h
    · split <;> exact fun h => h
  split at hc
  · apply pa
    split at hc
    · exact output_clean _ _ hc
    · exact hc
  · split at hc
    · split at hc
      · exact hc
      · exact output_clean { s with rcvNxt := s.rcvNxt + BitVec.ofNat 32 g.tlen, wl1 := g.seq, acknow := true } _ hc
    · split at hc
      · exact hc
      · split at hc
        · exact synSentBlk_clean _ _ _ _ hc
        · split at hc
          · unfold rstBlk at hc
            split at hc
            · split at hc
              · exact hc
              · split at hc
                · split at hc <;> exact hc
                · split at hc <;> exact hc
            · exact hc
          · split at hc
            · split at hc
              · exact dropAfterAck_clean _ _ _ hc
              · exact hc
            · exact syncBlk_clean _ _ _ _ hc

theorem step_clean (s : Tcb) (ev : Ev) (hc : Clean (step s ev).1) : Clean s := by
  unfold step at hc
  split at hc
  · exact hc
  · cases ev with
    | write d es =>
      simp only at hc; split at hc
      · exact hc
      · exact output_clean { s with buf := s.buf ++ d, written := s.written ++ d } _ hc
    | oob d es =>
      simp only at hc; split at hc
      · exact hc
      · exact output_clean { s with buf := s.buf ++ d, written := s.written ++ d, force := true } _ hc
    | close es =>
      simp only at hc
      have := (usrClosed_same { s with cantSend := true }).2.2.2.2
      split at hc
      · exact this hc
      · exact this (output_clean _ _ hc)
    | seg g r => exact doSegment_clean s g r hc
    | rexmtTimer es =>
      simp only at hc; split at hc
      · exact output_clean { s with rexmt := false, nxt := s.una, recover := s.max, acknow := true } _ hc
      · exact hc
    | persistTimer es =>
      simp only at hc; split at hc
      · exact output_clean { s with force := true } _ hc
      · exact hc
    | delackTimer es => exact output_clean { s with acknow := true } _ hc
    | rcvd es => exact output_clean s es hc
    | mtudisc es => exact output_clean { s with nxt := s.una, recover := s.max, fastrec := s.fastrec && !s.sackPermit } _ hc
    | drop es => exact tcpDrop_clean s es hc

theorem fresh_at {s : Tcb} (h : Fresh s) : At s 0 0 0 := by
  refine ⟨by rw [h.buf]; simp, by rw [h.buf, h.written]; rfl, ?_, ?_, ?_, Nat.le_refl _, by omega, by omega,
    by omega, by rw [h.buf]; simp, h.flags.1, h.flags.2.1, by rw [h.st]; decide, ?_, ?_, ?_, ?_, fun _ => h.flags.2.2.1,
    fun _ _ => rfl⟩
  · rw [h.una]; unfold seqOfByte base; rw [h.buf, h.written]; rfl
  · rw [h.nxt]; unfold seqOfByte base; rw [h.buf, h.written]; rfl
  · rw [h.max]; unfold seqOfByte base; rw [h.buf, h.written]; rfl
  · rw [h.flags.2.2.1]; intro c; exact absurd c (by simp)
  · rw [h.st]; intro c; exact absurd c (by decide)
  · rw [h.flags.2.2.1]; intro c; exact absurd c (by simp)
  · rw [h.st]; intro c; exact absurd c (by decide)

theorem hist_at {s0 s : Tcb} {ps : List Pkt} (h : Hist s0 s ps) : Clean s → s.iss = s0.iss ∧ ∃ fa no mo, At s fa no mo := by
  induction h with
  | nil h => intro _; exact ⟨rfl, 0, 0, 0, fresh_at h⟩
  | snoc ev _ he hn ih =>
    intro hc
    obtain ⟨h1, fa, no, mo, a⟩ := ih (step_clean _ _ hc)
    have r := step_res a ev he hn hc
    obtain ⟨fa', no', mo', _, _, a'⟩ := r.at_
    exact ⟨by rw [r.iss, h1], fa', no', mo', a'⟩

end Verif.Snd

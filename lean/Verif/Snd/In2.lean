import Verif.Snd.In
/-!
# `ofp_tcp_do_segment` and the other events preserve the invariant
-/
namespace Verif.Snd
open Verif.Tcp

section
variable {s : Tcb} {fa no mo : Nat}

theorem processAck_clean (s : Tcb) (g : Seg) : Clean (processAck s g).1 ↔ Clean s := by
  unfold processAck ackTimer ackNew ackFin Clean
  simp only
  have h1 : ∀ (c d : Bool), (if c = true then { s with rexmt := false } else if d = true then { s with rexmt := true } else s).squeezed = s.squeezed ∧
      (if c = true then { s with rexmt := false } else if d = true then { s with rexmt := true } else s).finProbe = s.finProbe := by
    intro c d; cases c <;> cases d <;> simp
  generalize hz : (if (g.ack == s.max) = true then { s with rexmt := false } else if (!s.persist) = true then { s with rexmt := true } else s) = s1
  have h2 := h1 (g.ack == s.max) (!s.persist)
  rw [hz] at h2
  by_cases c : diff g.ack s.una = 0
  · rw [if_pos c]; simp only; rw [h2.1, h2.2]
  · rw [if_neg c]
    by_cases al : diff g.ack s.una > (s1.buf.length : Int)
    · simp only [al, decide_true, if_true, Bool.and_true, decide_eq_true_eq, sbdrop]
      by_cases a1 : s1.st = .finWait1
      · simp only [a1, if_true]; rw [h2.1, h2.2]
      · simp only [a1, if_false]
        by_cases a2 : s1.st = .closing
        · simp only [a2, if_true, twstart]; rw [h2.1, h2.2]
        · simp only [a2, if_false]
          by_cases a3 : s1.st = .lastAck
          · simp only [a3, if_true, tcpClose]; rw [h2.1, h2.2]
          · simp only [a3, if_false]; rw [h2.1, h2.2]
    · simp only [al, decide_false, Bool.and_false, sbdrop]
      simp [h2.1, h2.2]

/-- `process_ACK` with an acknowledgement of something outstanding. -/
theorem processAck_res (h : At s fa no mo) (g : Seg) (k : Nat) (hk : k ≤ mo)
    (hg : g.ack = seqOf s.iss (base s fa + k)) :
    Res s fa mo ((processAck s g).1, []) ∧
    (∀ need, (processAck s g).2 = .step6 need → (processAck s g).1.dead = s.dead) ∧ (processAck s g).2 ≠ .after := by
  have hml := h.mlt
  have hnm := h.nm
  have hacked : diff g.ack s.una = k := by
    rw [hg, h.una, diff_seqOf _ _ _ (by omega) (by omega)]; omega
  unfold processAck ackTimer ackNew ackFin
  rw [hacked]
  simp only
  generalize hz : (if (g.ack == s.max) = true then { s with rexmt := false } else if (!s.persist) = true then { s with rexmt := true } else s) = s1
  have a1 : At s1 fa no mo := by
    subst hz; split
    · exact h.congr rfl rfl rfl rfl rfl rfl rfl rfl rfl rfl rfl rfl
    · split
      · exact h.congr rfl rfl rfl rfl rfl rfl rfl rfl rfl rfl rfl rfl
      · exact h
  have e1 : s1.iss = s.iss ∧ s1.written = s.written ∧ s1.cantSend = s.cantSend ∧ s1.buf = s.buf ∧ s1.dead = s.dead := by
    subst hz; split
    · exact ⟨rfl, rfl, rfl, rfl, rfl⟩
    · split <;> exact ⟨rfl, rfl, rfl, rfl, rfl⟩
  clear hz
  have hbs : base s1 fa = base s fa := by unfold base; rw [e1.2.1, e1.2.2.2.1]
  have pre : ∀ r, Res s1 fa mo r → Res s fa mo r := fun r h' => Res.pre h' e1.1 e1.2.1 e1.2.2.1 e1.2.2.2.1
  by_cases k0 : k = 0
  · rw [if_pos (by omega)]
    exact ⟨pre _ (Res.refl a1), fun _ _ => e1.2.2.2.2, by simp⟩
  rw [if_neg (by omega)]
  have hlt : seqLT s1.nxt g.ack = decide (no < k) := by
    rw [hg, a1.nxt, e1.1, hbs, lt_seqOf _ _ _ (by omega) (by omega)]
    simp
  have hnx : (if seqLT s1.nxt g.ack = true then g.ack else s1.nxt) = seqOf s1.iss (base s1 fa + max no k) := by
    rw [hlt]
    by_cases c : no < k
    · simp only [c, decide_true, if_true]; rw [hg, e1.1, hbs]; congr 1; omega
    · simp only [c, decide_false]; rw [if_neg (by simp), a1.nxt]; congr 1; omega
  have hgk : g.ack = seqOf s1.iss (base s1 fa + k) := by rw [hg, e1.1, hbs]
  -- every branch is an instance of `At.ack`
  have fin : ∀ t : Tcb, t.buf = s1.buf.drop k → t.una = g.ack →
      t.nxt = (if seqLT s1.nxt g.ack = true then g.ack else s1.nxt) → t.max = s1.max → t.iss = s1.iss →
      t.needSyn = s1.needSyn → t.needFin = s1.needFin → t.sentFin = s1.sentFin → t.cantSend = s1.cantSend →
      t.written = s1.written →
      ((t.st = s1.st ∧ t.dead = s1.dead ∧ (k ≤ s1.buf.length ∨ outFin s1.st = false)) ∨
      (s1.buf.length < k ∧ (t.st = .finWait2 ∨ t.st = .timeWait ∨ (outFin t.st = true ∧ t.dead = true ∧ t.cantSend = true)))) →
      Res s fa mo (t, []) := by
    intro t b1 b2 b3 b4 b5 b6 b7 b8 b9 b10 b11
    obtain ⟨a2, hb2⟩ := ack_at a1 k (by omega) hk b1 (by rw [b2, hgk]) (by rw [b3, hnx]) b4 b5 b6 b7 b8 b9 b10 b11
    apply pre
    exact Res.quiet a2 b5 b10 b9 (by rw [hb2]; omega) (by rw [hb2]; omega)
  by_cases al : (k : Int) > (s1.buf.length : Int)
  · have hlk : s1.buf.length < k := by omega
    have hdrop : s1.buf.drop s1.buf.length = s1.buf.drop k := by
      rw [List.drop_eq_nil_of_le (Nat.le_refl _), List.drop_eq_nil_of_le (by omega)]
    simp only [al, decide_true, if_true, Bool.and_true, decide_eq_true_eq, sbdrop]
    by_cases a2 : s1.st = .finWait1
    · simp only [a2, if_true]
      refine ⟨fin _ hdrop rfl rfl rfl rfl rfl rfl rfl rfl rfl (.inr ⟨hlk, .inl rfl⟩), fun _ _ => e1.2.2.2.2, by simp⟩
    · simp only [a2, if_false]
      by_cases a3 : s1.st = .closing
      · simp only [a3, if_true, twstart]
        refine ⟨fin _ hdrop rfl rfl rfl rfl rfl rfl rfl rfl rfl (.inr ⟨hlk, .inr (.inl rfl)⟩), by simp, by simp⟩
      · simp only [a3, if_false]
        by_cases a4 : s1.st = .lastAck
        · simp only [a4, if_true, tcpClose]
          refine ⟨fin _ hdrop rfl rfl rfl rfl rfl rfl rfl rfl rfl (.inr ⟨hlk, .inr (.inr ⟨rfl, rfl, ?_⟩)⟩), by simp, by simp⟩
          exact a1.oc (by rw [a4]; rfl)
        · simp only [a4, if_false]
          refine ⟨fin _ hdrop rfl rfl rfl rfl rfl rfl rfl rfl rfl (.inl ⟨rfl, rfl, .inr ?_⟩), fun _ _ => e1.2.2.2.2, by simp⟩
          cases hs : s1.st <;> simp_all [outFin]
  · simp only [al, decide_false, Bool.and_false, sbdrop, Int.toNat_natCast]
    refine ⟨?_, ?_, ?_⟩
    · simp only [Bool.false_eq_true, if_false]
      exact fin _ rfl rfl rfl rfl rfl rfl rfl rfl rfl rfl (.inl ⟨rfl, rfl, .inl (by omega)⟩)
    · intro _ _; simp; exact e1.2.2.2.2
    · simp

theorem restore_nxt {t u : Tcb} {fa no0 no' mo0 mo' : Nat} (hu : At u fa no' mo') (hf : u.iss = t.iss)
    (hb : base u fa = base t fa) (hn : t.nxt = seqOf t.iss (base t fa + no0)) (h0 : no0 ≤ mo0) (hm : mo0 ≤ mo') :
    ∃ k, At { u with nxt := if seqGT t.nxt u.nxt then t.nxt else u.nxt } fa k mo' := by
  have hml := hu.mlt
  have hnm := hu.nm
  refine ⟨max no0 no', hu.setNxt (by omega) ?_ rfl rfl rfl rfl rfl rfl rfl rfl rfl rfl rfl⟩
  simp only
  rw [hn, hu.nxt, hf, hb, gt_seqOf _ _ _ (by omega) (by omega)]
  by_cases c : base t fa + no' < base t fa + no0
  · simp only [c, decide_true, if_true]; congr 1; omega
  · simp only [c, decide_false]; rw [if_neg (by simp)]; congr 1; omega

theorem dupAck_res (h : At s fa no mo) (g : Seg) (r : REnv) (he : ∀ e ∈ r.es1, e.Ok) (hd : s.dead = false)
    (hc : Clean (dupAck s g r).1) : Res s fa mo ((dupAck s g r).1, (dupAck s g r).2.1) ∧
      (∀ need, (dupAck s g r).2.2 = .step6 need → (dupAck s g r).1.dead = false) ∧ (dupAck s g r).2.2 ≠ .after := by
  unfold dupAck at hc ⊢
  have quiet : ∀ n, Res s fa mo ({ s with dupacks := n }, []) := fun n =>
    Res.quiet (h.congr rfl rfl rfl rfl rfl rfl rfl rfl rfl rfl rfl rfl) rfl rfl rfl (Nat.le_refl _) (Nat.le_refl _)
  by_cases c1 : (decide (g.tlen = 0) && g.win == s.wnd) = true
  · rw [if_pos c1] at hc ⊢
    by_cases c2 : (!s.rexmt || g.ack != s.una) = true
    · rw [if_pos c2]; exact ⟨quiet 0, fun _ _ => hd, by simp⟩
    · rw [if_neg c2] at hc ⊢
      have hack : g.ack = s.una := by simp at c2; exact c2.2
      simp only at hc ⊢
      have a1 : At { s with dupacks := s.dupacks + 1 } fa no mo :=
        h.congr rfl rfl rfl rfl rfl rfl rfl rfl rfl rfl rfl rfl
      by_cases c3 : (decide (s.dupacks + 1 > r.thresh) || s.fastrec) = true
      · rw [if_pos c3] at hc ⊢
        exact ⟨Res.pre (s := s) (output_res a1 r.es1 he hd hc) rfl rfl rfl rfl, by simp, by simp⟩
      · rw [if_neg c3] at hc ⊢
        by_cases c4 : s.dupacks + 1 = r.thresh
        · rw [if_pos c4] at hc ⊢
          by_cases c5 : (!s.sackPermit && seqLEQ g.ack s.recover) = true
          · rw [if_pos c5]; exact ⟨quiet 0, fun _ _ => hd, by simp⟩
          · rw [if_neg c5] at hc ⊢
            have a2 : At { s with dupacks := s.dupacks + 1, rexmt := false, nxt := g.ack, recover := s.max, fastrec := true } fa 0 mo :=
              h.setNxt (by omega) (by simp only; rw [hack, h.una]; rfl) rfl rfl rfl rfl rfl rfl rfl rfl rfl rfl rfl
            have hc' : Clean (output { s with dupacks := s.dupacks + 1, rexmt := false, nxt := g.ack, recover := s.max, fastrec := true } r.es1).1 := hc
            have gl := output_good a2 r.es1 he hd hc'
            refine ⟨?_, by simp, by simp⟩
            obtain ⟨no', mo', hm, a3⟩ := gl.at_
            obtain ⟨k, a4⟩ := restore_nxt (t := s) a3 gl.frame.iss (gl.frame.base fa) h.nxt h.nm hm
            exact ⟨gl.frame.iss, gl.frame.written, gl.frame.cantSend,
              ⟨fa, k, mo', Nat.le_of_eq (gl.frame.base fa).symm, by
                have hb : base (output { s with dupacks := s.dupacks + 1, rexmt := false, nxt := g.ack, recover := s.max, fastrec := true } r.es1).1 fa = base s fa := gl.frame.base fa
                show base s fa + mo ≤ base (output _ _).1 fa + mo'
                rw [hb]; omega, a4⟩, gl.pkt⟩
        · rw [if_neg c4] at hc ⊢
          by_cases c6 : r.limited = true
          · rw [if_pos c6] at hc ⊢
            exact ⟨Res.pre (s := s) (output_res a1 r.es1 he hd hc) rfl rfl rfl rfl, by simp, by simp⟩
          · rw [if_neg c6]; exact ⟨quiet _, fun _ _ => hd, by simp⟩
  · rw [if_neg c1]; exact ⟨quiet 0, fun _ _ => hd, by simp⟩

theorem partialAck_clean (s : Tcb) (g : Seg) (r : REnv) (h : Clean (partialAck s g r).1) : Clean s := by
  unfold partialAck at h
  split at h
  · split at h
    · exact output_clean { s with rexmt := false, acknow := true } _ h
    · exact output_clean { s with rexmt := false, nxt := g.ack, acknow := true } _ h
  · exact h

theorem partialAck_good (h : At s fa no mo) (g : Seg) (r : REnv) (he : ∀ e ∈ r.es1, e.Ok) (hd : s.dead = false)
    (k : Nat) (hk : k ≤ mo) (hg : g.ack = seqOf s.iss (base s fa + k))
    (hc : Clean (partialAck s g r).1) : GoodL s (partialAck s g r).1 fa mo (partialAck s g r).2 := by
  unfold partialAck at hc ⊢
  split at hc
  · rename_i c; rw [if_pos c]
    split at hc
    · rename_i c2; rw [if_pos c2]
      have a : At { s with rexmt := false, acknow := true } fa no mo :=
        h.congr rfl rfl rfl rfl rfl rfl rfl rfl rfl rfl rfl rfl
      have gl := output_good a r.es1 he hd hc
      exact ⟨Frame.trans (by constructor <;> rfl) gl.frame, gl.at_, gl.pkt⟩
    · rename_i c2; rw [if_neg c2]
      have a : At { s with rexmt := false, nxt := g.ack, acknow := true } fa k mo :=
        h.setNxt hk (by simp only; rw [hg]) rfl rfl rfl rfl rfl rfl rfl rfl rfl rfl rfl
      have hc' : Clean (output { s with rexmt := false, nxt := g.ack, acknow := true } r.es1).1 := hc
      have gl := output_good a r.es1 he hd hc'
      obtain ⟨no', mo', hm, a3⟩ := gl.at_
      obtain ⟨j, a4⟩ := restore_nxt (t := s) a3 gl.frame.iss (gl.frame.base fa) h.nxt h.nm hm
      refine ⟨?_, ⟨j, mo', hm, a4⟩, gl.pkt⟩
      have f0 : Frame s { s with rexmt := false, nxt := g.ack, acknow := true } := by constructor <;> rfl
      exact Frame.trans (Frame.trans f0 gl.frame) (by constructor <;> rfl)
  · rename_i c; rw [if_neg c]
    exact ⟨Frame.refl _, ⟨no, mo, Nat.le_refl _, h⟩, by simp⟩

/-- What ACK processing guarantees. -/
structure AckRes (s : Tcb) (fa mo : Nat) (p : Tcb × List Pkt × K) : Prop where
  res : Res s fa mo (p.1, p.2.1)
  alive : p.2.2 ≠ .stop → p.1.dead = false

theorem ackBlk_res (h : At s fa no mo) (g : Seg) (r : REnv) (he : ∀ e ∈ r.es1, e.Ok) (hd : s.dead = false)
    (hc : Clean (ackBlk s g r).1) : AckRes s fa mo (ackBlk s g r) := by
  have hns : ¬ (s.st = .synRcvd) := h.stl.2.2
  unfold ackBlk at hc ⊢
  simp only [hns, if_false] at hc ⊢
  by_cases c1 : seqGT g.ack s.max = true
  · rw [if_pos c1] at hc ⊢
    exact ⟨Res.refl h, fun _ => hd⟩
  · rw [if_neg c1] at hc ⊢
    by_cases c2 : seqLEQ g.ack s.una = true
    · rw [if_pos c2] at hc ⊢
      obtain ⟨a, b, c⟩ := dupAck_res h g r he hd hc
      refine ⟨a, ?_⟩
      intro d
      cases e : (dupAck s g r).2.2 with
      | stop => exact absurd e d
      | after => exact absurd e c
      | step6 n => exact b n e
    · rw [if_neg c2] at hc ⊢
      have hml := h.mlt
      have c3 : seqGT g.ack s.una = true := by
        unfold seqLEQ at c2; unfold seqGT; simp at c2 ⊢; omega
      have c1' : seqGT g.ack (seqOf s.iss (base s fa + mo)) = false := by rw [← h.max]; simpa using c1
      rw [h.una] at c3
      obtain ⟨k, k1, k2, k3⟩ := between s.iss (base s fa) mo g.ack (by omega) c3 c1'
      by_cases c4 : (partialAck s g r).1.hung = true
      · rw [if_pos c4] at hc ⊢
        have gl := partialAck_good h g r he hd k k3 k1 hc
        exact ⟨Res.ofGoodL gl, by simp⟩
      · rw [if_neg c4] at hc ⊢
        simp only at hc ⊢
        have hcp : Clean (partialAck s g r).1 := by
          have := (processAck_clean _ g).1 hc
          split at this <;> exact this
        have gl := partialAck_good h g r he hd k k3 k1 hcp
        have hnsyn : (partialAck s g r).1.needSyn = false := by rw [gl.frame.needSyn]; exact h.ns
        rw [hnsyn] at hc ⊢
        simp only [Bool.false_eq_true, if_false] at hc ⊢
        obtain ⟨no', mo', hm, a⟩ := gl.at_
        have a' : At { (partialAck s g r).1 with dupacks := 0, needSyn := false } fa no' mo' :=
          a.congr rfl rfl rfl rfl rfl rfl hnsyn.symm rfl rfl rfl rfl rfl
        obtain ⟨q1, q2, q3⟩ := processAck_res a' g k (by omega)
          (by rw [k1]
              show _ = seqOf (partialAck s g r).1.iss (base (partialAck s g r).1 fa + k)
              rw [gl.frame.iss, gl.frame.base fa])
        refine ⟨?_, ?_⟩
        · have q1' : Res (partialAck s g r).1 fa mo'
              ((processAck { (partialAck s g r).1 with dupacks := 0, needSyn := false } g).1, []) :=
            Res.pre (s := (partialAck s g r).1) q1 rfl rfl rfl rfl
          obtain ⟨f2, n2, m2, b1, b2, a2⟩ := q1'.at_
          refine ⟨by rw [q1'.iss, gl.frame.iss], by rw [q1'.written, gl.frame.written],
            by rw [q1'.cant, gl.frame.cantSend], ⟨f2, n2, m2, ?_, ?_, a2⟩, gl.pkt⟩
          · rw [gl.frame.base fa] at b1; exact b1
          · rw [gl.frame.base fa] at b2
            have : base s fa + mo ≤ base s fa + mo' := by omega
            exact Nat.le_trans this b2
        · intro d
          have hpd : (partialAck s g r).1.dead = false := by rw [gl.frame.dead]; exact hd
          cases e : (processAck { (partialAck s g r).1 with dupacks := 0, needSyn := false } g).2 with
          | stop => exact absurd e d
          | after => exact absurd e q3
          | step6 n => rw [q2 n e]; exact hpd

end

end Verif.Snd

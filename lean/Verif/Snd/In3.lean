import Verif.Snd.In2
/-!
# Every event preserves the invariant
-/
namespace Verif.Snd
open Verif.Tcp

section
variable {s : Tcb} {fa no mo : Nat}

theorem wndBlk_at (h : At s fa no mo) (g : Seg) : At (wndBlk s g).1 fa no mo := by
  unfold wndBlk; split
  · exact h.congr rfl rfl rfl rfl rfl rfl rfl rfl rfl rfl rfl rfl
  · exact h

theorem wndBlk_same (s : Tcb) (g : Seg) : (wndBlk s g).1.iss = s.iss ∧ (wndBlk s g).1.written = s.written ∧
    (wndBlk s g).1.cantSend = s.cantSend ∧ (wndBlk s g).1.buf = s.buf ∧ (wndBlk s g).1.dead = s.dead ∧
    (Clean (wndBlk s g).1 → Clean s) ∧ (wndBlk s g).1.st = s.st := by
  unfold wndBlk; split
  · exact ⟨rfl, rfl, rfl, rfl, rfl, fun h => h, rfl⟩
  · exact ⟨rfl, rfl, rfl, rfl, rfl, fun h => h, rfl⟩

theorem textFin_at (h : At s fa no mo) (g : Seg) (r : REnv) : At (textFin s g r).1 fa no mo := by
  unfold textFin
  simp only
  generalize ((decide (g.tlen ≠ 0) || g.fin) && decide (s.st ≠ .timeWait)) = tk
  cases tk <;> cases r.finUp <;> simp <;> exact h.congr rfl rfl rfl rfl rfl rfl rfl rfl rfl rfl rfl rfl

theorem textFin_same (s : Tcb) (g : Seg) (r : REnv) : (textFin s g r).1.iss = s.iss ∧
    (textFin s g r).1.written = s.written ∧ (textFin s g r).1.cantSend = s.cantSend ∧ (textFin s g r).1.buf = s.buf ∧
    (textFin s g r).1.dead = s.dead ∧ (Clean (textFin s g r).1 → Clean s) ∧ (textFin s g r).1.st = s.st := by
  unfold textFin
  simp only
  generalize ((decide (g.tlen ≠ 0) || g.fin) && decide (s.st ≠ .timeWait)) = tk
  cases tk <;> cases r.finUp <;> simp <;> exact fun h => h

theorem finSt_at (h : At s fa no mo) (hd : s.dead = false) (f : Bool) : At (finSt s f) fa no mo := by
  unfold finSt
  cases f
  · exact h
  · simp only [if_true]
    by_cases c1 : (decide (s.st = .synRcvd) || decide (s.st = .established)) = true
    · rw [if_pos c1]
      have c2 : s.st = .established := by
        simp at c1
        rcases c1 with c | c
        · exact absurd c h.stl.2.2
        · exact c
      exact h.setSt .closeWait rfl rfl rfl rfl rfl rfl rfl rfl rfl (fun d => d) rfl (by decide)
        (fun d => absurd d (by decide)) (fun d => absurd d (by decide)) (fun _ => h.es (.inl c2))
        (fun d => absurd d (by decide))
    · rw [if_neg c1]
      by_cases c3 : s.st = .finWait1
      · rw [if_pos c3]
        exact h.setSt .closing rfl rfl rfl rfl rfl rfl rfl rfl rfl (fun d => d) rfl (by decide)
          (fun _ => h.oc (by rw [c3]; rfl)) (fun d => absurd d (by decide)) (fun d => absurd d (by decide))
          (fun _ _ => h.of (by rw [c3]; rfl) hd)
      · rw [if_neg c3]; exact h

theorem finSt_same (s : Tcb) (f : Bool) : (finSt s f).iss = s.iss ∧
    (finSt s f).written = s.written ∧ (finSt s f).cantSend = s.cantSend ∧ (finSt s f).buf = s.buf ∧
    (finSt s f).dead = s.dead ∧ (Clean (finSt s f) → Clean s) := by
  unfold finSt
  cases f
  · exact ⟨rfl, rfl, rfl, rfl, rfl, fun h => h⟩
  · simp only [if_true]
    split
    · exact ⟨rfl, rfl, rfl, rfl, rfl, fun h => h⟩
    · split <;> exact ⟨rfl, rfl, rfl, rfl, rfl, fun h => h⟩

theorem step6_clean (s : Tcb) (g : Seg) (r : REnv) (need : Bool) (h : Clean (step6 s g r need).1) : Clean s := by
  unfold step6 at h
  simp only at h
  split at h
  · exact (wndBlk_same s g).2.2.2.2.2.1 h
  · apply (wndBlk_same s g).2.2.2.2.2.1
    apply (textFin_same (wndBlk s g).1 g r).2.2.2.2.2.1
    split at h
    · exact h
    · apply (finSt_same _ (textFin (wndBlk s g).1 g r).2).2.2.2.2.2
      split at h
      · exact output_clean _ _ h
      · exact h

theorem step6_res (h : At s fa no mo) (g : Seg) (r : REnv) (need : Bool) (he : ∀ e ∈ r.es2, e.Ok) (hd : s.dead = false)
    (hc : Clean (step6 s g r need).1) : Res s fa mo (step6 s g r need) := by
  unfold step6 at hc ⊢
  simp only at hc ⊢
  have w := wndBlk_same s g
  have aw := wndBlk_at h g
  generalize hp : (wndBlk s g).1 = p1 at *
  have pre : ∀ r, Res p1 fa mo r → Res s fa mo r := fun r h' => Res.pre h' w.1 w.2.1 w.2.2.1 w.2.2.2.1
  split at hc
  · rename_i c; rw [if_pos c]; exact pre _ (Res.refl aw)
  · rename_i c; rw [if_neg c]
    have tf := textFin_same p1 g r
    have at1 := textFin_at aw g r
    generalize ht : textFin p1 g r = t at *
    have pre2 : ∀ r, Res t.1 fa mo r → Res s fa mo r :=
      fun r h' => pre _ (Res.pre h' tf.1 tf.2.1 tf.2.2.1 tf.2.2.2.1)
    have hd2 : t.1.dead = false := by rw [tf.2.2.2.2.1, w.2.2.2.2.1]; exact hd
    split at hc
    · rename_i c2; rw [if_pos c2]
      have c3 : t.1.st = .finWait2 := by simp at c2; exact c2.2
      apply pre2
      refine Res.quiet (fa' := fa) (no' := no) (mo' := mo) ?_ rfl rfl rfl (Nat.le_refl _) (Nat.le_refl _)
      exact at1.setSt .timeWait rfl rfl rfl rfl rfl rfl rfl rfl rfl (fun d => d) rfl (by decide)
        (fun d => absurd d (by decide)) (fun _ => at1.f2 (.inl c3)) (fun d => absurd d (by decide))
        (fun d => absurd d (by decide))
    · rename_i c2; rw [if_neg c2]
      have fs := finSt_same t.1 t.2
      have a3 := finSt_at at1 hd2 t.2
      generalize hs3 : finSt t.1 t.2 = s3 at *
      have pre3 : ∀ r, Res s3 fa mo r → Res s fa mo r :=
        fun r h' => pre2 _ (Res.pre h' fs.1 fs.2.1 fs.2.2.1 fs.2.2.2.1)
      have hd3 : s3.dead = false := by rw [fs.2.2.2.2.1]; exact hd2
      split at hc
      · rename_i c3; rw [if_pos c3]
        apply pre3
        have o := output_res a3 r.es2 he hd3 hc
        exact Res.post o rfl rfl rfl rfl rfl rfl rfl rfl rfl rfl rfl rfl
      · rename_i c3; rw [if_neg c3]
        apply pre3
        exact Res.post (Res.refl a3) rfl rfl rfl rfl rfl rfl rfl rfl rfl rfl rfl rfl

theorem afterAck_clean (p : Tcb × List Pkt × K) (g : Seg) (r : REnv) (h : Clean (afterAck p g r).1) : Clean p.1 := by
  obtain ⟨p1, p2, k⟩ := p
  cases k with
  | stop => exact h
  | after => exact dropAfterAck_clean p1 g r h
  | step6 n => exact step6_clean p1 g r n h

theorem afterAck_res {p : Tcb × List Pkt × K} (a : AckRes s fa mo p) (g : Seg) (r : REnv) (he : ∀ e ∈ r.es2, e.Ok)
    (hc : Clean (afterAck p g r).1) : Res s fa mo (afterAck p g r) := by
  obtain ⟨p1, p2, k⟩ := p
  cases k with
  | stop => exact a.res
  | after =>
    have hd : p1.dead = false := a.alive (by simp)
    exact Res.chain (r2 := dropAfterAck p1 g r) a.res fun f n m h' => dropAfterAck_res h' g r he hd hc
  | step6 nd =>
    have hd : p1.dead = false := a.alive (by simp)
    exact Res.chain (r2 := step6 p1 g r nd) a.res fun f n m h' => step6_res h' g r nd he hd hc

theorem rstBlk_res (h : At s fa no mo) (g : Seg) (r : REnv) (w : Nat) : Res s fa mo (rstBlk s g r w, []) := by
  have k1 : Res s fa mo (tcpClose { s with st := .closed }, []) :=
    Res.quiet (h.kill rfl (.inr rfl) rfl rfl rfl rfl rfl rfl rfl rfl rfl rfl) rfl rfl rfl (Nat.le_refl _) (Nat.le_refl _)
  have k2 : Res s fa mo (tcpClose s, []) :=
    Res.quiet (h.kill rfl (.inl rfl) rfl rfl rfl rfl rfl rfl rfl rfl rfl rfl) rfl rfl rfl (Nat.le_refl _) (Nat.le_refl _)
  have k3 := Res.refl h
  unfold rstBlk
  split
  · split
    · exact k1
    · split
      · split
        · exact k3
        · exact k1
      · split
        · exact k2
        · exact k3
  · exact k3

theorem trimHead_at (h : At s fa no mo) (g : Seg) : At (trimHead s g).1 fa no mo := by
  unfold trimHead
  simp only
  split
  · generalize (if g.syn = true then diff s.rcvNxt g.seq - 1 else diff s.rcvNxt g.seq) = td
    split
    · exact h.congr rfl rfl rfl rfl rfl rfl rfl rfl rfl rfl rfl rfl
    · exact h
  · exact h

theorem trimHead_same (s : Tcb) (g : Seg) : (trimHead s g).1.iss = s.iss ∧
    (trimHead s g).1.written = s.written ∧ (trimHead s g).1.cantSend = s.cantSend ∧ (trimHead s g).1.buf = s.buf ∧
    (trimHead s g).1.dead = s.dead ∧ (Clean (trimHead s g).1 → Clean s) := by
  unfold trimHead
  simp only
  split
  · generalize (if g.syn = true then diff s.rcvNxt g.seq - 1 else diff s.rcvNxt g.seq) = td
    split <;> exact ⟨rfl, rfl, rfl, rfl, rfl, fun h => h⟩
  · exact ⟨rfl, rfl, rfl, rfl, rfl, fun h => h⟩

theorem syncBlk_res (h : At s fa no mo) (g : Seg) (r : REnv) (w : Nat) (he1 : ∀ e ∈ r.es1, e.Ok)
    (he2 : ∀ e ∈ r.es2, e.Ok) (hd : s.dead = false) (hc : Clean (syncBlk s g r w).1) :
    Res s fa mo (syncBlk s g r w) := by
  unfold syncBlk at hc ⊢
  split at hc
  · rename_i c; rw [if_pos c]; exact Res.refl h
  · rename_i c; rw [if_neg c]
    simp only at hc ⊢
    have t := trimHead_same s g
    have a := trimHead_at h g
    generalize hp1 : (trimHead s g).1 = p1 at *
    generalize hp2 : (trimHead s g).2 = g2 at *
    have hd1 : p1.dead = false := by rw [t.2.2.2.2.1]; exact hd
    have pre : ∀ r, Res p1 fa mo r → Res s fa mo r := fun r h' => Res.pre h' t.1 t.2.1 t.2.2.1 t.2.2.2.1
    split at hc
    · rename_i c2; rw [if_pos c2]
      apply pre
      exact Res.quiet (a.kill rfl (.inl rfl) rfl rfl rfl rfl rfl rfl rfl rfl rfl rfl) rfl rfl rfl (Nat.le_refl _) (Nat.le_refl _)
    · rename_i c2; rw [if_neg c2]
      generalize hov : diff (g2.seq + BitVec.ofNat 32 g2.tlen) (p1.rcvNxt + BitVec.ofNat 32 w) = ov at *
      split at hc
      · rename_i c3; rw [if_pos c3]
        exact pre _ (dropAfterAck_res a g2 r he2 hd1 hc)
      · rename_i c3; rw [if_neg c3]
        generalize hg3 : (if ov > 0 then { g2 with tlen := g2.tlen - ov.toNat, fin := false } else g2) = g3 at *
        generalize hs2 : (if (decide (ov > 0) && decide (ov ≥ (g2.tlen : Int))) = true then { p1 with acknow := true } else p1) = s2 at *
        have a2 : At s2 fa no mo := by
          subst hs2; split
          · exact a.congr rfl rfl rfl rfl rfl rfl rfl rfl rfl rfl rfl rfl
          · exact a
        have t2 : s2.iss = p1.iss ∧ s2.written = p1.written ∧ s2.cantSend = p1.cantSend ∧ s2.buf = p1.buf ∧
            s2.dead = p1.dead := by
          subst hs2; split <;> exact ⟨rfl, rfl, rfl, rfl, rfl⟩
        have pre2 : ∀ r, Res s2 fa mo r → Res s fa mo r :=
          fun r h' => pre _ (Res.pre h' t2.1 t2.2.1 t2.2.2.1 t2.2.2.2.1)
        have hd2 : s2.dead = false := by rw [t2.2.2.2.2]; exact hd1
        apply pre2
        split at hc
        · rename_i c4; rw [if_pos c4]
          exact tcpDrop_res a2 r.es1 he1 hd2 hc
        · rename_i c4; rw [if_neg c4]
          split at hc
          · rename_i c5; rw [if_pos c5]
            split at hc
            · rename_i c6; rw [if_pos c6]
              exact step6_res a2 g3 r false he2 hd2 hc
            · rename_i c6; rw [if_neg c6]
              split at hc
              · rename_i c7; rw [if_pos c7]
                exact dropAfterAck_res a2 g3 r he2 hd2 hc
              · rename_i c7; rw [if_neg c7]
                exact Res.refl a2
          · rename_i c5; rw [if_neg c5]
            exact afterAck_res (ackBlk_res a2 g3 r he1 hd2 (afterAck_clean _ g3 r hc)) g3 r he2 hc

/-- Header prediction: state after a pure acknowledgement (src/ofp_tcp_input.c:1518-1628). -/
theorem predAck_at (h : At s fa no mo) (g : Seg) (hst : s.st = .established) (hnx : (s.nxt == s.max) = true)
    (c1 : seqGT g.ack s.una = true) (c2 : seqLEQ g.ack s.max = true) (t : Tcb)
    (hb : t.buf = s.buf.drop (diff g.ack s.una).toNat) (hu : t.una = g.ack) (hn : t.nxt = s.nxt) (hm : t.max = s.max)
    (h1 : t.st = s.st) (h2 : t.iss = s.iss) (h7 : t.needSyn = s.needSyn) (h8 : t.needFin = s.needFin)
    (h9 : t.sentFin = s.sentFin) (h10 : t.cantSend = s.cantSend) (h11 : t.dead = s.dead)
    (h12 : t.written = s.written) : ∃ fa' no' mo', base s fa ≤ base t fa' ∧
      base s fa + mo ≤ base t fa' + mo' ∧ At t fa' no' mo' := by
  have hml := h.mlt
  have hnm := h.nm
  have c2' : seqGT g.ack (seqOf s.iss (base s fa + mo)) = false := by
    rw [← h.max]; unfold seqLEQ at c2; unfold seqGT; simp at c2 ⊢; omega
  rw [h.una] at c1
  obtain ⟨k, k1, k2, k3⟩ := between s.iss (base s fa) mo g.ack (by omega) c1 c2'
  have hacked : diff g.ack s.una = k := by
    rw [k1, h.una, diff_seqOf _ _ _ (by omega) (by omega)]; omega
  rw [hacked, Int.toNat_natCast] at hb
  rw [h.nxt, h.max, eq_seqOf _ _ _ (by omega) (by omega)] at hnx
  have hnx : no = mo := by simpa using hnx
  obtain ⟨a2, hb2⟩ := ack_at h k k2 k3 hb (by rw [hu, k1]) (by rw [hn, h.nxt]; congr 1; omega) hm h2 h7 h8 h9 h10 h12
    (.inl ⟨h1, h11, .inr (by rw [hst]; rfl)⟩)
  exact ⟨_, _, _, by rw [hb2]; omega, by rw [hb2]; omega, a2⟩

theorem doSegment_res (h : At s fa no mo) (g : Seg) (r : REnv) (he1 : ∀ e ∈ r.es1, e.Ok)
    (he2 : ∀ e ∈ r.es2, e.Ok) (hd : s.dead = false) (hc : Clean (doSegment s g r).1) :
    Res s fa mo (doSegment s g r) := by
  unfold doSegment at hc ⊢
  simp only at hc ⊢
  generalize hpred : predOk s g r = pred at *
  by_cases c1 : (pred && decide (g.tlen = 0) && seqGT g.ack s.una && seqLEQ g.ack s.max && !s.fastrec && r.holesEmpty) = true
  · rw [if_pos c1] at hc ⊢
    have c1' := c1
    simp only [Bool.and_eq_true] at c1'
    obtain ⟨⟨⟨⟨⟨p, _⟩, p2⟩, p3⟩, _⟩, _⟩ := c1'
    rw [p] at hpred
    have hp := hpred
    unfold predOk at hp
    simp only [Bool.and_eq_true, decide_eq_true_eq] at hp
    obtain ⟨⟨⟨⟨⟨⟨⟨⟨⟨⟨⟨⟨q1, _⟩, _⟩, _⟩, _⟩, _⟩, _⟩, q8⟩, _⟩, _⟩, _⟩, _⟩, _⟩ := hp
    generalize hs2 : predAck s g = s2 at *
    have e2 : s2.buf = s.buf.drop (diff g.ack s.una).toNat ∧ s2.una = g.ack ∧ s2.nxt = s.nxt ∧ s2.max = s.max ∧
        s2.st = s.st ∧ s2.iss = s.iss ∧ s2.needSyn = s.needSyn ∧ s2.needFin = s.needFin ∧ s2.sentFin = s.sentFin ∧
        s2.cantSend = s.cantSend ∧ s2.dead = s.dead ∧ s2.written = s.written := by
      subst hs2; unfold predAck
      simp only
      generalize (if (seqGT s.una s.recover && seqLEQ g.ack s.recover) = true then g.ack - 1 else s.recover) = rc
      split
      · exact ⟨rfl, rfl, rfl, rfl, rfl, rfl, rfl, rfl, rfl, rfl, rfl, rfl⟩
      · split <;> exact ⟨rfl, rfl, rfl, rfl, rfl, rfl, rfl, rfl, rfl, rfl, rfl, rfl⟩
    clear hs2
    obtain ⟨u1, u2, u3, u4, u5, u6, u7, u8, u9, u10, u11, u12⟩ := e2
    obtain ⟨fa', no', mo', b1, b2, a2⟩ := predAck_at h g q1 q8 p2 p3 s2 u1 u2 u3 u4 u5 u6 u7 u8 u9 u10 u11 u12
    have r2 : Res s fa mo (s2, []) := Res.quiet a2 u6 u12 u10 b1 b2
    by_cases c2 : s2.buf.length ≠ 0
    · rw [if_pos c2] at hc ⊢
      have r3 := Res.chain (r2 := output s2 r.es1) r2 fun f n m h' => output_res h' r.es1 he1 (by rw [u11]; exact hd) hc
      exact Res.post r3 rfl rfl rfl rfl rfl rfl rfl rfl rfl rfl rfl rfl
    · rw [if_neg c2] at hc ⊢
      exact Res.post r2 rfl rfl rfl rfl rfl rfl rfl rfl rfl rfl rfl rfl
  · rw [if_neg c1] at hc ⊢
    by_cases c2 : (pred && decide (g.tlen ≠ 0) && g.ack == s.una && decide (g.tlen ≤ r.space)) = true
    · rw [if_pos c2] at hc ⊢
      by_cases c3 : r.delay = true
      · rw [if_pos c3]
        exact Res.quiet (h.congr rfl rfl rfl rfl rfl rfl rfl rfl rfl rfl rfl rfl) rfl rfl rfl (Nat.le_refl _) (Nat.le_refl _)
      · rw [if_neg c3] at hc ⊢
        have a : At { s with rcvNxt := s.rcvNxt + BitVec.ofNat 32 g.tlen, wl1 := g.seq, acknow := true } fa no mo :=
          h.congr rfl rfl rfl rfl rfl rfl rfl rfl rfl rfl rfl rfl
        have o := output_res a r.es1 he1 hd hc
        exact Res.post (Res.pre (s := s) o rfl rfl rfl rfl) rfl rfl rfl rfl rfl rfl rfl rfl rfl rfl rfl rfl
    · rw [if_neg c2] at hc ⊢
      generalize hw : Nat.max r.space (diff s.rcvAdv s.rcvNxt).toNat = w at *
      have n1 : ¬ (s.st = .synRcvd) := h.stl.2.2
      have n2 : ¬ (s.st = .synSent) := h.stl.2.1
      simp only [n1, n2, decide_false, Bool.false_and, Bool.false_eq_true, if_false] at hc ⊢
      split at hc
      · rename_i c; rw [if_pos c]; exact rstBlk_res h g r w
      · rename_i c; rw [if_neg c]
        split at hc
        · rename_i c3; rw [if_pos c3]
          split at hc
          · rename_i c4; rw [if_pos c4]; exact dropAfterAck_res h g r he2 hd hc
          · rename_i c4; rw [if_neg c4]; exact Res.refl h
        · rename_i c3; rw [if_neg c3]
          exact syncBlk_res h g r w he1 he2 hd hc

end

end Verif.Snd

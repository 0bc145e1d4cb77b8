import Verif.Snd.Props
/-!
# Properties C88, C90, C91: the life of a connection
-/
namespace Verif.Snd
open Verif.Tcp

section
variable {ev : Ev} {s0 s t : Tcb} {p ps : List Pkt}

/-! ## C90: the state machine -/

/-- The acknowledgement covers more than the data in the send buffer, i.e. our FIN. -/
def AcksFin (s : Tcb) (g : Seg) : Prop :=
  g.ackf = true ∧ (s.st ≠ .synSent → s.needSyn = false → (s.buf.length : Int) < diff g.ack s.una)

/-- The acknowledgement is for something sent and not yet acknowledged. -/
def AcksNew (s : Tcb) (g : Seg) : Prop := g.ackf = true ∧ 0 < diff g.ack s.una ∧ diff g.ack s.max ≤ 0

/-- The transitions of RFC 793, figure 6, with their triggers; `s` is the connection when the event arrives.  `needFin`:
the application closed during the handshake. -/
inductive Trans (s : Tcb) : Ev → St → St → Prop where
  | closeEst {es} : Trans s (.close es) .established .finWait1
  | closeWait {es} : Trans s (.close es) .closeWait .lastAck
  | closeListen {es} : Trans s (.close es) .listen .closed
  | synAck {g r} : g.syn = true → g.ackf = true → 0 < diff g.ack s.iss → diff g.ack s.max ≤ 0 →
      Trans s (.seg g r) .synSent .established
  | synAckFin {g r} : g.syn = true → g.ackf = true → 0 < diff g.ack s.iss → diff g.ack s.max ≤ 0 → s.needFin = true →
      Trans s (.seg g r) .synSent .finWait1
  | syn {g r} : g.syn = true → g.ackf = false → Trans s (.seg g r) .synSent .synRcvd
  | estab {g r} : AcksNew s g → Trans s (.seg g r) .synRcvd .established
  | estabFin {g r} : AcksNew s g → s.needFin = true → Trans s (.seg g r) .synRcvd .finWait1
  | finAcked1 {g r} : AcksFin s g → Trans s (.seg g r) .finWait1 .finWait2
  | finAcked2 {g r} : AcksFin s g → Trans s (.seg g r) .closing .timeWait
  | fin0 {g r} : r.finUp = true → Trans s (.seg g r) .synRcvd .closeWait
  | fin1 {g r} : r.finUp = true → Trans s (.seg g r) .established .closeWait
  | fin2 {g r} : r.finUp = true → Trans s (.seg g r) .finWait1 .closing
  | fin3 {g r} : r.finUp = true → Trans s (.seg g r) .finWait2 .timeWait
  | reset {g r x} : g.rst = true → s.st ≠ .synSent → Trans s (.seg g r) x .closed
  | synDrop {g r x} : g.syn = true → x.num ≥ 3 → Trans s (.seg g r) x .closed
  | drop {es x} : x.num ≥ 3 → Trans s (.drop es) x .closed

/-- The part of `BufI` used here. -/
def Rel (ev : Ev) (s0 s : Tcb) : Prop := s0.st ≠ .synSent → s0.needSyn = false → BufI ev s0 s

theorem mv_rel (m : Mv ev s0 s p t) (h : Rel ev s0 s) : Rel ev s0 t := fun a b => mv_buf m a b (h a b)

theorem rel_refl (ev : Ev) (s : Tcb) : Rel ev s s := fun _ _ => ⟨rfl, .inl ⟨[], .inl rfl, by simp, by simp, rfl⟩⟩

theorem rel_acksFin {g : Seg} {r : REnv} (h : Rel ev s0 s) (hev : ev = .seg g r) (ha : g.ackf = true)
    (hd : diff g.ack s.una > s.buf.length) : AcksFin s0 g := by
  refine ⟨ha, fun a b => ?_⟩
  obtain ⟨_, h⟩ := h a b
  rcases h with ⟨d, hd', _, hb, hu⟩ | ⟨g', r', hev', _, _, _, hu, _, _⟩
  · have : d = [] := by
      rcases hd' with q | q
      · exact q
      · rw [q.1, hev]; rfl
    rw [hb, hu, this, List.append_nil] at hd
    exact hd
  · rw [hev] at hev'
    obtain ⟨rfl, rfl⟩ := Ev.seg.inj hev'
    have : diff g.ack g.ack = 0 := by unfold diff; simp
    rw [hu, this] at hd
    omega

theorem legal_trans {x y : St} (h : Rel ev s0 s) (l : Legal ev s0 s x y) : Trans s0 ev x y := by
  cases l with
  | closeEst e _ => subst e; exact .closeEst
  | closeWait e _ => subst e; exact .closeWait
  | closeListen e => subst e; exact .closeListen
  | synAck _ e a b c d q =>
    subst e
    simp only [seqGT, seqLEQ, decide_eq_true_eq] at c d
    rcases q with q | q
    · subst q; exact .synAck a b (by omega) d
    · obtain ⟨rfl, q⟩ := q; exact .synAckFin a b (by omega) d q
  | syn e a b => subst e; exact .syn a b
  | estab _ e a b c q =>
    subst e
    simp only [seqGT, seqLEQ, decide_eq_true_eq] at b c
    rcases q with q | q
    · subst q; exact .estab ⟨a, by omega, c⟩
    · obtain ⟨rfl, q⟩ := q; exact .estabFin ⟨a, by omega, c⟩ q
  | finAcked1 e a b =>
    have := rel_acksFin h e a b
    subst e; exact .finAcked1 this
  | finAcked2 e a b =>
    have := rel_acksFin h e a b
    subst e; exact .finAcked2 this
  | finRcvd _ _ e a q =>
    subst e
    rcases q with ⟨q | q, q'⟩ | ⟨q, q'⟩ | ⟨q, q'⟩ <;> subst q <;> subst q'
    · exact .fin0 a
    · exact .fin1 a
    · exact .fin2 a
    · exact .fin3 a
  | reset _ e a b => subst e; exact .reset a b
  | synDrop _ e a b => subst e; exact .synDrop a b
  | drop _ e a => subst e; exact .drop a

theorem mv_path (m : Mv ev s0 s p t) : Rel ev s0 s → Path (Trans s0 ev) s.st t.st := by
  induction m with
  | cat m1 m2 ih1 ih2 => exact fun h => (ih1 h).trans (ih2 (mv_rel m1 h))
  | pass s e _ _ => intro _; rw [(pass_frame s e).st]; exact .refl _
  | note h => intro _; rw [h.st]; exact .refl _
  | state s y l => exact fun h => .step (.refl _) (legal_trans h l)
  | _ => exact fun _ => .refl _

/-- **C90.** Whatever arrives, the state of the connection changes only along the transitions of the protocol, each with
its trigger. -/
theorem state_follows_protocol (s : Tcb) (ev : Ev) : Path (Trans s ev) s.st (step s ev).1.st :=
  mv_path (step_mv s ev) (rel_refl ev s)

/-- **C90.** No writing, reading or timer other than the last changes the state. -/
theorem state_fixed (s : Tcb) (ev : Ev) (h1 : ∀ g r, ev ≠ .seg g r) (h2 : ∀ es, ev ≠ .close es) (h3 : ∀ es, ev ≠ .drop es) :
    (step s ev).1.st = s.st := by
  have : ∀ x y, Path (Trans s ev) x y → y = x := by
    intro x y p
    induction p with
    | refl => rfl
    | step _ r _ =>
      cases r <;> first | exact absurd rfl (h1 _ _) | exact absurd rfl (h2 _) | exact absurd rfl (h3 _)
  exact this _ _ (state_follows_protocol s ev)

/-- **C90.** No segment opens a connection that is being closed: without our closing again, ESTABLISHED is entered only
from the handshake, and CLOSE_WAIT only from the handshake or ESTABLISHED. -/
theorem established_from_handshake (s : Tcb) (ev : Ev) (h : (step s ev).1.st = .established) :
    s.st = .established ∨ s.st = .synSent ∨ s.st = .synRcvd := by
  have : ∀ x y, Path (Trans s ev) x y → (y = .established ∨ y = .synSent ∨ y = .synRcvd) →
      (x = .established ∨ x = .synSent ∨ x = .synRcvd) := by
    intro x y p
    induction p with
    | refl => exact fun h => h
    | step _ r ih =>
      intro hz
      apply ih
      cases r <;> first | (simp; done) | (rcases hz with q | q | q <;> simp at q)
  exact this _ _ (state_follows_protocol s ev) (.inl h)

/-- The handshake and an orderly close from our side. -/
example : (run demoSyn [.rcvd [envOk], .seg { ackSeg 5000 1001 100 with syn := true } (renv [envOk])]).1.st = .established ∧
    (run demo demoFin).1.st = .finWait2 ∧
    (run demo (demoFin ++ [.seg { ackSeg 5001 1004 100 with fin := true } { renv [envOk] with finUp := true }])).1.st = .timeWait := by
  decide +kernel

/-- The peer closes first, then we. -/
example : (run demo [.seg { ackSeg 5001 1001 100 with fin := true } { renv [envOk] with finUp := true }]).1.st = .closeWait ∧
    (run demo [.seg { ackSeg 5001 1001 100 with fin := true } { renv [envOk] with finUp := true }, .close [envOk]]).1.st = .lastAck ∧
    (run demo [.seg { ackSeg 5001 1001 100 with fin := true } { renv [envOk] with finUp := true }, .close [envOk],
      .seg (ackSeg 5002 1002 100) (renv [envOk])]).1.dead = true := by
  decide +kernel

/-! ## C88: what ends a connection -/

/-- Reasons for a connection to end, by the event and the connection it meets. -/
inductive MayEnd (s : Tcb) : Ev → Prop where
  | user {es} : s.st = .closed ∨ s.st = .listen → MayEnd s (.close es)
  /-- Keep-alive or retransmission limit, linger 0. -/
  | dropped {es} : MayEnd s (.drop es)
  /-- A RST that acknowledges our SYN. -/
  | refused {g r} : s.st = .synSent → g.rst = true → g.ackf = true → 0 < diff g.ack s.iss → diff g.ack s.max ≤ 0 →
      MayEnd s (.seg g r)
  /-- A RST in the receive window; in ESTABLISHED, unless configured otherwise, at most one off the expected number. -/
  | reset {g r} : s.st ≠ .synSent → g.rst = true → 0 ≤ diff g.seq (s.lastAckSent - 1) →
      diff g.seq (s.lastAckSent + BitVec.ofNat 32 (rcvWnd s r)) ≤ 0 →
      (s.st = .established → r.insecureRst = false →
        0 ≤ diff g.seq (s.rcvNxt - 1) ∧ diff g.seq (s.rcvNxt + 1) ≤ 0 ∨
        0 ≤ diff g.seq (s.lastAckSent - 1) ∧ diff g.seq (s.lastAckSent + 1) ≤ 0) → MayEnd s (.seg g r)
  /-- A SYN in the receive window. -/
  | syn {g r} : s.st ≠ .synSent → g.rst = false → g.syn = true → SynIn s g r → MayEnd s (.seg g r)
  /-- Text for a socket without descriptor. -/
  | text {g r} : g.rst = false → r.noFd = true → g.tlen ≠ 0 → s.st.num > 5 → MayEnd s (.seg g r)
  /-- Both sides have closed and our FIN is acknowledged. -/
  | done {g r} : (s.st = .finWait2 ∨ s.st = .timeWait ∨ AcksFin s g) → (s.st = .closing ∨ s.st = .lastAck ∨ s.st = .timeWait ∨ r.finUp = true) →
      s.st ≠ .established → s.st ≠ .closeWait → MayEnd s (.seg g r)

/-- On the way to TIME_WAIT our FIN was acknowledged and the peer's received; what is known of the intermediate states. -/
def Way (s : Tcb) (g : Seg) (r : REnv) (x : St) : Prop :=
  (x = .finWait1 → s.st = .finWait1 ∨ s.st = .synSent ∨ s.st = .synRcvd) ∧
  (x = .established → s.st = .established ∨ s.st = .synSent ∨ s.st = .synRcvd) ∧
  (x = .finWait2 → s.st = .finWait2 ∨ AcksFin s g ∧ (s.st = .finWait1 ∨ s.st = .synSent ∨ s.st = .synRcvd)) ∧
  (x = .closing → s.st = .closing ∨ r.finUp = true ∧ (s.st = .finWait1 ∨ s.st = .synSent ∨ s.st = .synRcvd)) ∧
  (x = .timeWait → s.st = .timeWait ∨ (s.st = .finWait2 ∨ AcksFin s g) ∧ (s.st = .closing ∨ r.finUp = true) ∧
    s.st ≠ .established ∧ s.st ≠ .closeWait) ∧
  (x = .synRcvd → s.st = .synRcvd ∨ s.st = .synSent) ∧ (x = .synSent → s.st = .synSent) ∧
  (x = .lastAck → s.st = .lastAck)

theorem way_path {g : Seg} {r : REnv} {x : St} (q : Path (Trans s (.seg g r)) s.st x) : Way s g r x := by
  induction q with
  | refl => unfold Way; refine ⟨?_, ?_, ?_, ?_, ?_, ?_, ?_, ?_⟩ <;> intro h <;> simp [h]
  | step _ t ih =>
    obtain ⟨a, b, c, d, e, f, i, j⟩ := ih
    unfold Way
    cases t with
    | synAck => simp; exact .inr (.inl (i rfl))
    | synAckFin => simp; exact .inr (.inl (i rfl))
    | syn => simp; exact .inr (i rfl)
    | estab => simp; rcases f rfl with q | q <;> simp [q]
    | estabFin => simp; rcases f rfl with q | q <;> simp [q]
    | finAcked1 h => simp; exact .inr ⟨h, a rfl⟩
    | finAcked2 h =>
      simp
      right
      rcases d rfl with q | ⟨q, q'⟩
      · simp [q, h]
      · refine ⟨.inr h, .inr q, ?_⟩
        rcases q' with q' | q' | q' <;> simp [q']
    | fin0 => simp
    | fin1 => simp
    | fin2 h => simp; exact .inr ⟨h, a rfl⟩
    | fin3 h =>
      simp
      right
      rcases c rfl with q | ⟨q, q'⟩
      · simp [q, h]
      · refine ⟨.inr q, .inr h, ?_⟩
        rcases q' with q' | q' | q' <;> simp [q']
    | reset => simp
    | synDrop => simp

theorem mv_dead' (m : Mv ev s0 s p t) : Rel ev s0 s → Path (Trans s0 ev) s0.st s.st → s.dead = false → t.dead = true →
    ∃ u, Ends ev s0 u ∧ Rel ev s0 u ∧ Path (Trans s0 ev) s0.st u.st := by
  induction m with
  | nil s => intro _ _ a b; rw [a] at b; exact absurd b (by simp)
  | cat m1 m2 ih1 ih2 =>
    rename_i b _ _ _
    intro hr hp h h'
    cases x : b.dead with
    | true => exact ih1 hr hp h x
    | false => exact ih2 (mv_rel m1 hr) (hp.trans (mv_path m1 hr)) x h'
  | pass s e _ _ => intro _ _ a b; rw [(pass_frame s e).dead, a] at b; exact absurd b (by simp)
  | note h => intro _ _ a b; rw [h.dead, a] at b; exact absurd b (by simp)
  | kill s h => exact fun hr hp _ _ => ⟨s, h, hr, hp⟩
  | _ => intro _ _ a b; rw [a] at b; exact absurd b (by simp)

/-- **C88.** A live connection ends only for one of the listed reasons. -/
theorem ends_only_for_reason (s : Tcb) (ev : Ev) (h : s.dead = false) (h' : (step s ev).1.dead = true) : MayEnd s ev := by
  obtain ⟨u, he, hr, hp⟩ := mv_dead' (step_mv s ev) (rel_refl ev s) (.refl _) h h'
  cases he with
  | user e a => subst e; exact .user a
  | drop e => subst e; exact .dropped
  | refused e a b c d f => subst e; exact .refused a b c (by simpa [seqGT] using d) (by simpa [seqLEQ] using f)
  | reset e a b c d f =>
    subst e
    refine .reset a b (by simpa [seqGEQ] using c) (by simpa [seqLEQ] using d) ?_
    intro x y
    simpa [seqGEQ, seqLEQ] using f x y
  | syn e a b c d _ => subst e; exact .syn a b c d
  | text e _ b c d f => subst e; exact .text b c f d
  | done e a =>
    subst e
    rw [a] at hp
    rcases (way_path hp).2.2.2.2.1 rfl with q | ⟨q, q', q''⟩
    · exact .done (.inr (.inl q)) (.inr (.inr (.inl q))) (by rw [q]; decide) (by rw [q]; decide)
    · refine .done ?_ ?_ q''.1 q''.2
      · rcases q with q | q <;> simp [q]
      · rcases q' with q' | q' <;> simp [q']
  | last e a b c =>
    have := rel_acksFin hr e a b
    subst e
    rw [c] at hp
    have q := (way_path hp).2.2.2.2.2.2.2 rfl
    exact .done (.inr (.inr this)) (.inr (.inl q)) (by rw [q]; decide) (by rw [q]; decide)

/-- **C88**, converse for resets: a RST at the expected sequence number ends every synchronised connection. -/
theorem reset_ends (s : Tcb) (g : Seg) (r : REnv) (h1 : s.dead = false) (h2 : s.hung = false)
    (h3 : s.st.num ≥ 3) (h4 : s.st ≠ .timeWait) (hr : g.rst = true) (hq : g.seq = s.lastAckSent)
    (ha : s.st = .synRcvd → g.ackf = false) (hw : rcvWnd s r < 2 ^ 31) :
    (step s (.seg g r)).1.dead = true ∧ (step s (.seg g r)).2 = [] := by
  have hp : predOk s g r = false := by unfold predOk; rw [hr]; simp
  have e1 : seqGEQ g.seq (s.lastAckSent - 1) = true := by
    rw [hq]; unfold seqGEQ diff
    have : s.lastAckSent - (s.lastAckSent - 1) = 1#32 := by bv_omega
    rw [this]; decide
  have e2 : seqLEQ g.seq (s.lastAckSent + BitVec.ofNat 32 (rcvWnd s r)) = true := by
    rw [hq]; unfold seqLEQ diff
    have : s.lastAckSent - (s.lastAckSent + BitVec.ofNat 32 (rcvWnd s r)) = - BitVec.ofNat 32 (rcvWnd s r) := by
      generalize BitVec.ofNat 32 (rcvWnd s r) = x; bv_omega
    rw [this]
    generalize rcvWnd s r = n at *
    rw [BitVec.toInt_neg]
    have : (BitVec.ofNat 32 n).toInt = n := by
      rw [BitVec.toInt_eq_toNat_of_lt]
      · simp; omega
      · simp; omega
    rw [this]
    simp only [decide_eq_true_eq]
    rw [Int.bmod_def]; split <;> omega
  have e3 : seqLEQ g.seq (s.lastAckSent + 1) = true := by
    rw [hq]; unfold seqLEQ diff
    have : s.lastAckSent - (s.lastAckSent + 1) = 0#32 - 1#32 := by bv_omega
    rw [this]; decide
  unfold step
  rw [if_neg (by simp [h1, h2])]
  simp only
  unfold doSegment
  simp only [hp, Bool.false_and, Bool.false_eq_true, if_false]
  have hs : (decide (s.st = .synRcvd) && g.ackf && (seqLEQ g.ack s.una || seqGT g.ack s.max)) = false := by
    by_cases c : s.st = .synRcvd
    · rw [ha c]; simp
    · simp [c]
  have e2' : seqLEQ g.seq (s.lastAckSent + BitVec.ofNat 32 (Nat.max r.space (diff s.rcvAdv s.rcvNxt).toNat)) = true := e2
  rw [if_neg (by rw [hs]; simp), if_neg (by intro c; rw [c] at h3; exact absurd h3 (by decide)), if_pos hr]
  refine ⟨?_, rfl⟩
  unfold rstBlk
  rw [if_pos (by rw [e1, e2']; rfl)]
  cases hst : s.st <;> rw [hst] at h3 h4 <;> first | exact absurd h3 (by decide) | exact absurd rfl h4 | skip
  all_goals first | (rw [e1, e3]; simp [tcpClose]; done) | simp [tcpClose]

example : (step demo (.seg { ackSeg 5001 0 0 with rst := true } (renv []))).1.dead = true := by decide +kernel

/-- A blind RST elsewhere in the window, and one outside, do nothing to an established connection. -/
example : (step demo (.seg { ackSeg 5010 0 0 with rst := true } (renv []))).1 = demo ∧
    (step demo (.seg { ackSeg 4000 0 0 with rst := true } (renv []))).1 = demo := by decide +kernel

/-- An in-window SYN ends it. -/
example : (step demo (.seg { ackSeg 5010 1001 0 with syn := true } (renv [envOk]))).1.dead = true := by decide +kernel

/-! ## C91: timers -/

/-- **C91.** The retransmission and the persist timer are never both running, in any history. -/
theorem timers_exclusive (h : Hist s0 s ps) : s.rexmt = false ∨ s.persist = false := by
  induction h with
  | nil h => exact .inl h.timers.1
  | snoc ev _ _ _ ih => exact mv_timers (step_mv _ ev) ih

example : (run demo demoRun).1.rexmt = true := by decide +kernel
example : (run { demo with wnd := 0 } [.write [10] [envOk]]).1.persist = true := by decide +kernel

end
end Verif.Snd

import Verif.Snd.Step
import Mathlib.Tactic.Tauto
/-!
# Every event is a sequence of elementary moves

`Mv ev s0` decomposes the handling of event `ev`, begun in state `s0`, into passes of `ofp_tcp_output` and elementary
changes, each with the condition under which the code makes it.  It is proved once for all states and events
(`step_mv`); the properties of `Props.lean` follow by induction over it.
-/
namespace Verif.Snd
open Verif.Tcp

/-- Discharge a frame or `Core` goal. -/
local macro "core" : tactic =>
  `(tactic| (constructor <;> first | rfl | (intro h; exact .inl h) | (intro h; exact .inr rfl) | (intro h; exact absurd h (by simp))))

/-- Same connection state, sequence space, buffer, timers; the rest is bookkeeping. -/
structure Core (s t : Tcb) : Prop where
  st : t.st = s.st
  iss : t.iss = s.iss
  una : t.una = s.una
  max : t.max = s.max
  buf : t.buf = s.buf
  sentFin : t.sentFin = s.sentFin
  noopt : t.noopt = s.noopt
  sackPermit : t.sackPermit = s.sackPermit
  rexmt : t.rexmt = s.rexmt
  persist : t.persist = s.persist
  cantSend : t.cantSend = s.cantSend
  dead : t.dead = s.dead
  hung : t.hung = s.hung
  written : t.written = s.written
  squeezed : t.squeezed = s.squeezed
  finProbe : t.finProbe = s.finProbe
  needFin : t.needFin = true → s.needFin = true ∨ s.cantSend = true

/-- Receive window used for the checks of a segment (src/ofp_tcp_input.c:1756-1760). -/
def rcvWnd (s : Tcb) (r : REnv) : Nat := Nat.max r.space (diff s.rcvAdv s.rcvNxt).toNat

/-- When the handling of `ev`, begun in `s0`, may move the connection from state `x` to state `y`; `s` is the current
state (its buffer, first unacknowledged sequence number and shutdown flag matter). -/
inductive Legal (ev : Ev) (s0 s : Tcb) : St → St → Prop where
  | closeEst {es} : ev = .close es → s.cantSend = true → Legal ev s0 s .established .finWait1
  | closeWait {es} : ev = .close es → s.cantSend = true → Legal ev s0 s .closeWait .lastAck
  | closeListen {es} : ev = .close es → Legal ev s0 s .listen .closed
  | synAck {g r} (y) : ev = .seg g r → g.syn = true → g.ackf = true → seqGT g.ack s0.iss = true →
      seqLEQ g.ack s0.max = true → (y = .established ∨ y = .finWait1 ∧ s0.needFin = true) → Legal ev s0 s .synSent y
  | syn {g r} : ev = .seg g r → g.syn = true → g.ackf = false → Legal ev s0 s .synSent .synRcvd
  | estab {g r} (y) : ev = .seg g r → g.ackf = true → seqGT g.ack s0.una = true → seqLEQ g.ack s0.max = true →
      (y = .established ∨ y = .finWait1 ∧ s0.needFin = true) → Legal ev s0 s .synRcvd y
  | finAcked1 {g r} : ev = .seg g r → g.ackf = true → diff g.ack s.una > s.buf.length → Legal ev s0 s .finWait1 .finWait2
  | finAcked2 {g r} : ev = .seg g r → g.ackf = true → diff g.ack s.una > s.buf.length → Legal ev s0 s .closing .timeWait
  | finRcvd {g r} (x y) : ev = .seg g r → r.finUp = true →
      ((x = .synRcvd ∨ x = .established) ∧ y = .closeWait ∨ x = .finWait1 ∧ y = .closing ∨ x = .finWait2 ∧ y = .timeWait) →
      Legal ev s0 s x y
  | reset {g r} (x) : ev = .seg g r → g.rst = true → s0.st ≠ .synSent → Legal ev s0 s x .closed
  | synDrop {g r} (x) : ev = .seg g r → g.syn = true → x.num ≥ 3 → Legal ev s0 s x .closed
  | drop {es} (x) : ev = .drop es → x.num ≥ 3 → Legal ev s0 s x .closed

/-- The sequence number of the segment is in the receive window: at or after `rcv_nxt`, and before the right edge (or
at `rcv_nxt` when the window is closed). -/
def SynIn (s : Tcb) (g : Seg) (r : REnv) : Prop :=
  diff s.rcvNxt g.seq ≤ 0 ∧
  (diff (g.seq + BitVec.ofNat 32 g.tlen) (s.rcvNxt + BitVec.ofNat 32 (rcvWnd s r)) ≤ 0 ∨
   diff (g.seq + BitVec.ofNat 32 g.tlen) (s.rcvNxt + BitVec.ofNat 32 (rcvWnd s r)) < g.tlen ∨
   rcvWnd s r = 0 ∧ g.seq = s.rcvNxt)

/-- Why the handling of `ev`, begun in `s0`, may end the connection; `s` is the current state. -/
inductive Ends (ev : Ev) (s0 s : Tcb) : Prop where
  /-- The user closes a connection that is not yet, or no longer, one. -/
  | user {es} : ev = .close es → (s0.st = .closed ∨ s0.st = .listen) → Ends ev s0 s
  /-- Keep-alive, retransmission limit, linger. -/
  | drop {es} : ev = .drop es → Ends ev s0 s
  /-- RST answering our SYN. -/
  | refused {g r} : ev = .seg g r → s0.st = .synSent → g.rst = true → g.ackf = true → seqGT g.ack s0.iss = true →
      seqLEQ g.ack s0.max = true → Ends ev s0 s
  /-- RST in the window. -/
  | reset {g r} : ev = .seg g r → s0.st ≠ .synSent → g.rst = true → seqGEQ g.seq (s0.lastAckSent - 1) = true →
      seqLEQ g.seq (s0.lastAckSent + BitVec.ofNat 32 (rcvWnd s0 r)) = true →
      (s0.st = .established → r.insecureRst = false →
        seqGEQ g.seq (s0.rcvNxt - 1) = true ∧ seqLEQ g.seq (s0.rcvNxt + 1) = true ∨
        seqGEQ g.seq (s0.lastAckSent - 1) = true ∧ seqLEQ g.seq (s0.lastAckSent + 1) = true) → Ends ev s0 s
  /-- SYN in the window of a synchronised connection. -/
  | syn {g r} : ev = .seg g r → s0.st ≠ .synSent → g.rst = false → g.syn = true → SynIn s0 g r →
      (s.st = .closed ∨ s.st.num < 3) → Ends ev s0 s
  /-- Text for a socket that the application has closed. -/
  | text {g r} : ev = .seg g r → s0.st ≠ .synSent → g.rst = false → r.noFd = true → s0.st.num > 5 → g.tlen ≠ 0 → Ends ev s0 s
  /-- Both FINs acknowledged, or the peer's FIN after ours was acknowledged. -/
  | done {g r} : ev = .seg g r → s.st = .timeWait → Ends ev s0 s
  /-- Our FIN acknowledged in LAST_ACK. -/
  | last {g r} : ev = .seg g r → g.ackf = true → diff g.ack s.una > s.buf.length → s.st = .lastAck → Ends ev s0 s

/-- The moves.  Changes that the code makes between two passes of the loop may be listed in another order. -/
inductive Mv (ev : Ev) (s0 : Tcb) : Tcb → List Pkt → Tcb → Prop where
  | nil (s) : Mv ev s0 s [] s
  | cat {a b c p q} : Mv ev s0 a p b → Mv ev s0 b q c → Mv ev s0 a (p ++ q) c
  /-- A pass of the `again` loop. -/
  | pass (s e) : e ∈ ev.envs → s.dead = false → Mv ev s0 s (pass s e).2.1.toList (pass s e).1
  /-- The environment list ends inside the loop. -/
  | hang (s) : Mv ev s0 s [] { s with hung := true }
  | note {s t} : Core s t → Mv ev s0 s [] t
  /-- The socket layer takes data, before anything else. -/
  | take (s d) : s = s0 → ev.bytes = d → s0.cantSend = false → Mv ev s0 s [] { s with buf := s.buf ++ d, written := s.written ++ d }
  | shut (s) {es} : ev = .close es → Mv ev s0 s [] { s with cantSend := true }
  | rexOff (s) : Mv ev s0 s [] { s with rexmt := false }
  | rexOn (s) : s.persist = false → Mv ev s0 s [] { s with rexmt := true }
  /-- The peer acknowledges something new. -/
  | acked (s) {g r} : ev = .seg g r → g.ackf = true →
      (s0.st ≠ .synSent → seqGT g.ack s0.una = true) → (s0.st = .synSent → seqGT g.ack s0.iss = true) →
      seqLEQ g.ack s0.max = true →
      Mv ev s0 s [] { s with buf := s.buf.drop (diff g.ack s.una).toNat, una := g.ack }
  /-- The SYN is acknowledged. -/
  | synAcked (s) : s0.st = .synSent ∨ s0.needSyn = true → Mv ev s0 s [] { s with una := s.una + 1 }
  | state (s) (y : St) : Legal ev s0 s s.st y → Mv ev s0 s [] { s with st := y }
  | kill (s) : Ends ev s0 s → Mv ev s0 s [] { s with dead := true }

section
variable {ev : Ev} {s0 s t u : Tcb} {p q : List Pkt}

theorem Mv.pre (h : Core s t) (m : Mv ev s0 t p u) : Mv ev s0 s p u := Mv.cat (.note h) m
theorem Mv.post (m : Mv ev s0 s p t) (h : Core t u) : Mv ev s0 s p u := by
  have := Mv.cat m (.note h); rwa [List.append_nil] at this
theorem Mv.first {v : Tcb} (m : Mv ev s0 s [] t) (n : Mv ev s0 t p v) : Mv ev s0 s p v := Mv.cat m n
theorem Mv.last {v : Tcb} (m : Mv ev s0 s p t) (n : Mv ev s0 t [] v) : Mv ev s0 s p v := by
  have := Mv.cat m n; rwa [List.append_nil] at this

theorem sendSeg_frame (s : Tcb) (e : Env) (w : W) : Frame s (sendSeg s e w).1 := by
  have h1 : Frame s (reIss s w) := by unfold reIss; split <;> core
  unfold sendSeg
  simp only
  split
  · exact h1.trans (postBlk_frame _ e)
  · have a : ∀ x w', Frame x (unFin x w') := by intro x w'; unfold unFin; split <;> core
    have b : ∀ x w', Frame x (unSent x e w') := by intro x w'; unfold unSent; split <;> core
    exact ((((h1.trans (a _ _)).trans (advance_frame _ _)).trans (b _ _)).trans (postBlk_frame _ e))

theorem pass_frame (s : Tcb) (e : Env) : Frame s (pass s e).1 := by
  unfold pass
  simp only
  split
  · exact (prep_frame s e).trans (sendSeg_frame _ e _)
  · exact (prep_frame s e).trans (idleBlk_frame _)

theorem loop_frame (es : List Env) : ∀ s : Tcb, Frame s (outputLoop s es).1 := by
  induction es with
  | nil => intro s; core
  | cons e es ih =>
    intro s; unfold outputLoop; split
    · exact (pass_frame s e).trans (ih _)
    · exact pass_frame s e

theorem output_frame (s : Tcb) (es : List Env) : Frame s (output s es).1 := by
  unfold output; split
  · exact Frame.refl s
  · exact loop_frame es s

theorem mv_loop (es : List Env) : ∀ s : Tcb, (∀ e ∈ es, e ∈ ev.envs) → s.dead = false →
    Mv ev s0 s (outputLoop s es).2 (outputLoop s es).1 := by
  induction es with
  | nil => intro s _ _; exact .hang s
  | cons e es ih =>
    intro s he hd
    have m : Mv ev s0 s (pass s e).2.1.toList (pass s e).1 := .pass s e (he e (by simp)) hd
    unfold outputLoop
    split
    · exact .cat m (ih _ (fun x hx => he x (by simp [hx])) (by rw [(pass_frame s e).dead, hd]))
    · exact m

theorem mv_output (es : List Env) (s : Tcb) (he : ∀ e ∈ es, e ∈ ev.envs) (hd : s.dead = false) :
    Mv ev s0 s (output s es).2 (output s es).1 := by
  unfold output; split
  · exact .nil s
  · exact mv_loop es s he hd

theorem mv_drop (es : List Env) (s : Tcb) (he : ∀ e ∈ es, e ∈ ev.envs) (hd : s.dead = false)
    (hl : s.st.num ≥ 3 → Legal ev s0 s s.st .closed)
    (hk : ∀ t : Tcb, (s.st.num ≥ 3 → t.st = .closed) → (¬ s.st.num ≥ 3 → t = s) → Ends ev s0 t) :
    Mv ev s0 s (tcpDrop s es).2 (tcpDrop s es).1 := by
  unfold tcpDrop
  split
  · rename_i c
    refine .first (.state s .closed (hl c)) (.last (mv_output es _ he (by exact hd)) (.kill _ (hk _ (fun _ => ?_) (fun d => absurd c d))))
    exact (output_frame _ es).st
  · rename_i c
    exact .kill s (hk _ (fun d => absurd d c) (fun _ => rfl))


theorem ackNew_same (s : Tcb) (g : Seg) (k : Int) (al : Bool) (hal : al = true → k > s.buf.length) :
    Core { s with buf := s.buf.drop k.toNat, una := g.ack } (ackNew s g k al) := by
  cases al with
  | false => core
  | true =>
    have : s.buf.drop s.buf.length = s.buf.drop k.toNat := by
      have := hal rfl
      rw [List.drop_eq_nil_of_le (Nat.le_refl _), List.drop_eq_nil_of_le (by omega)]
    constructor <;> first | rfl | exact this | exact .inl

theorem mv_processAck (s : Tcb) {g g' : Seg} {r : REnv} (hev : ev = .seg g' r) (hg : g.ack = g'.ack)
    (ha : g'.ackf = true) (h1 : s0.st ≠ .synSent → seqGT g.ack s0.una = true)
    (h2 : s0.st = .synSent → seqGT g.ack s0.iss = true) (h3 : seqLEQ g.ack s0.max = true) :
    Mv ev s0 s [] (processAck s g).1 ∧ ((processAck s g).2 ≠ .stop → (processAck s g).1.dead = s.dead) := by
  have mt : Mv ev s0 s [] (ackTimer s g) ∧ (ackTimer s g).dead = s.dead ∧ (ackTimer s g).una = s.una := by
    unfold ackTimer
    split
    · exact ⟨.rexOff s, rfl, rfl⟩
    · split
      · rename_i c; exact ⟨.rexOn s (by simpa using c), rfl, rfl⟩
      · exact ⟨.nil s, rfl, rfl⟩
  unfold processAck
  simp only
  generalize ackTimer s g = s1 at *
  obtain ⟨m1, d1, u1⟩ := mt
  rw [← d1, ← u1]
  split
  · exact ⟨m1, fun _ => rfl⟩
  generalize hal : decide (diff g.ack s1.una > (s1.buf.length : Int)) = al
  generalize hk : diff g.ack s1.una = k
  have c := ackNew_same s1 g k al (by intro h; rw [h] at hal; rw [← hk]; simpa using hal)
  have cm : ∀ x : Tcb, x.una = s1.una → x.buf = s1.buf →
      Mv ev s0 x [] { x with buf := x.buf.drop k.toNat, una := g.ack } := by
    intro x e1 e2
    have := Mv.acked (s0 := s0) x hev ha (by rw [← hg]; exact h1) (by rw [← hg]; exact h2) (by rw [← hg]; exact h3)
    rw [← hg, e1, hk] at this; exact this
  have hd : (ackNew s1 g k al).dead = s1.dead := c.dead
  have hfin : ∀ x : St, al = true → diff g'.ack s1.una > s1.buf.length := by
    intro x h; rw [h] at hal; rw [← hg]; simpa using hal
  have wrap : ∀ (t : Tcb) (y : St) (d : Bool), t = { ackNew s1 g k al with st := y, dead := d } →
      Mv ev s0 s1 [] { s1 with st := y, dead := d } → Mv ev s0 s [] t := by
    intro t y d ht m
    refine .first m1 (.first m (.post (cm _ rfl rfl) ?_))
    subst ht
    exact ⟨rfl, c.iss, c.una, c.max, c.buf, c.sentFin, c.noopt, c.sackPermit, c.rexmt, c.persist, c.cantSend, rfl,
      c.hung, c.written, c.squeezed, c.finProbe, c.needFin⟩
  have hst : (ackNew s1 g k al).st = s1.st := c.st
  unfold ackFin
  rw [hst]
  split
  · rename_i q
    simp only [Bool.and_eq_true, decide_eq_true_eq] at q
    refine ⟨wrap _ .finWait2 s1.dead (by rw [← hd]) (.state s1 .finWait2 ?_), fun _ => hd⟩
    rw [q.1]; exact .finAcked1 hev ha (hfin .closed q.2)
  · split
    · rename_i q
      simp only [Bool.and_eq_true, decide_eq_true_eq] at q
      refine ⟨wrap _ .timeWait true rfl (.first (.state s1 .timeWait ?_) (.kill _ (.done hev rfl))), fun h => absurd rfl h⟩
      rw [q.1]; exact .finAcked2 hev ha (hfin .closed q.2)
    · split
      · rename_i q
        simp only [Bool.and_eq_true, decide_eq_true_eq] at q
        refine ⟨wrap _ s1.st true (by rw [← hst]; rfl) (.kill _ (.last hev ha (hfin .closed q.2) q.1)), fun h => absurd rfl h⟩
      · refine ⟨wrap _ s1.st s1.dead (by rw [← hst, ← hd]) (.nil s1), fun _ => hd⟩

theorem mv_dupAck (s : Tcb) (g : Seg) (r : REnv) (he : ∀ e ∈ r.es1, e ∈ ev.envs) (hd : s.dead = false) :
    Mv ev s0 s (dupAck s g r).2.1 (dupAck s g r).1 ∧ (dupAck s g r).1.dead = s.dead := by
  unfold dupAck
  split
  · split
    · exact ⟨.note (by core), rfl⟩
    · simp only
      split
      · exact ⟨.pre (t := { s with dupacks := s.dupacks + 1 }) (by core) (mv_output _ _ he hd), (output_frame _ _).dead⟩
      · split
        · split
          · exact ⟨.note (by core), rfl⟩
          · refine ⟨.first (.rexOff s) (.pre ?_ (.post (mv_output r.es1 { s with dupacks := s.dupacks + 1, rexmt := false, nxt := g.ack, recover := s.max, fastrec := true } he hd) ?_)), (output_frame { s with dupacks := s.dupacks + 1, rexmt := false, nxt := g.ack, recover := s.max, fastrec := true } r.es1).dead⟩
            · core
            · core
        · split
          · exact ⟨.pre (t := { s with dupacks := s.dupacks + 1 }) (by core) (mv_output _ _ he hd), (output_frame _ _).dead⟩
          · exact ⟨.note (by core), rfl⟩
  · exact ⟨.note (by core), rfl⟩

theorem mv_partialAck (s : Tcb) (g : Seg) (r : REnv) (he : ∀ e ∈ r.es1, e ∈ ev.envs) (hd : s.dead = false) :
    Mv ev s0 s (partialAck s g r).2 (partialAck s g r).1 ∧ (partialAck s g r).1.dead = s.dead ∧
    (partialAck s g r).1.needSyn = s.needSyn := by
  unfold partialAck
  split
  · split
    · exact ⟨.first (.rexOff s) (.pre (t := { s with rexmt := false, acknow := true }) (by core) (mv_output _ _ he hd)),
        (output_frame _ _).dead, (output_frame _ _).needSyn⟩
    · simp only
      have f := output_frame { s with rexmt := false, nxt := g.ack, acknow := true } r.es1
      refine ⟨.first (.rexOff s) (.pre (t := { s with rexmt := false, nxt := g.ack, acknow := true }) (by core) (.post (mv_output _ _ he hd) (by core))),
        f.dead, f.needSyn⟩
  · exact ⟨.nil s, rfl, rfl⟩

/-- Continue with the last block. -/
theorem mv_step6 (s : Tcb) (g : Seg) {g' : Seg} {r : REnv} (hev : ev = .seg g' r) (need : Bool) (hd : s.dead = false) :
    Mv ev s0 s (step6 s g r need).2 (step6 s g r need).1 := by
  have he : ∀ e ∈ r.es2, e ∈ ev.envs := by
    intro e h; rw [hev]; exact List.mem_append.2 (.inr h)
  have cw : Core s (wndBlk s g).1 := by
    unfold wndBlk; split <;> core
  unfold step6
  simp only
  generalize (wndBlk s g).1 = p1 at *
  generalize (wndBlk s g).2 = w2 at *
  split
  · exact .note cw
  · have ct : Core p1 (textFin p1 g r).1 ∧ ((textFin p1 g r).2 = true → r.finUp = true) := by
      unfold textFin
      simp only
      generalize ((decide (g.tlen ≠ 0) || g.fin) && decide (p1.st ≠ .timeWait)) = tk
      constructor
      · cases tk with
        | false => core
        | true =>
          simp only [if_true, Bool.true_and]
          cases r.finUp <;> core
      · intro h; simp at h; exact h.2
    generalize (textFin p1 g r).1 = t1 at *
    generalize (textFin p1 g r).2 = f at *
    obtain ⟨ct, hf⟩ := ct
    have hd1 : t1.dead = false := by rw [ct.dead, cw.dead, hd]
    split
    · rename_i q
      simp only [Bool.and_eq_true, decide_eq_true_eq] at q
      refine .pre cw (.pre ct (.first (.state t1 .timeWait ?_) (.kill _ (.done hev rfl))))
      exact .finRcvd _ _ hev (hf q.1) (.inr (.inr ⟨q.2, rfl⟩))
    · have ms : Mv ev s0 t1 [] (finSt t1 f) ∧ (finSt t1 f).dead = t1.dead := by
        unfold finSt
        split
        · rename_i hf1
          split
          · rename_i q
            simp only [Bool.or_eq_true, decide_eq_true_eq] at q
            exact ⟨.state t1 .closeWait (.finRcvd _ _ hev (hf hf1) (.inl ⟨q, rfl⟩)), rfl⟩
          · split
            · rename_i q
              exact ⟨.state t1 .closing (.finRcvd _ _ hev (hf hf1) (.inr (.inl ⟨q, rfl⟩))), rfl⟩
            · exact ⟨.nil t1, rfl⟩
        · exact ⟨.nil t1, rfl⟩
      obtain ⟨ms, hd2⟩ := ms
      generalize finSt t1 f = s3 at *
      refine .pre cw (.pre ct (.first ms ?_))
      split
      · exact .post (mv_output r.es2 s3 he (by rw [hd2, hd1])) (by core)
      · exact .note (by core)

theorem mv_dropAfterAck (s : Tcb) (g : Seg) {g' : Seg} {r : REnv} (hev : ev = .seg g' r) (hd : s.dead = false) :
    Mv ev s0 s (dropAfterAck s g r).2 (dropAfterAck s g r).1 := by
  have he : ∀ e ∈ r.es2, e ∈ ev.envs := by
    intro e h; rw [hev]; exact List.mem_append.2 (.inr h)
  unfold dropAfterAck
  split
  · exact .nil s
  · exact .pre (t := { s with acknow := true }) (by core) (mv_output _ _ he hd)

theorem mv_afterAck {pk : Tcb × List Pkt × K} {g g' : Seg} {r : REnv} (hev : ev = .seg g' r)
    (m : Mv ev s0 s pk.2.1 pk.1) (hd : pk.2.2 ≠ .stop → pk.1.dead = false) :
    Mv ev s0 s (afterAck pk g r).2 (afterAck pk g r).1 := by
  unfold afterAck
  split
  · exact m
  · rename_i q
    exact .cat m (mv_dropAfterAck _ _ hev (hd (by rw [q]; simp)))
  · rename_i need q
    exact .cat m (mv_step6 _ _ hev _ (hd (by rw [q]; simp)))

theorem mv_ackBlk (s : Tcb) (g : Seg) {g' : Seg} {r : REnv} (hev : ev = .seg g' r) (hg : g.ack = g'.ack)
    (ha : g'.ackf = true) (hst : s.st = s0.st) (hss : s0.st ≠ .synSent) (hu : s.una = s0.una) (hm : s.max = s0.max)
    (hnf : s.needFin = s0.needFin) (hns : s.needSyn = s0.needSyn)
    (hsr : s0.st = .synRcvd → seqGT g.ack s0.una = true ∧ seqLEQ g.ack s0.max = true) (hd : s.dead = false) :
    Mv ev s0 s (ackBlk s g r).2.1 (ackBlk s g r).1 ∧ ((ackBlk s g r).2.2 ≠ .stop → (ackBlk s g r).1.dead = false) := by
  have he : ∀ e ∈ r.es1, e ∈ ev.envs := by
    intro e h; rw [hev]; exact List.mem_append.2 (.inl h)
  unfold ackBlk
  simp only
  generalize hs1 : (if s.st = .synRcvd then
      { s with wnd := if r.scaled then g.win else s.wnd, needFin := false,
               st := if s.needFin then .finWait1 else .established, wl1 := g.seq - 1 } else s) = s1
  have m1 : Mv ev s0 s [] s1 ∧ s1.dead = false ∧ s1.una = s0.una ∧ s1.max = s0.max ∧ s1.needSyn = s0.needSyn := by
    subst hs1
    split
    · rename_i c
      rw [hst] at c
      have k := hsr c
      rw [hg] at k
      refine ⟨?_, hd, hu, hm, hns⟩
      refine .first (.state s (if s.needFin then .finWait1 else .established) ?_) (.note (by core))
      rw [hst, c]
      refine .estab _ hev ha k.1 k.2 ?_
      cases q : s.needFin with
      | false => exact .inl rfl
      | true => exact .inr ⟨rfl, by rw [← hnf, q]⟩
    · exact ⟨.nil s, hd, hu, hm, hns⟩
  clear hs1
  obtain ⟨m1, d1, u1, x1, n1⟩ := m1
  split
  · exact ⟨m1, fun _ => d1⟩
  · rename_i c1
    split
    · exact ⟨.first m1 (mv_dupAck s1 g r he d1).1, fun _ => by rw [(mv_dupAck (s0 := s0) s1 g r he d1).2, d1]⟩
    · rename_i c2
      obtain ⟨mp, dp, np⟩ := mv_partialAck (s0 := s0) s1 g r he d1
      generalize partialAck s1 g r = pa at *
      split
      · exact ⟨.first m1 mp, fun h => absurd rfl h⟩
      · have l1 : seqGT g.ack s0.una = true := by
          rw [← u1]; unfold seqLEQ at c2; unfold seqGT; simp at c2 ⊢; omega
        have l2 : seqLEQ g.ack s0.max = true := by
          rw [← x1]; unfold seqGT at c1; unfold seqLEQ; simp at c1 ⊢; omega
        have m3 : Mv ev s0 pa.1 [] (if pa.1.needSyn then { pa.1 with dupacks := 0, needSyn := false, una := pa.1.una + 1 } else { pa.1 with dupacks := 0 }) ∧
            (if pa.1.needSyn then { pa.1 with dupacks := 0, needSyn := false, una := pa.1.una + 1 } else { pa.1 with dupacks := 0 }).dead = pa.1.dead := by
          split
          · rename_i q
            exact ⟨.first (.synAcked pa.1 (.inr (by rw [← n1, ← np, q]))) (.note (by core)), rfl⟩
          · exact ⟨.note (by core), rfl⟩
        generalize (if pa.1.needSyn = true then { pa.1 with dupacks := 0, needSyn := false, una := pa.1.una + 1 } else { pa.1 with dupacks := 0 }) = s3 at *
        obtain ⟨mq, dq⟩ := mv_processAck (s0 := s0) s3 hev hg ha (fun _ => l1) (fun h => absurd h hss) l2
        exact ⟨.first m1 (.last mp (.first m3.1 mq)), fun h => by rw [dq h, m3.2, dp, d1]⟩

theorem mv_synSent (s : Tcb) {g : Seg} {r : REnv} (w : Nat) (hev : ev = .seg g r) (hs0 : s = s0) (hst : s.st = .synSent)
    (hd : s.dead = false) : Mv ev s0 s (synSentBlk s g r w).2 (synSentBlk s g r w).1 := by
  have he : ∀ e ∈ r.es1, e ∈ ev.envs := by
    intro e h; rw [hev]; exact List.mem_append.2 (.inl h)
  unfold synSentBlk
  split
  · exact .nil s
  · rename_i c1
    have c1' : g.ackf = true → seqGT g.ack s.iss = true ∧ seqLEQ g.ack s.max = true := by
      intro q
      simp only [q, Bool.true_and, Bool.or_eq_true, not_or] at c1
      unfold seqLEQ seqGT at *; simp at c1 ⊢; omega
    split
    · rename_i c2
      split
      · rename_i c3
        have := c1' c3
        refine mv_drop _ _ he hd (fun q => absurd q (by rw [hst]; decide)) (fun t _ _ => ?_)
        subst hs0
        exact .refused hev hst c2 c3 this.1 this.2
      · exact .nil s
    · split
      · exact .nil s
      · rename_i c4
        have hsyn : g.syn = true := by simpa using c4
        simp only
        by_cases ca : g.ackf = true
        · rw [if_pos ca]
          obtain ⟨k1, k2⟩ := c1' ca
          have m3 : Mv ev s0 s [] (synSentOn s g r w) ∧ (synSentOn s g r w).dead = s.dead := by
            unfold synSentOn
            rw [if_pos ca]
            refine ⟨.first (.state s (if s.needFin then .finWait1 else .established) ?_) (.first (.synAcked _ (.inl (by rw [← hs0, hst]))) (.note (by core))), rfl⟩
            rw [hst]
            subst hs0
            refine .synAck _ hev hsyn ca k1 k2 ?_
            cases q : s.needFin with
            | false => exact .inl rfl
            | true => exact .inr ⟨rfl, rfl⟩
          generalize synSentOn s g r w = s3 at *
          subst hs0
          obtain ⟨mq, dq⟩ := mv_processAck (s0 := s) (ev := ev) (g' := g) (r := r) s3 (g := { g with seq := g.seq + 1, syn := false, tlen := min g.tlen w, fin := g.fin && decide (g.tlen ≤ w) })
            hev rfl ca (fun h => absurd hst h) (fun _ => k1) k2
          exact mv_afterAck hev (.first m3.1 mq) (fun h => by rw [dq h, m3.2, hd])
        · rw [if_neg ca]
          have m3 : Mv ev s0 s [] (synSentOn s g r w) ∧ (synSentOn s g r w).dead = s.dead := by
            unfold synSentOn
            rw [if_neg ca]
            refine ⟨.first (.rexOff s) (.first (.state _ .synRcvd ?_) (.note (by core))), rfl⟩
            show Legal ev s0 _ s.st .synRcvd
            rw [hst]
            exact .syn hev hsyn (by simpa using ca)
          exact .first m3.1 (mv_step6 _ _ hev _ (by rw [m3.2, hd]))

theorem mv_rst (s : Tcb) {g : Seg} {r : REnv} (hev : ev = .seg g r) (hs0 : s = s0) (hst : s.st ≠ .synSent) (hr : g.rst = true) :
    Mv ev s0 s [] (rstBlk s g r (rcvWnd s r)) := by
  subst hs0
  unfold rstBlk
  split
  · rename_i c
    simp only [Bool.and_eq_true] at c
    split
    · rename_i c2
      refine .first (.state s .closed (.reset _ hev hr hst)) (.kill _ (.reset hev hst hr c.1 c.2 ?_))
      intro q; simp [q] at c2
    · split
      · split
        · exact .nil s
        · rename_i c3 c4
          refine .first (.state s .closed (.reset _ hev hr hst)) (.kill _ (.reset hev hst hr c.1 c.2 ?_))
          intro _ q
          rw [q] at c4
          simp only [Bool.not_false, Bool.true_and, Bool.and_eq_true, Bool.not_eq_true', not_and, Bool.not_eq_false] at c4
          by_cases x : (seqGEQ g.seq (s.rcvNxt - 1) && seqLEQ g.seq (s.rcvNxt + 1)) = true
          · exact .inl (by simpa using x)
          · have := c4 (by simpa using x)
            exact .inr (by simpa using this)
      · split
        · rename_i c5
          refine .kill _ (.reset hev hst hr c.1 c.2 ?_)
          intro q; simp [q] at c5
        · exact .nil s
  · exact .nil s

theorem mv_sync (s : Tcb) {g : Seg} {r : REnv} (hev : ev = .seg g r) (hs0 : s = s0) (hst : s.st ≠ .synSent)
    (hr : g.rst = false) (hd : s.dead = false)
    (hsr : s.st = .synRcvd → g.ackf = true → seqGT g.ack s.una = true ∧ seqLEQ g.ack s.max = true) :
    Mv ev s0 s (syncBlk s g r (rcvWnd s r)).2 (syncBlk s g r (rcvWnd s r)).1 := by
  have he : ∀ e ∈ r.es1, e ∈ ev.envs := by
    intro e h; rw [hev]; exact List.mem_append.2 (.inl h)
  unfold syncBlk
  split
  · exact .nil s
  · simp only
    have ct : Core s (trimHead s g).1 ∧ (trimHead s g).1.needFin = s.needFin ∧ (trimHead s g).1.needSyn = s.needSyn ∧
        (trimHead s g).2.ack = g.ack ∧ (trimHead s g).2.ackf = g.ackf ∧ ((trimHead s g).2.tlen ≠ 0 → g.tlen ≠ 0) ∧
        ((trimHead s g).2.syn = true → g.syn = true ∧ diff s.rcvNxt g.seq ≤ 0 ∧ (trimHead s g).1 = s ∧ (trimHead s g).2 = g) := by
      unfold trimHead
      simp only
      generalize (if g.syn = true then g.seq + 1 else g.seq) = sq
      generalize (if g.syn = true then diff s.rcvNxt g.seq - 1 else diff s.rcvNxt g.seq) = td
      split
      · split
        · exact ⟨by core, rfl, rfl, rfl, rfl, fun h => absurd rfl h, fun h => by simp at h⟩
        · exact ⟨by core, rfl, rfl, rfl, rfl, fun h => by simp only at h; omega, fun h => by simp at h⟩
      · exact ⟨by core, rfl, rfl, rfl, rfl, fun h => h, fun h => ⟨h, by omega, rfl, rfl⟩⟩
    generalize (trimHead s g).1 = p1 at *
    generalize (trimHead s g).2 = g2 at *
    obtain ⟨ct, nf, ns, ga, gf, gl, gs⟩ := ct
    have hd1 : p1.dead = false := by rw [ct.dead, hd]
    split
    · rename_i c
      simp only [Bool.and_eq_true, decide_eq_true_eq] at c
      refine .pre ct (.kill _ (.text hev (by rw [← hs0]; exact hst) hr c.1.1 (by rw [← hs0, ← ct.st]; exact c.1.2) (gl c.2)))
    · generalize hov : diff (g2.seq + BitVec.ofNat 32 g2.tlen) (p1.rcvNxt + BitVec.ofNat 32 (rcvWnd s r)) = ov at *
      split
      · exact .pre ct (mv_dropAfterAck _ _ hev hd1)
      · rename_i c2
        have h3 : (if ov > 0 then { g2 with tlen := g2.tlen - ov.toNat, fin := false } else g2).ack = g2.ack ∧
            (if ov > 0 then { g2 with tlen := g2.tlen - ov.toNat, fin := false } else g2).ackf = g2.ackf ∧
            (if ov > 0 then { g2 with tlen := g2.tlen - ov.toNat, fin := false } else g2).syn = g2.syn := by
          split <;> exact ⟨rfl, rfl, rfl⟩
        generalize (if ov > 0 then { g2 with tlen := g2.tlen - ov.toNat, fin := false } else g2) = g3 at *
        generalize hs2 : (if (decide (ov > 0) && decide (ov ≥ (g2.tlen : Int))) = true then { p1 with acknow := true } else p1) = s2 at *
        have c2' : Core p1 s2 ∧ s2.needFin = p1.needFin ∧ s2.needSyn = p1.needSyn := by
          subst hs2; split <;> exact ⟨by core, rfl, rfl⟩
        clear hs2
        obtain ⟨c2', nf2, ns2⟩ := c2'
        have hd2 : s2.dead = false := by rw [c2'.dead, hd1]
        refine .pre ct (.pre c2' ?_)
        split
        · rename_i c3
          rw [h3.2.2] at c3
          obtain ⟨g1, g2', g3', g4'⟩ := gs c3
          refine mv_drop _ _ he hd2 (fun q => .synDrop _ hev g1 q) (fun t q1 q2 => ?_)
          refine .syn hev (by rw [← hs0]; exact hst) hr g1 ?_ ?_
          · rw [← hs0]
            refine ⟨g2', ?_⟩
            rw [g3', g4'] at hov
            rw [g4'] at c2
            rw [hov]
            simp only [Bool.and_eq_true, decide_eq_true_eq, Bool.not_eq_true', Bool.and_eq_false_iff, not_and] at c2
            by_cases o1 : ov ≤ 0
            · exact .inl o1
            · by_cases o2 : ov < g.tlen
              · exact .inr (.inl o2)
              · have := c2 ⟨by omega, by omega⟩
                rw [g3'] at this
                refine .inr (.inr ⟨?_, ?_⟩)
                · cases x : decide (rcvWnd s r = 0) with
                  | true => simpa using x
                  | false => exact absurd (.inl x) this
                · cases x : (g.seq == s.rcvNxt) with
                  | true => simpa using x
                  | false => exact absurd (.inr x) this
          · by_cases x : s2.st.num ≥ 3
            · exact .inl (q1 x)
            · rw [q2 x]; exact .inr (by omega)
        · split
          · split
            · exact mv_step6 _ _ hev _ hd2
            · split
              · exact mv_dropAfterAck _ _ hev hd2
              · exact .nil _
          · rename_i c5
            have hf : g.ackf = true := by rw [← gf, ← h3.2.1]; simpa using c5
            have hga : g3.ack = g.ack := by rw [h3.1, ga]
            have key := mv_ackBlk (s0 := s0) (r := r) s2 g3 hev hga hf (by rw [c2'.st, ct.st, hs0]) (by rw [← hs0]; exact hst) (by rw [c2'.una, ct.una, hs0])
              (by rw [c2'.max, ct.max, hs0]) (by rw [nf2, nf, hs0]) (by rw [ns2, ns, hs0])
              (by intro q; rw [hga, ← hs0]; exact hsr (by rw [hs0]; exact q) hf) hd2
            exact mv_afterAck hev key.1 key.2

theorem predAck_core (s : Tcb) (g : Seg) : Core { s with buf := s.buf.drop (diff g.ack s.una).toNat, una := g.ack, rexmt := (predAck s g).rexmt } (predAck s g) ∧
    ((predAck s g).rexmt = s.rexmt ∨ (predAck s g).rexmt = false ∨ s.persist = false) := by
  unfold predAck
  simp only
  generalize (if (seqGT s.una s.recover && seqLEQ g.ack s.recover) = true then g.ack - 1 else s.recover) = rc
  split
  · exact ⟨by core, .inr (.inl rfl)⟩
  · split
    · rename_i c; exact ⟨by core, .inr (.inr (by simpa using c))⟩
    · exact ⟨by core, .inl rfl⟩

theorem mv_doSegment (s : Tcb) {g : Seg} {r : REnv} (hev : ev = .seg g r) (hs0 : s = s0) (hd : s.dead = false) :
    Mv ev s0 s (doSegment s g r).2 (doSegment s g r).1 := by
  have he : ∀ e ∈ r.es1, e ∈ ev.envs := by
    intro e h; rw [hev]; exact List.mem_append.2 (.inl h)
  unfold doSegment
  simp only
  split
  · rename_i c
    simp only [Bool.and_eq_true, decide_eq_true_eq] at c
    obtain ⟨⟨⟨⟨⟨cp, _⟩, c1⟩, c2⟩, _⟩, _⟩ := c
    unfold predOk at cp
    simp only [Bool.and_eq_true, decide_eq_true_eq] at cp
    have hf : g.ackf = true := by tauto
    have hst : s.st = .established := by tauto
    obtain ⟨cc, ct⟩ := predAck_core s g
    have m : Mv ev s0 s [] (predAck s g) := by
      have a : Mv ev s0 s [] { s with buf := s.buf.drop (diff g.ack s.una).toNat, una := g.ack } := by
        refine .acked s hev hf ?_ ?_ ?_ <;> rw [← hs0]
        · exact fun _ => c1
        · rw [hst]; intro q; exact absurd q (by decide)
        · exact c2
      refine .post (t := { s with buf := s.buf.drop (diff g.ack s.una).toNat, una := g.ack, rexmt := (predAck s g).rexmt }) ?_ cc
      rcases ct with q | q | q
      · rw [q]; exact a
      · rw [q]; exact .first a (.rexOff _)
      · cases x : (predAck s g).rexmt with
        | false => exact .first a (.rexOff _)
        | true => exact .first a (.rexOn _ q)
    generalize predAck s g = s2 at *
    split
    · exact .first m (.post (mv_output _ _ he (by rw [cc.dead]; exact hd)) (by core))
    · exact .first m (.note (by core))
  · split
    · split
      · exact .note (by core)
      · exact .pre (t := { s with rcvNxt := s.rcvNxt + BitVec.ofNat 32 g.tlen, wl1 := g.seq, acknow := true }) (by core)
          (.post (mv_output _ _ he hd) (by core))
    · split
      · exact .nil s
      · rename_i c3
        split
        · rename_i c4
          exact mv_synSent s _ hev hs0 c4 hd
        · rename_i c4
          split
          · rename_i c5
            exact mv_rst s hev hs0 c4 c5
          · rename_i c5
            split
            · split
              · exact mv_dropAfterAck _ _ hev hd
              · exact .nil s
            · refine mv_sync s hev hs0 c4 (by simpa using c5) hd ?_
              intro q1 q2
              simp only [q1, q2, decide_true, Bool.true_and, Bool.or_eq_true, not_or] at c3
              unfold seqLEQ seqGT at *; simp at c3 ⊢; omega

/-- Every event is a sequence of moves. -/
theorem step_mv (s : Tcb) (ev : Ev) : Mv ev s s (step s ev).2 (step s ev).1 := by
  unfold step
  split
  · exact .nil s
  · rename_i c0
    have hd : s.dead = false := by
      cases c : s.dead with
      | false => rfl
      | true => simp [c] at c0
    cases ev with
    | write d es =>
      simp only; split
      · exact .nil s
      · rename_i c
        exact .first (.take s d rfl rfl (by simpa using c)) (mv_output _ _ (fun e h => h) hd)
    | oob d es =>
      simp only; split
      · exact .nil s
      · rename_i c
        exact .first (.take s d rfl rfl (by simpa using c)) (.pre (t := { s with buf := s.buf ++ d, written := s.written ++ d, force := true })
          (by core) (.post (mv_output _ _ (fun e h => h) hd) (by core)))
    | close es =>
      simp only
      have m : Mv (.close es) s { s with cantSend := true } [] (usrClosed { s with cantSend := true }) := by
        unfold usrClosed
        split <;> rename_i c <;> try (have c : s.st = _ := c)
        · exact .kill _ (.user rfl (.inl c))
        · refine .first (.state _ .closed ?_) (.kill _ (.user rfl (.inr c)))
          show Legal _ _ _ s.st _
          rw [c]; exact .closeListen rfl
        · exact .note (by core)
        · exact .note (by core)
        · refine .state _ .finWait1 ?_
          show Legal _ _ _ s.st _
          rw [c]; exact .closeEst rfl rfl
        · refine .state _ .lastAck ?_
          show Legal _ _ _ s.st _
          rw [c]; exact .closeWait rfl rfl
        · exact .nil _
      have m1 := Mv.first (.shut s rfl) m
      generalize usrClosed { s with cantSend := true } = s1 at *
      split
      · exact m1
      · rename_i c
        exact .first m1 (mv_output _ _ (fun e h => h) (by simpa using c))
    | seg g r => exact mv_doSegment s rfl rfl hd
    | rexmtTimer es =>
      simp only; split
      · exact .first (.rexOff s) (.pre (t := { s with rexmt := false, nxt := s.una, recover := s.max, acknow := true })
          (by core) (mv_output _ _ (fun e h => h) hd))
      · exact .nil s
    | persistTimer es =>
      simp only; split
      · exact .pre (t := { s with force := true })
          (by core) (.post (mv_output _ _ (fun e h => h) hd) (by core))
      · exact .nil s
    | delackTimer es => exact .pre (t := { s with acknow := true }) (by core) (mv_output _ _ (fun e h => h) hd)
    | rcvd es => exact mv_output _ _ (fun e h => h) hd
    | mtudisc es =>
      exact .pre (t := { s with nxt := s.una, recover := s.max, fastrec := s.fastrec && !s.sackPermit })
        (by core) (mv_output _ _ (fun e h => h) hd)
    | drop es => exact mv_drop _ _ (fun e h => h) hd (fun q => .drop _ rfl q) (fun _ _ _ => .drop rfl)

end
end Verif.Snd

import Verif.Snd.Derive
import Verif.Snd.Demo
/-!
# Properties C84–C88, C90, C91
-/
namespace Verif.Snd
open Verif.Tcp

section
variable {s0 s : Tcb} {ps : List Pkt}

/-! ## C84: what is sent is what was written -/

theorem fresh_finC (h : Fresh s) : FinC s := by
  refine ⟨?_, ?_⟩
  · rw [h.st]; intro c; exact absurd c (by decide)
  · rw [h.flags.2.1]; intro c; exact absurd c (by simp)

theorem hist_finC (h : Hist s0 s ps) : FinC s ∧ ∀ q ∈ ps, q.fin = true → s.cantSend = true := by
  induction h with
  | nil h => exact ⟨fresh_finC h, by simp⟩
  | snoc ev _ _ _ ih =>
    obtain ⟨a, b, _, c⟩ := mv_fin ih.1 (step_mv _ ev) (fun x => x) ih.1
    refine ⟨a, ?_⟩
    intro q hq hf
    rcases List.mem_append.1 hq with z | z
    · exact b (ih.2 q z hf)
    · exact c q z hf

/-- **C84**, as long as the application has not closed, without SACK: whatever the peer, the network, the timers and the
packet pool do, every data byte sent is the byte the application wrote at that position. -/
theorem sent_bytes_before_close (h : Hist s0 s ps) (hs : s0.sackPermit = false) (ev : Ev) (he : ∀ e ∈ ev.envs, e.Ok)
    (hn : s.buf.length + ev.bytes.length ≤ BufMax) (hb : (step s ev).1.cantSend = false) :
    ∀ p ∈ (step s ev).2, Faithful s0.iss (step s ev).1.written p := by
  have hh := Hist.snoc ev h he hn
  have hc := (hist_clean hh hs (fun q hq hf => by
    have := (hist_finC hh).2 q hq hf.1
    rw [hb] at this; exact absurd this (by simp))).1
  obtain ⟨hi, fa, no, mo, a⟩ := hist_at h (step_clean s ev hc)
  have r := step_res a ev he hn hc
  intro p hp
  have := (r.pkt p hp).1
  rw [r.iss, hi] at this; exact this

/-- **C84**, after close as well: as long as no FIN goes out as a window probe. -/
theorem sent_bytes_faithful_partial (h : Hist s0 s ps) (hs : s0.sackPermit = false) (ev : Ev) (he : ∀ e ∈ ev.envs, e.Ok)
    (hn : s.buf.length + ev.bytes.length ≤ BufMax) (hp : ∀ q ∈ ps ++ (step s ev).2, ¬ FinProbe q) :
    ∀ p ∈ (step s ev).2, Faithful s0.iss (step s ev).1.written p := by
  have hc := (hist_clean (Hist.snoc ev h he hn) hs hp).1
  obtain ⟨hi, fa, no, mo, a⟩ := hist_at h (step_clean s ev hc)
  have r := step_res a ev he hn hc
  intro p hp
  have := (r.pkt p hp).1
  rw [r.iss, hi] at this; exact this

/-- **C84** with SACK: as long as, besides, no pass has sent data at the offset of a hole it had no room for. -/
theorem sent_bytes_sack_partial (h : Hist s0 s ps) (ev : Ev) (he : ∀ e ∈ ev.envs, e.Ok)
    (hn : s.buf.length + ev.bytes.length ≤ BufMax) (hc : Clean (step s ev).1) :
    ∀ p ∈ (step s ev).2, Faithful s0.iss (step s ev).1.written p := by
  obtain ⟨hi, fa, no, mo, a⟩ := hist_at h (step_clean s ev hc)
  have r := step_res a ev he hn hc
  intro p hp
  have := (r.pkt p hp).1
  rw [r.iss, hi] at this; exact this

/-- Two bytes are written and sent, the first is acknowledged, a third is written, the retransmission timer fires. -/
def demoRun : List Ev :=
  [.write [10, 11] [envOk], .seg (ackSeg 5001 1002 100) (renv [envOk]), .write [12] [envOk], .rexmtTimer [envOk]]

example : Hist demo (run demo demoRun).1 ([] ++ (step demo demoRun[0]).2 ++ (step (run demo (demoRun.take 1)).1 demoRun[1]).2 ++
    (step (run demo (demoRun.take 2)).1 demoRun[2]).2 ++ (step (run demo (demoRun.take 3)).1 demoRun[3]).2) := by
  have e : ∀ ev ∈ demoRun, ∀ e ∈ ev.envs, e.Ok := by unfold Env.Ok; decide
  refine .snoc _ (.snoc _ (.snoc _ (.snoc _ (.nil demo_fresh) ?_ ?_) ?_ ?_) ?_ ?_) ?_ ?_
  all_goals first | exact e _ (by decide) | (unfold BufMax; decide +kernel)

example : (run demo demoRun).2.map (fun p => (p.seq.toNat, p.data)) =
    [(1001, [some 10, some 11]), (1003, [some 12]), (1002, [some 11, some 12])] := by decide +kernel

example : (run demo demoRun).1.cantSend = false ∧ Clean (run demo demoRun).1 := by unfold Clean; decide +kernel

/-! ### Where C84 fails -/

/-- The SACK hole of the counterexample: the first three bytes. -/
def envHole : Env := { envOk with hole := some (0, 3) }

/-- Three bytes are sent; the peer sends FIN, then text beyond its FIN with a zero window, then three duplicate ACKs with
a hole at the first byte; then the application sends one urgent byte. -/
def staleRun : List Ev :=
  [.write [10, 11, 12] [envOk], .seg { ackSeg 5001 1001 100 with fin := true } { renv [envOk] with finUp := true },
   .seg { ackSeg 5002 1001 0 with tlen := 5 } (renv [envOk]), .seg (ackSeg 5002 1001 0) (renv [envHole]),
   .seg (ackSeg 5002 1001 0) (renv [envHole]), .seg (ackSeg 5002 1001 0) (renv [envHole])]

/-- **C84 violated** with SACK: the urgent byte is sent with the content of the first byte of the buffer: a hole without
room leaves its offset behind (src/ofp_tcp_output.c:240-278), the forced send uses it with `snd_nxt`. -/
theorem sent_bytes_sack_violated : Fresh { demo with sackPermit := true } ∧
    ∃ p ∈ (step (run { demo with sackPermit := true } staleRun).1 (.oob [20] [envHole])).2,
      ¬ Faithful 1000 (step (run { demo with sackPermit := true } staleRun).1 (.oob [20] [envHole])).1.written p := by
  refine ⟨by constructor <;> decide, ?_⟩
  have hw : (step (run { demo with sackPermit := true } staleRun).1 (.oob [20] [envHole])).1.written = [10, 11, 12, 20] := by
    decide +kernel
  have hp : ∃ p ∈ (step (run { demo with sackPermit := true } staleRun).1 (.oob [20] [envHole])).2,
      p.seq = 1004 ∧ p.data = [some 10] := by decide +kernel
  obtain ⟨p, hp, h1, h2⟩ := hp
  refine ⟨p, hp, ?_⟩
  rw [hw]
  rintro (h | ⟨k, k1, k2, k3, k4⟩)
  · rw [h2] at h; exact absurd h (by simp)
  · rw [h2] at k2 k4
    rw [h1] at k1
    simp only [List.length_cons, List.length_nil] at k2 k4
    have : k ≤ 3 := by omega
    rcases (by omega : k = 0 ∨ k = 1 ∨ k = 2 ∨ k = 3) with q | q | q | q <;> subst q
    · exact absurd k1 (by decide)
    · exact absurd k1 (by decide)
    · exact absurd k1 (by decide)
    · exact absurd k4 (by decide)

/-- An active open before its SYN is sent. -/
def demoSyn : Tcb :=
  { demo with st := .synSent, una := 1000, nxt := 1000, max := 1000, wnd := 0, maxwnd := 0, recover := 1000, wl1 := 0,
              wl2 := 0, irs := 0, rcvNxt := 0, rcvAdv := 0, lastAckSent := 0 }

/-- **C84 violated** during the handshake: the SYN is sent, its retransmission finds no packet in the pool, and `snd_nxt`
stays at `iss` (src/ofp_tcp_output.c:696-700); the SYN|ACK is then answered with a byte of uninitialised memory at sequence
number `iss`, although nothing has been written. -/
theorem sent_bytes_handshake_violated :
    (run demoSyn [.rcvd [envOk], .rexmtTimer [envNoBuf]]).1.written = [] ∧
    ∃ p ∈ (step (run demoSyn [.rcvd [envOk], .rexmtTimer [envNoBuf]]).1
        (.seg { ackSeg 5000 1001 100 with syn := true } (renv [envOk]))).2, p.seq = 1000 ∧ p.data = [none] := by
  refine ⟨?_, ?_⟩ <;> decide +kernel

/-! ## C85: data is kept until acknowledged -/

/-- **C85.** In a synchronised connection an event appends to the send buffer what the application writes, and nothing
leaves it, and the first unacknowledged sequence number does not move, unless a segment arrives that acknowledges
something sent and not yet acknowledged; then exactly that much leaves it. -/
theorem buffer_released_by_ack (s : Tcb) (ev : Ev) (h1 : s.st ≠ .synSent) (h2 : s.needSyn = false) :
    (step s ev).1.written = s.written ++ taken s ev ∧
    (((step s ev).1.buf = s.buf ++ taken s ev ∧ (step s ev).1.una = s.una) ∨
     (∃ g r, ev = .seg g r ∧ g.ackf = true ∧ 0 < diff g.ack s.una ∧ diff g.ack s.max ≤ 0 ∧
        (step s ev).1.una = g.ack ∧ (step s ev).1.buf = s.buf.drop (diff g.ack s.una).toNat)) := by
  have hw := step_written s ev
  refine ⟨hw, ?_⟩
  obtain ⟨_, h⟩ := mv_buf (step_mv s ev) h1 h2 ⟨rfl, .inl ⟨[], .inl rfl, by simp, by simp, rfl⟩⟩
  rcases h with ⟨d, _, hd, hb, hu⟩ | ⟨g, r, a, b, c, d, e, _, f⟩
  · left
    rw [hw] at hd
    rw [List.append_cancel_left hd]
    exact ⟨hb, hu⟩
  · exact .inr ⟨g, r, a, b, by simpa [seqGT] using c, by simpa [seqLEQ] using d, e, f⟩

/-- **C85**, positions: the buffer holds the tail of what was written, and unless our FIN is acknowledged its first byte
is the one at the first unacknowledged sequence number. -/
theorem buffer_is_unacked_tail_partial (h : Hist s0 s ps) (hs : s0.sackPermit = false) (hp : ∀ q ∈ ps, ¬ FinProbe q) :
    ∃ k, s.buf = s.written.drop k ∧ k + s.buf.length = s.written.length ∧
      (s.una = seqOfByte s0.iss k ∨ s.buf = [] ∧ s.sentFin = true ∧ s.una = seqOfByte s0.iss (k + 1)) := by
  obtain ⟨hi, fa, no, mo, a⟩ := hist_at h (hist_clean h hs hp).1
  have hl := a.le
  refine ⟨s.written.length - s.buf.length, a.suf, by omega, ?_⟩
  have hu := a.una
  rw [hi] at hu
  have := a.fa1
  rcases (by omega : fa = 0 ∨ fa = 1) with q | q
  · subst q; left; exact hu
  · right
    obtain ⟨q1, q2⟩ := a.fab q
    refine ⟨q1, q2, ?_⟩
    rw [hu, q]; rfl

example : (run demo demoRun).1.buf = [11, 12] ∧ (run demo demoRun).1.una = 1002 := by decide +kernel

/-- An acknowledgement of something never sent, and an old one, release nothing. -/
example : (step (run demo demoRun).1 (.seg (ackSeg 5001 1005 100) (renv [envOk]))).1.buf = [11, 12] ∧
    (step (run demo demoRun).1 (.seg (ackSeg 5001 1001 100) (renv [envOk]))).1.buf = [11, 12] := by decide +kernel

/-! ## C86: FIN -/

/-- **C86.** No FIN is sent before the application closes (or shuts down writing), in any history, SACK or not. -/
theorem fin_only_after_close (h : Hist s0 s ps) (ev : Ev) (p : Pkt) (hp : p ∈ ps ++ (step s ev).2) (hf : p.fin = true) :
    s.cantSend = true ∨ ∃ es, ev = .close es := by
  obtain ⟨hc, hq⟩ := hist_finC h
  obtain ⟨_, b, d, c⟩ := mv_fin hc (step_mv s ev) (fun x => x) hc
  rcases List.mem_append.1 hp with z | z
  · exact .inl (hq p z hf)
  · exact d (c p z hf)

/-- **C86.** The FIN sits right behind the last byte written. -/
theorem fin_at_end_partial (h : Hist s0 s ps) (hs : s0.sackPermit = false) (ev : Ev) (he : ∀ e ∈ ev.envs, e.Ok)
    (hn : s.buf.length + ev.bytes.length ≤ BufMax) (hp : ∀ q ∈ ps ++ (step s ev).2, ¬ FinProbe q) :
    ∀ p ∈ (step s ev).2, FinAtEnd s0.iss (step s ev).1.written p := by
  have hc := (hist_clean (Hist.snoc ev h he hn) hs hp).1
  obtain ⟨hi, fa, no, mo, a⟩ := hist_at h (step_clean s ev hc)
  have r := step_res a ev he hn hc
  intro p hp
  have := (r.pkt p hp).2.1
  rw [r.iss, hi] at this; exact this

/-- **C86.** FIN_WAIT_2 and TIME_WAIT are reached only when everything written and our FIN have been acknowledged. -/
theorem fin_wait2_all_acked_partial (h : Hist s0 s ps) (hs : s0.sackPermit = false) (hp : ∀ q ∈ ps, ¬ FinProbe q)
    (hst : s.st = .finWait2 ∨ s.st = .timeWait) :
    s.buf = [] ∧ s.sentFin = true ∧ s.una = seqOfByte s0.iss (s.written.length + 1) := by
  obtain ⟨hi, fa, no, mo, a⟩ := hist_at h (hist_clean h hs hp).1
  have q := a.f2 hst
  obtain ⟨q1, q2⟩ := a.fab q
  refine ⟨q1, q2, ?_⟩
  rw [a.una, hi, q]; unfold base; rw [q1]; rfl

/-- Close after two bytes; everything is acknowledged. -/
def demoFin : List Ev := [.write [10, 11] [envOk], .close [envOk], .seg (ackSeg 5001 1004 100) (renv [envOk])]

example : (run demo demoFin).2.map (fun p => (p.seq.toNat, p.data, p.fin)) =
    [(1001, [some 10, some 11], false), (1003, [], true)] ∧ (run demo demoFin).1.st = .finWait2 := by decide +kernel

/-- **C86 violated**: connect, one byte handed over with `ofp_sendto` before the handshake completes, close.  The FIN is
sent with the sequence number of the byte, before and after the SYN|ACK, and the byte is not sent. -/
theorem fin_at_end_violated :
    ∃ p ∈ (run demoSyn [.rcvd [envOk], .write [10] [envOk], .close [envOk],
        .seg { ackSeg 5000 1001 100 with syn := true } (renv [envOk, envOk])]).2,
      ¬ FinAtEnd 1000 [10] p ∧ p.fin = true ∧ p.data = [] ∧ p.ack = 5001 := by
  unfold FinAtEnd; decide +kernel

/-- **C84 and C86 violated** by a FIN as window probe: zero window, one byte probed and acknowledged while the packet pool
is empty, so that the FIN is not sent and the persist timer stays on.  The timer then sends the FIN as a probe, which
advances neither `snd_nxt` nor `snd_max` (src/ofp_tcp_output.c:1179-1193); each further timeout steps `snd_nxt` back, below
`snd_una`: a FIN one position too early, then a byte of uninitialised memory. -/
theorem fin_probe_violated : Fresh { demo with wnd := 0 } ∧
    (run { demo with wnd := 0 } [.write [10] [envOk], .persistTimer [envOk], .close [envOk],
        .seg (ackSeg 5001 1002 0) (renv [envNoBuf]), .persistTimer [envOk], .persistTimer [envOk],
        .persistTimer [envOk]]).2.map (fun p => (p.seq.toNat, p.data, p.fin)) =
      [(1001, [some 10], false), (1002, [], true), (1001, [], true), (1001, [none], false)] := by
  refine ⟨by constructor <;> decide, by decide +kernel⟩

end
end Verif.Snd

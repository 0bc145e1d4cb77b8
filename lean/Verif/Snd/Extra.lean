import Verif.Snd.Work
/-!
# More about C87, C92, C93: window updates, a window that shrank, acknowledgement state, trimming
-/
namespace Verif.Snd
open Verif.Tcp

section
variable {s : Tcb}

/-! ## C87: which segments change the send window -/

/-- The segment carries newer information about the window than the last one that changed it (RFC 793, p. 72): a later
sequence number, or the same and a later acknowledgement. -/
def NewerInfo (s : Tcb) (g : Seg) : Prop := diff s.wl1 g.seq < 0 ∨ (g.seq = s.wl1 ∧ diff s.wl2 g.ack < 0)

/-- **C87.** A segment changes the send window to the window it carries, exactly if it acknowledges and is newer than the
last one that did, or as new and offers more.  So a reordered or repeated segment never shrinks the window. -/
theorem window_update (g : Seg) :
    (wndBlk s g).1.wnd = g.win ∧ (wndBlk s g).1.wl1 = g.seq ∧ (wndBlk s g).1.wl2 = g.ack ∧ (wndBlk s g).2 = true ∧ g.ackf = true ∧
      (NewerInfo s g ∨ (g.seq = s.wl1 ∧ g.ack = s.wl2 ∧ s.wnd < g.win)) ∨
    (wndBlk s g) = (s, false) ∧ ¬ (g.ackf = true ∧ (NewerInfo s g ∨ (g.seq = s.wl1 ∧ g.ack = s.wl2 ∧ s.wnd < g.win))) := by
  have key : (g.ackf && (seqLT s.wl1 g.seq || (s.wl1 == g.seq && (seqLT s.wl2 g.ack ||
      (s.wl2 == g.ack && decide (g.win > s.wnd)))))) = true ↔
      (g.ackf = true ∧ (NewerInfo s g ∨ (g.seq = s.wl1 ∧ g.ack = s.wl2 ∧ s.wnd < g.win))) := by
    unfold NewerInfo seqLT
    simp only [Bool.and_eq_true, Bool.or_eq_true, beq_iff_eq, decide_eq_true_eq, eq_comm (a := s.wl1), eq_comm (a := s.wl2)]
    constructor
    · rintro ⟨a, b | ⟨b, c | c⟩⟩
      · exact ⟨a, .inl (.inl b)⟩
      · exact ⟨a, .inl (.inr ⟨b, c⟩)⟩
      · exact ⟨a, .inr ⟨b, c⟩⟩
    · rintro ⟨a, (b | ⟨b, c⟩) | ⟨b, c⟩⟩
      · exact ⟨a, .inl b⟩
      · exact ⟨a, .inr ⟨b, .inl c⟩⟩
      · exact ⟨a, .inr ⟨b, .inr c⟩⟩
  unfold wndBlk
  by_cases c : (g.ackf && (seqLT s.wl1 g.seq || (s.wl1 == g.seq && (seqLT s.wl2 g.ack ||
      (s.wl2 == g.ack && decide (g.win > s.wnd)))))) = true
  · left
    rw [if_pos c]
    exact ⟨rfl, rfl, rfl, rfl, key.1 c⟩
  · right
    rw [if_neg c]
    exact ⟨rfl, fun h => c (key.2 h)⟩

example : NewerInfo demo (ackSeg 5002 1001 7) ∧ ¬ NewerInfo demo (ackSeg 4999 1001 7) := by unfold NewerInfo; decide +kernel

/-! ## C92: a window that shrank -/

/-- **C92.** The peer closed its window below what is already in flight: whatever the pass sends (an acknowledgement, nothing), a
timer runs afterwards, and the next transmission starts at the first unacknowledged byte. -/
theorem shrunk_window_covered {e : Env} (h : Plain s) (hc : e.cwnd < 2 ^ 63) (hz : min s.wnd e.cwnd = 0)
    (hn : 0 < diff s.nxt s.una) : Covered (pass s e).1 ∧ ((prep s e).2.len = 0 ∧ (prep s e).1.nxt = s.una) := by
  have ha : adjustNxt s e = s := by unfold adjustNxt; rw [h.sack]; simp
  have key : (prep s e).1.persist = true ∧ (prep s e).1.nxt = s.una ∧ (prep s e).2.len = 0 ∧ (prep s e).2.sackRx = false ∧
      (prep s e).1.force = false := by
    have ff : (prep s e).1.force = false := by rw [(prep_frame s e).force]; exact h.force
    refine ⟨?_, ?_, ?_, ?_, ff⟩
    all_goals
      unfold prep
      simp only [ha]
      have hf : ∀ w, forceBlk s w = (s, w) := by intro w; unfold forceBlk; rw [if_neg (by simp [h.force])]
      simp only [hf]
      generalize hw1 : hidden s (sackPick s e) = w1
      have k : w1.syn = false ∧ w1.sackRx = false ∧ w1.sb = 0 ∧ w1.off = diff s.nxt s.una ∧
          w1.sendwin = min (toI64 s.wnd) (toI64 e.cwnd) := by
        subst hw1
        unfold hidden sackPick
        simp only [h.sack, Bool.false_and, Bool.false_eq_true, if_false, h.ns, h.syn, Bool.or_false]
        exact ⟨trivial, trivial, trivial, trivial, trivial⟩
      obtain ⟨k1, k2, k3, k4, k5⟩ := k
      have t1 : toI64 s.wnd = s.wnd := by unfold toI64; rw [if_pos h.wnd]
      have t2 : toI64 e.cwnd = e.cwnd := by unfold toI64; rw [if_pos hc]
      rw [t1, t2] at k5
      have k6 : w1.sendwin = 0 := by rw [k5]; omega
      have l : lenBlk s e w1 = { w1 with len := ulminCC s.buf.length 0 - diff s.nxt s.una } := by
        unfold lenBlk
        rw [if_neg (by simp [k2]), if_pos k3, k6, k4]
      rw [l]
      have hu : ulminCC s.buf.length 0 ≤ 0 := by
        unfold ulminCC
        rw [if_neg (by omega)]
        split <;> omega
      have hs : synBlk s { w1 with len := ulminCC s.buf.length 0 - diff s.nxt s.una } = { w1 with len := ulminCC s.buf.length 0 - diff s.nxt s.una } := by
        unfold synBlk; simp [k1]
      rw [hs]
      unfold negBlk
      rw [if_pos (by show ulminCC s.buf.length 0 - diff s.nxt s.una < 0; omega), if_pos k6]
      try (first | exact k2 | rfl)
  obtain ⟨k1, k2, k3, k4, k5⟩ := key
  refine ⟨?_, k3, k2⟩
  unfold pass
  simp only
  generalize prep s e = q at *
  split
  · unfold sendSeg
    simp only
    have kr : (reIss q.1 q.2).persist = true ∧ (reIss q.1 q.2).force = false := by unfold reIss; split <;> exact ⟨k1, k5⟩
    generalize reIss q.1 q.2 = t at *
    generalize clip t e q.2 = w
    have hk : ∀ x : Tcb, Covered x → Covered (postBlk x e) := fun x hx => hx
    have hk2 : ∀ x : Tcb, Covered x → Covered (unSent x e w) := by
      intro x hx
      unfold unSent
      split <;> exact hx
    have ku : (unFin t w).persist = true ∧ (unFin t w).force = false := by unfold unFin; split <;> exact kr
    split
    · exact hk _ (.inr kr.1)
    · apply hk; apply hk2
      unfold advance
      rw [if_pos (by simp [ku.2])]
      have ka : (advSeq (unFin t w) w).persist = true := by unfold advSeq; simp only; split <;> exact ku.1
      unfold advTimer
      split
      · exact .inl rfl
      · exact .inr ka
  · unfold idleBlk Covered
    split
    · exact .inl rfl
    · split
      · exact .inr rfl
      · exact .inr k1

example : let s := (run demo [.write [10, 11, 12] [envOk]]).1
    0 < diff s.nxt s.una ∧ min (0 : Nat) envOk.cwnd = 0 ∧ Covered (pass { s with wnd := 0, acknow := true } envOk).1 := by
  unfold Covered; decide +kernel

/-! ## C93: after a segment went out nothing is owed -/

/-- **C93.** A segment of a synchronised connection acknowledges everything received so far, and after it no acknowledgement is
pending or delayed. -/
theorem nothing_owed_after_send (e : Env) (p : Pkt) (h : (pass s e).2.1 = some p) :
    p.ack = s.rcvNxt ∧ p.ackf = outAck s.st ∧ (pass s e).1.lastAckSent = s.rcvNxt ∧ (pass s e).1.acknow = false ∧ (pass s e).1.delack = false := by
  have f := prep_frame s e
  unfold pass at h ⊢
  simp only at h ⊢
  generalize prep s e = q at *
  by_cases c : wantSend q.1 e q.2 = true
  · rw [if_pos c] at h ⊢
    unfold sendSeg at h ⊢
    simp only at h ⊢
    generalize hw : clip (reIss q.1 q.2) e q.2 = w at *
    have hr : (unFin (reIss q.1 q.2) w).rcvNxt = q.1.rcvNxt ∧ (unFin (reIss q.1 q.2) w).st = q.1.st := by
      unfold unFin reIss; split <;> split <;> exact ⟨rfl, rfl⟩
    by_cases ca : (!e.alloc) = true
    · rw [if_pos ca] at h; cases h
    · rw [if_neg ca] at h ⊢
      simp only [Option.some.injEq] at h
      subst h
      refine ⟨?_, ?_, ?_, rfl, rfl⟩
      · show (unFin (reIss q.1 q.2) w).rcvNxt = _
        rw [hr.1, f.rcvNxt]
      · show outAck (unFin (reIss q.1 q.2) w).st = _
        rw [hr.2, f.st]
      · show (unSent (advance (unFin (reIss q.1 q.2) w) w) e w).rcvNxt = s.rcvNxt
        have : (unSent (advance (unFin (reIss q.1 q.2) w) w) e w).rcvNxt = (unFin (reIss q.1 q.2) w).rcvNxt := by
          generalize unFin (reIss q.1 q.2) w = t
          have u1 : ∀ x : Tcb, (unSent x e w).rcvNxt = x.rcvNxt := by intro x; unfold unSent; split <;> rfl
          have u2 : ∀ x : Tcb, (advTimer x w).rcvNxt = x.rcvNxt := by intro x; unfold advTimer; split <;> rfl
          have u3 : ∀ x : Tcb, (advSeq x w).rcvNxt = x.rcvNxt := by
            intro x; unfold advSeq; simp only; generalize w.sackRx = b; cases b <;> rfl
          have u4 : (advProbe t w).rcvNxt = t.rcvNxt := rfl
          rw [u1]
          unfold advance
          split
          · rw [u2, u3]
          · exact u4
        rw [this, hr.1, f.rcvNxt]
  · rw [if_neg c] at h; cases h

example : ∃ p, (pass { demo with acknow := true, delack := true } envOk).2.1 = some p ∧ p.ack = 5001 := by
  exact ⟨_, rfl, by decide +kernel⟩

/-! ## C93: what is cut from the front of a segment -/

/-- A segment that starts before `rcv_nxt` (and no window's width before it) is cut to what lies at or after it; the end
does not move.  A segment without anything new is emptied, and an acknowledgement is due.  `x` is the stream position
of the segment's first sequence number, `r` that of `rcv_nxt`. -/
theorem trimmed_exactly (g : Seg) (x r : Nat) (hx : g.seq = seqOf s.irs x) (hr : s.rcvNxt = seqOf s.irs r) (h : x < r + 2 ^ 31) (h' : r < x + 2 ^ 31) :
    let y := x + (if g.syn then 1 else 0)
    let t := trimHead s g
    (r ≤ x ∧ t = (s, g)) ∨
    (x < r ∧ t.2.syn = false ∧ t.2.ack = g.ack ∧
      ((r < y + g.tlen + (if g.fin then 1 else 0) ∧ t.1 = s ∧ t.2.seq = s.rcvNxt ∧ r + t.2.tlen = y + g.tlen ∧ t.2.fin = g.fin) ∨
       (y + g.tlen + (if g.fin then 1 else 0) ≤ r ∧ t.1 = { s with acknow := true } ∧ t.2.tlen = 0 ∧ t.2.fin = false))) := by
  have hd : diff s.rcvNxt g.seq = (r : Int) - x := by rw [hx, hr]; exact diff_seqOf _ _ _ h' h
  simp only
  unfold trimHead
  simp only [hd]
  by_cases c : (r : Int) - x > 0
  · right
    rw [if_pos c]
    have cz : x < r := by omega
    refine ⟨cz, ?_⟩
    cases hs : g.syn with
    | false =>
      simp only [Bool.false_eq_true, if_false]
      by_cases c2 : ((decide ((r : Int) - x > g.tlen) || (decide ((r : Int) - x = g.tlen) && !g.fin)) = true)
      · rw [if_pos c2]
        refine ⟨rfl, rfl, .inr ⟨?_, rfl, rfl, rfl⟩⟩
        cases hf : g.fin <;> rw [hf] at c2 <;> simp at c2 ⊢ <;> omega
      · rw [if_neg c2]
        refine ⟨rfl, rfl, .inl ⟨?_, rfl, ?_, ?_, rfl⟩⟩
        · cases hf : g.fin <;> rw [hf] at c2 <;> simp at c2 ⊢ <;> omega
        · rw [hx, hr]
          have : BitVec.ofInt 32 ((r : Int) - x) = BitVec.ofNat 32 (r - x) := by
            have : (r : Int) - x = ((r - x : Nat) : Int) := by omega
            rw [this, BitVec.ofInt_natCast]
          rw [this, seqOf_add, show x + (r - x) = r by omega]
        · cases hf : g.fin <;> rw [hf] at c2 <;> simp at c2 ⊢ <;> omega
    | true =>
      simp only [if_true]
      by_cases c2 : ((decide ((r : Int) - x - 1 > g.tlen) || (decide ((r : Int) - x - 1 = g.tlen) && !g.fin)) = true)
      · rw [if_pos c2]
        refine ⟨rfl, rfl, .inr ⟨?_, rfl, rfl, rfl⟩⟩
        cases hf : g.fin <;> rw [hf] at c2 <;> simp at c2 ⊢ <;> omega
      · rw [if_neg c2]
        refine ⟨rfl, rfl, .inl ⟨?_, rfl, ?_, ?_, rfl⟩⟩
        · cases hf : g.fin <;> rw [hf] at c2 <;> simp at c2 ⊢ <;> omega
        · rw [hx, hr]
          have : BitVec.ofInt 32 ((r : Int) - x - 1) = BitVec.ofNat 32 (r - x - 1) := by
            have : (r : Int) - x - 1 = ((r - x - 1 : Nat) : Int) := by omega
            rw [this, BitVec.ofInt_natCast]
          rw [this, seqOf_succ, seqOf_add, show x + 1 + (r - x - 1) = r by omega]
        · cases hf : g.fin <;> rw [hf] at c2 <;> simp at c2 ⊢ <;> omega
  · left
    rw [if_neg c]
    exact ⟨by omega, rfl⟩

example : (trimHead demo { ackSeg 4998 1001 100 with tlen := 5 }).2.tlen = 2 ∧ (trimHead demo { ackSeg 4998 1001 100 with tlen := 5 }).2.seq = 5001 := by
  decide +kernel

end
end Verif.Snd

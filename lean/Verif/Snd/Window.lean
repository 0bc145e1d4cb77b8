import Verif.Snd.Life
/-!
# Property C87: flow control
-/
namespace Verif.Snd
open Verif.Tcp

/-- The data of the packet ends at or before `lim` bytes behind `from_`. -/
def Within (p : Pkt) (from_ : BitVec 32) (lim : Nat) : Prop :=
  p.data = [] ∨ diff (p.seq + BitVec.ofNat 32 p.data.length) from_ ≤ lim

/-- Synchronised, no SACK, no forced output. -/
structure Plain (s : Tcb) : Prop where
  sack : s.sackPermit = false
  force : s.force = false
  ns : s.needSyn = false
  syn : outSyn s.st = false
  wnd : s.wnd < 2 ^ 63
  buf : s.buf.length ≤ 2 ^ 30

theorem Plain.frame {s t : Tcb} (h : Plain s) (f : Frame s t) : Plain t :=
  ⟨by rw [f.sackPermit]; exact h.sack, by rw [f.force]; exact h.force, by rw [f.needSyn]; exact h.ns,
   by rw [f.st]; exact h.syn, by rw [f.wnd]; exact h.wnd, by rw [f.buf]; exact h.buf⟩

/-- A pass starts at `snd_nxt` and stays inside both windows and the buffer. -/
theorem prep_win {s : Tcb} (h : Plain s) (e : Env) (hc : e.cwnd < 2 ^ 63) :
    (prep s e).2.syn = false ∧ (prep s e).2.sackRx = false ∧ 0 ≤ (prep s e).2.len ∧
    ((prep s e).2.len = 0 ∨ (prep s e).1.nxt = s.nxt ∧ diff s.nxt s.una + (prep s e).2.len ≤ s.wnd ∧
      diff s.nxt s.una + (prep s e).2.len ≤ e.cwnd ∧ diff s.nxt s.una + (prep s e).2.len ≤ s.buf.length) := by
  have ha : adjustNxt s e = s := by unfold adjustNxt; rw [h.sack]; simp
  unfold prep
  simp only [ha]
  have hf : ∀ w, forceBlk s w = (s, w) := by intro w; unfold forceBlk; rw [if_neg (by simp [h.force])]
  simp only [hf]
  generalize hw1 : hidden s (sackPick s e) = w1
  have k : w1.syn = false ∧ w1.sackRx = false ∧ w1.sb = 0 ∧ w1.off = diff s.nxt s.una ∧
      w1.sendwin = min (toI64 s.wnd) (toI64 e.cwnd) := by
    subst hw1
    unfold hidden sackPick
    simp only [h.sack, Bool.false_and, Bool.false_eq_true, if_false, h.ns, h.syn, Bool.or_false]
    exact ⟨trivial, trivial, trivial, trivial, trivial⟩
  obtain ⟨k1, k2, k3, k4, k5⟩ := k
  have t1 : toI64 s.wnd = s.wnd := by unfold toI64; rw [if_pos h.wnd]
  have t2 : toI64 e.cwnd = e.cwnd := by unfold toI64; rw [if_pos hc]
  rw [t1, t2] at k5
  generalize hw2 : lenBlk s e w1 = w2
  have l : w2.syn = false ∧ w2.sackRx = false ∧ w2.off = diff s.nxt s.una ∧
      w2.len = ulminCC s.buf.length w1.sendwin - diff s.nxt s.una := by
    subst hw2
    unfold lenBlk
    rw [if_neg (by simp [k2]), if_pos k3]
    exact ⟨k1, k2, k4, by rw [k4]⟩
  obtain ⟨l1, l2, l3, l4⟩ := l
  have hs : synBlk s w2 = w2 := by unfold synBlk; simp [l1]
  rw [hs]
  have hu : ulminCC s.buf.length w1.sendwin ≤ s.buf.length ∧ ulminCC s.buf.length w1.sendwin ≤ s.wnd ∧
      ulminCC s.buf.length w1.sendwin ≤ e.cwnd := by
    unfold ulminCC
    rw [k5, if_neg (by omega)]
    split <;> omega
  unfold negBlk finBlk
  by_cases c : w2.len < 0
  · rw [if_pos c]
    split
    · exact ⟨l1, l2, by simp, .inl rfl⟩
    · exact ⟨l1, l2, by simp, .inl rfl⟩
  · rw [if_neg c]
    refine ⟨l1, l2, by simp only; omega, ?_⟩
    right
    simp only
    exact ⟨trivial, by omega, by omega, by omega⟩

theorem diff_add_len (a b : BitVec 32) (l : Int) (h0 : 0 ≤ l) (h : diff a b + l < 2 ^ 31) :
    diff (a + BitVec.ofInt 32 l) b = diff a b + l := by
  unfold diff at *
  have e : a + BitVec.ofInt 32 l - b = (a - b) + BitVec.ofInt 32 l := by
    generalize BitVec.ofInt 32 l = x; bv_omega
  rw [e, BitVec.toInt_add, BitVec.toInt_ofInt]
  have := BitVec.le_toInt (a - b)
  generalize (a - b).toInt = x at *
  rw [Int.add_bmod_bmod, Int.bmod_def]
  simp only [Nat.reducePow] at *
  split <;> omega

theorem pass_win {s : Tcb} (h : Plain s) (e : Env) (he : e.Ok) (hc : e.cwnd < 2 ^ 63) :
    ∀ p ∈ (pass s e).2.1.toList, p.data = [] ∨
      (diff (p.seq + BitVec.ofNat 32 p.data.length) s.una ≤ s.wnd ∧
       diff (p.seq + BitVec.ofNat 32 p.data.length) s.una ≤ e.cwnd ∧
       diff (p.seq + BitVec.ofNat 32 p.data.length) s.una ≤ s.buf.length) := by
  obtain ⟨a1, a2, a3, a4⟩ := prep_win h e hc
  have f := prep_frame s e
  unfold pass
  simp only
  generalize prep s e = q at *
  split
  · unfold sendSeg
    simp only
    have hr : reIss q.1 q.2 = q.1 := by unfold reIss; rw [a1]; simp
    rw [hr]
    obtain ⟨b1, b2, b3, b4, b5, b6, b7⟩ := clip_spec q.1 e q.2 he a3
    generalize clip q.1 e q.2 = w at *
    split
    · simp
    · intro p hp
      simp only [Option.toList_some, List.mem_singleton] at hp
      subst hp
      have hl : (mkPkt (unFin q.1 w) e w).data.length = w.len.toNat := by
        unfold mkPkt; simp only [payload_length]
      by_cases z : w.len = 0
      · left
        apply List.eq_nil_of_length_eq_zero
        rw [hl, z]; rfl
      · right
        have z1 : q.2.len ≠ 0 := by omega
        rcases a4 with a4 | ⟨n1, n2, n3, n4⟩
        · exact absurd a4 z1
        have hsz := h.buf
        rw [hl]
        have hseq : (mkPkt (unFin q.1 w) e w).seq = (unFin q.1 w).nxt := by
          unfold mkPkt; simp only
          rw [if_neg (by simp [b3, a2]), if_pos (by simp [z])]
        rw [hseq, ← ofInt_nonneg _ b5]
        have hn : (unFin q.1 w).nxt = s.nxt ∨ (unFin q.1 w).nxt = s.nxt + BitVec.ofInt 32 (-1) := by
          unfold unFin
          split
          · right; simp only; rw [n1]
            have : BitVec.ofInt 32 (-1) = - 1#32 := by decide
            rw [this]; bv_omega
          · left; exact n1
        rcases hn with hn | hn
        · rw [hn, diff_add_len _ _ _ b5 (by omega)]
          omega
        · have : s.nxt + BitVec.ofInt 32 (-1) + BitVec.ofInt 32 w.len = s.nxt + BitVec.ofInt 32 (w.len - 1) := by
            rw [BitVec.add_assoc]; congr 1
            rw [← BitVec.ofInt_add]; congr 1; omega
          rw [hn, this, diff_add_len _ _ _ (by omega) (by omega)]
          omega
  · simp

/-- **C87**, one pass: data sent fits both the peer's window and the congestion window. -/
theorem pass_within_windows {s : Tcb} (h : Plain s) (e : Env) (he : e.Ok) (hc : e.cwnd < 2 ^ 63) :
    ∀ p ∈ (pass s e).2.1.toList, Within p s.una s.wnd ∧ Within p s.una e.cwnd := by
  intro p hp
  rcases pass_win h e he hc p hp with q | q
  · exact ⟨.inl q, .inl q⟩
  · exact ⟨.inr q.1, .inr q.2.1⟩

/-- What a call of `ofp_tcp_output` sends. -/
def OutIn (u : Tcb) (p : Pkt) : Prop :=
  p.data = [] ∨ (diff (p.seq + BitVec.ofNat 32 p.data.length) u.una ≤ u.wnd ∧
    diff (p.seq + BitVec.ofNat 32 p.data.length) u.una ≤ u.buf.length)

theorem loop_win (es : List Env) : ∀ s : Tcb, Plain s → (∀ e ∈ es, e.Ok ∧ e.cwnd < 2 ^ 63) →
    ∀ p ∈ (outputLoop s es).2, OutIn s p := by
  induction es with
  | nil => intro s _ _; simp [outputLoop]
  | cons e es ih =>
    intro s h he
    have h1 : ∀ p ∈ (pass s e).2.1.toList, OutIn s p := by
      intro p hp
      rcases pass_win h e (he e (by simp)).1 (he e (by simp)).2 p hp with q | q
      · exact .inl q
      · exact .inr ⟨q.1, q.2.2⟩
    unfold outputLoop
    split
    · intro p hp
      rcases List.mem_append.1 hp with q | q
      · exact h1 p q
      · have f := pass_frame s e
        have := ih _ (h.frame f) (fun x hx => he x (by simp [hx])) p q
        unfold OutIn at this ⊢
        rw [f.una, f.wnd, f.buf] at this
        exact this
    · exact h1

theorem output_win (es : List Env) (s : Tcb) (h : Plain s) (he : ∀ e ∈ es, e.Ok ∧ e.cwnd < 2 ^ 63) :
    ∀ p ∈ (output s es).2, OutIn s p := by
  unfold output
  split
  · simp
  · exact loop_win es s h he

/-! ## Segments -/

/-- Where the window counts from once the segment has been processed. -/
def newUna (s : Tcb) (g : Seg) : BitVec 32 :=
  if g.ackf = true ∧ 0 < diff g.ack s.una ∧ diff g.ack s.max ≤ 0 then g.ack else s.una

theorem OutIn.same {u v : Tcb} {p : Pkt} (h : OutIn u p) (h1 : u.una = v.una) (h2 : u.wnd = v.wnd) (h3 : u.buf = v.buf) :
    OutIn v p := by unfold OutIn at h ⊢; rw [← h1, ← h2, ← h3]; exact h

theorem OutIn.within {u : Tcb} {p : Pkt} (h : OutIn u p) : Within p u.una u.wnd := by
  rcases h with h | h
  · exact .inl h
  · exact .inr h.1

section
variable {s : Tcb} {g : Seg} {r : REnv}

/-- All environments of a segment are sane. -/
def REnv.Fine (r : REnv) : Prop := ∀ e ∈ r.es1 ++ r.es2, e.Ok ∧ e.cwnd < 2 ^ 63

theorem REnv.Fine.one (h : r.Fine) : ∀ e ∈ r.es1, e.Ok ∧ e.cwnd < 2 ^ 63 := fun e he => h e (List.mem_append.2 (.inl he))
theorem REnv.Fine.two (h : r.Fine) : ∀ e ∈ r.es2, e.Ok ∧ e.cwnd < 2 ^ 63 := fun e he => h e (List.mem_append.2 (.inr he))

/-- Fields that decide what may be sent. -/
structure SameW (s t : Tcb) : Prop where
  sack : t.sackPermit = s.sackPermit
  force : t.force = s.force
  ns : t.needSyn = s.needSyn
  syn : outSyn s.st = false → outSyn t.st = false
  wnd : t.wnd = s.wnd
  buf : t.buf = s.buf
  una : t.una = s.una

theorem SameW.plain {t : Tcb} (h : SameW s t) (hp : Plain s) : Plain t :=
  ⟨by rw [h.sack]; exact hp.sack, by rw [h.force]; exact hp.force, by rw [h.ns]; exact hp.ns, h.syn hp.syn,
   by rw [h.wnd]; exact hp.wnd, by rw [h.buf]; exact hp.buf⟩

theorem SameW.out {t : Tcb} (h : SameW s t) (hp : Plain s) (es : List Env) (he : ∀ e ∈ es, e.Ok ∧ e.cwnd < 2 ^ 63) :
    ∀ p ∈ (output t es).2, OutIn s p := fun p hm => (output_win es t (h.plain hp) he p hm).same h.una h.wnd h.buf

theorem SameW.refl (s : Tcb) : SameW s s := ⟨rfl, rfl, rfl, id, rfl, rfl, rfl⟩

theorem SameW.trans {t u : Tcb} (h : SameW s t) (h' : SameW t u) : SameW s u :=
  ⟨by rw [h'.sack, h.sack], by rw [h'.force, h.force], by rw [h'.ns, h.ns], fun x => h'.syn (h.syn x),
   by rw [h'.wnd, h.wnd], by rw [h'.buf, h.buf], by rw [h'.una, h.una]⟩

theorem Frame.sameW {t : Tcb} (h : Frame s t) : SameW s t :=
  ⟨h.sackPermit, h.force, h.needSyn, by rw [h.st]; exact id, h.wnd, h.buf, h.una⟩

theorem dropAfterAck_win (hp : Plain s) (hr : r.Fine) : ∀ p ∈ (dropAfterAck s g r).2, OutIn s p := by
  unfold dropAfterAck
  split
  · simp
  · exact SameW.out (s := s) (t := { s with acknow := true }) ⟨rfl, rfl, rfl, id, rfl, rfl, rfl⟩ hp _ hr.two

theorem step6_win (hp : Plain s) (hr : r.Fine) (hw : g.win < 2 ^ 63) (need : Bool) :
    ∀ p ∈ (step6 s g r need).2, OutIn s p ∨ OutIn { s with wnd := g.win } p := by
  have h1 : SameW s (wndBlk s g).1 ∨ SameW { s with wnd := g.win } (wndBlk s g).1 := by
    unfold wndBlk
    split
    · exact .inr ⟨rfl, rfl, rfl, id, rfl, rfl, rfl⟩
    · exact .inl (SameW.refl s)
  have hp' : Plain { s with wnd := g.win } := ⟨hp.sack, hp.force, hp.ns, hp.syn, hw, hp.buf⟩
  have h2 : ∀ u, SameW u (textFin u g r).1 := by
    intro u
    unfold textFin
    simp only
    generalize ((decide (g.tlen ≠ 0) || g.fin) && decide (u.st ≠ .timeWait)) = c
    cases c with
    | false => exact SameW.refl u
    | true => cases r.finUp <;> exact ⟨rfl, rfl, rfl, id, rfl, rfl, rfl⟩
  have h3 : ∀ u f, SameW u (finSt u f) := by
    intro u f
    unfold finSt
    split
    · split
      · exact ⟨rfl, rfl, rfl, fun _ => rfl, rfl, rfl, rfl⟩
      · split
        · exact ⟨rfl, rfl, rfl, fun _ => rfl, rfl, rfl, rfl⟩
        · exact SameW.refl u
    · exact SameW.refl u
  unfold step6
  simp only
  generalize (wndBlk s g).1 = v at *
  generalize (wndBlk s g).2 = w2
  split
  · simp
  · have h4 := h2 v
    generalize (textFin v g r).1 = v2 at *
    generalize (textFin v g r).2 = f2
    split
    · simp
    · have h5 := h3 v2 f2
      generalize finSt v2 f2 = v3 at *
      split
      · intro p hm
        rcases h1 with h1 | h1
        · exact .inl (((h1.trans h4).trans h5).out hp _ hr.two p hm)
        · exact .inr (((h1.trans h4).trans h5).out hp' _ hr.two p hm)
      · simp

/-- Processing a new acknowledgement: the window shrinks by what the buffer loses. -/
theorem processAck_win (hp : Plain s) (h1 : 0 < diff g.ack s.una) (h2 : diff g.ack s.una ≤ s.wnd) :
    (processAck s g).2 = .stop ∨
    (Plain (processAck s g).1 ∧ (processAck s g).1.una = g.ack ∧
     ∀ p, OutIn (processAck s g).1 p → Within p s.una s.wnd) := by
  have ht : SameW s (ackTimer s g) := by
    unfold ackTimer
    split
    · exact ⟨rfl, rfl, rfl, id, rfl, rfl, rfl⟩
    · split
      · exact ⟨rfl, rfl, rfl, id, rfl, rfl, rfl⟩
      · exact SameW.refl s
  unfold processAck
  simp only
  generalize ackTimer s g = s1 at *
  rw [if_neg (by omega)]
  generalize hk : diff g.ack s.una = k at *
  have key : ∀ al : Bool, (al = true ↔ k > (s1.buf.length : Int)) →
      Plain (ackNew s1 g k al) ∧ (ackNew s1 g k al).una = g.ack ∧
      ∀ p, OutIn (ackNew s1 g k al) p → Within p s.una s.wnd := by
    intro al hal
    have hb := hp.buf
    have hw := hp.wnd
    have ew := ht.wnd
    have q1 : s1.sackPermit = false := by rw [ht.sack]; exact hp.sack
    have q2 : s1.force = false := by rw [ht.force]; exact hp.force
    have q3 : s1.needSyn = false := by rw [ht.ns]; exact hp.ns
    have eb : s1.buf.length = s.buf.length := by rw [ht.buf]
    have sum : ∀ (x : BitVec 32), diff x g.ack + k < 2 ^ 31 → diff x s.una = diff x g.ack + k := by
      intro x hx
      have e1 : diff x g.ack = (x - g.ack).toInt := rfl
      have e2 : k = (g.ack - s.una).toInt := by rw [← hk]; rfl
      have e3 : diff x s.una = (x - s.una).toInt := rfl
      have e4 : x - s.una = (x - g.ack) + (g.ack - s.una) := by bv_omega
      rw [e3, e4, BitVec.toInt_add, ← e1, ← e2]
      have := BitVec.le_toInt (x - g.ack)
      rw [← e1] at this
      rw [Int.bmod_def]
      simp only [Nat.reducePow] at *
      split <;> omega
    cases al with
    | false =>
      have hle : k ≤ s1.buf.length := by
        have : ¬ (k > (s1.buf.length : Int)) := by rw [← hal]; simp
        omega
      have hsub : subWnd s1.wnd k.toNat = s.wnd - k.toNat := by
        unfold subWnd; rw [if_pos (by rw [ew]; omega), ew]
      refine ⟨⟨q1, q2, q3, ht.syn hp.syn, ?_, ?_⟩, rfl, ?_⟩
      · show subWnd s1.wnd k.toNat < _
        rw [hsub]; omega
      · show (s1.buf.drop k.toNat).length ≤ _
        simp; omega
      · intro p ho
        rcases ho with ho | ⟨o1, o2⟩
        · exact .inl ho
        · right
          have o1 : diff (p.seq + BitVec.ofNat 32 p.data.length) g.ack ≤ (subWnd s1.wnd k.toNat : Nat) := o1
          have o2 : diff (p.seq + BitVec.ofNat 32 p.data.length) g.ack ≤ ((s1.buf.drop k.toNat).length : Nat) := o2
          rw [hsub] at o1
          rw [List.length_drop] at o2
          rw [sum _ (by omega)]; omega
    | true =>
      have hgt : k > (s1.buf.length : Int) := hal.1 rfl
      have hsub : subWnd s1.wnd s1.buf.length = s.wnd - s1.buf.length := by
        unfold subWnd; rw [if_pos (by rw [ew]; omega), ew]
      refine ⟨⟨q1, q2, q3, ht.syn hp.syn, ?_, ?_⟩, rfl, ?_⟩
      · show subWnd s1.wnd s1.buf.length < _
        rw [hsub]; omega
      · show (s1.buf.drop s1.buf.length).length ≤ _
        simp
      · intro p ho
        rcases ho with ho | ⟨_, o2⟩
        · exact .inl ho
        · right
          have o2 : diff (p.seq + BitVec.ofNat 32 p.data.length) g.ack ≤ ((s1.buf.drop s1.buf.length).length : Nat) := o2
          rw [List.length_drop] at o2
          have : k < 2 ^ 31 := by
            rw [← hk]; exact BitVec.toInt_lt
          rw [sum _ (by omega)]; omega
  obtain ⟨k1, k2, k3⟩ := key (decide (k > (s1.buf.length : Int))) (by simp)
  generalize ackNew s1 g k _ = v at *
  generalize decide (k > (s1.buf.length : Int)) = al
  unfold ackFin
  split
  · right
    exact ⟨⟨k1.sack, k1.force, k1.ns, rfl, k1.wnd, k1.buf⟩, k2, fun p ho => k3 p (ho.same rfl rfl rfl)⟩
  · split
    · exact .inl rfl
    · split
      · exact .inl rfl
      · exact .inr ⟨k1, k2, k3⟩

theorem dupAck_win (hp : Plain s) (hr : r.Fine) :
    SameW s (dupAck s g r).1 ∧ ∀ p ∈ (dupAck s g r).2.1, OutIn s p := by
  unfold dupAck
  split
  · split
    · exact ⟨⟨rfl, rfl, rfl, id, rfl, rfl, rfl⟩, by simp⟩
    · simp only
      have hd : SameW s { s with dupacks := s.dupacks + 1 } := ⟨rfl, rfl, rfl, id, rfl, rfl, rfl⟩
      have ho : SameW s (output { s with dupacks := s.dupacks + 1 } r.es1).1 ∧
          ∀ p ∈ (output { s with dupacks := s.dupacks + 1 } r.es1).2, OutIn s p :=
        ⟨hd.trans (output_frame _ _).sameW, hd.out hp _ hr.one⟩
      split
      · exact ho
      · split
        · split
          · exact ⟨⟨rfl, rfl, rfl, id, rfl, rfl, rfl⟩, by simp⟩
          · have hx : SameW s { s with dupacks := s.dupacks + 1, rexmt := false, nxt := g.ack, recover := s.max, fastrec := true } :=
              ⟨rfl, rfl, rfl, id, rfl, rfl, rfl⟩
            have f := hx.trans (output_frame { s with dupacks := s.dupacks + 1, rexmt := false, nxt := g.ack, recover := s.max, fastrec := true } r.es1).sameW
            exact ⟨⟨f.sack, f.force, f.ns, f.syn, f.wnd, f.buf, f.una⟩, hx.out hp _ hr.one⟩
        · split
          · exact ho
          · exact ⟨hd, by simp⟩
  · exact ⟨⟨rfl, rfl, rfl, id, rfl, rfl, rfl⟩, by simp⟩

theorem partialAck_win (hp : Plain s) (hr : r.Fine) :
    SameW s (partialAck s g r).1 ∧ ∀ p ∈ (partialAck s g r).2, OutIn s p := by
  unfold partialAck
  split
  · rw [if_neg (by simp [hp.sack])]
    have hx : SameW s { s with rexmt := false, nxt := g.ack, acknow := true } := ⟨rfl, rfl, rfl, id, rfl, rfl, rfl⟩
    have f := hx.trans (output_frame { s with rexmt := false, nxt := g.ack, acknow := true } r.es1).sameW
    exact ⟨⟨f.sack, f.force, f.ns, f.syn, f.wnd, f.buf, f.una⟩, hx.out hp _ hr.one⟩
  · exact ⟨SameW.refl s, by simp⟩

/-- Inside the old window, or inside the one the segment offers. -/
def InEdge (s : Tcb) (g : Seg) (p : Pkt) : Prop := Within p s.una s.wnd ∨ Within p (newUna s g) g.win

theorem OutIn.edge {t : Tcb} {p : Pkt} (h : OutIn t p) (h1 : t.una = s.una) (h2 : t.wnd = s.wnd) : InEdge s g p := by
  left; rw [← h1, ← h2]; exact h.within

theorem ackBlk_win (hp : Plain s) (hr : r.Fine) (hw : g.win < 2 ^ 63) (h0 : 0 ≤ diff s.max s.una) (hf : diff s.max s.una ≤ s.wnd) (ha : g.ackf = true) :
    ∀ p ∈ (afterAck (ackBlk s g r) g r).2, InEdge s g p := by
  have hst : s.st ≠ .synRcvd := by intro c; have := hp.syn; rw [c] at this; exact absurd this (by decide)
  unfold ackBlk
  simp only [if_neg hst]
  by_cases c1 : seqGT g.ack s.max = true
  · rw [if_pos c1]
    simp only [afterAck, List.nil_append]
    intro p hm
    exact (dropAfterAck_win hp hr p hm).edge rfl rfl
  rw [if_neg c1]
  have c1' : diff g.ack s.max ≤ 0 := by unfold seqGT at c1; simpa using c1
  by_cases c2 : seqLEQ g.ack s.una = true
  · rw [if_pos c2]
    have hu : newUna s g = s.una := by
      unfold newUna; rw [if_neg]
      unfold seqLEQ at c2; simp only [decide_eq_true_eq] at c2
      omega
    obtain ⟨d1, d2⟩ := dupAck_win (g := g) hp hr
    generalize dupAck s g r = q at *
    have pl := d1.plain hp
    unfold afterAck
    split
    · intro p hm; exact (d2 p hm).edge rfl rfl
    · intro p hm
      rcases List.mem_append.1 hm with z | z
      · exact (d2 p z).edge rfl rfl
      · exact (dropAfterAck_win pl hr p z).edge d1.una d1.wnd
    · intro p hm
      rcases List.mem_append.1 hm with z | z
      · exact (d2 p z).edge rfl rfl
      · rcases step6_win pl hr hw _ p z with y | y
        · exact y.edge d1.una d1.wnd
        · right; rw [hu, ← d1.una]; exact y.within
  · rw [if_neg c2]
    have c2' : 0 < diff g.ack s.una := by unfold seqLEQ at c2; simpa using c2
    have hu : newUna s g = g.ack := by
      unfold newUna; rw [if_pos ⟨ha, c2', c1'⟩]
    obtain ⟨d1, d2⟩ := partialAck_win (g := g) hp hr
    generalize partialAck s g r = q at *
    by_cases c3 : q.1.hung = true
    · rw [if_pos c3]
      simp only [afterAck]
      intro p hm; exact (d2 p hm).edge rfl rfl
    rw [if_neg c3]
    have nsf : q.1.needSyn = false := by rw [d1.ns]; exact hp.ns
    rw [if_neg (by simp [nsf])]
    have d3 : SameW s { q.1 with dupacks := 0 } := d1.trans ⟨rfl, rfl, rfl, id, rfl, rfl, rfl⟩
    generalize ({ q.1 with dupacks := 0 } : Tcb) = v at *
    have pl := d3.plain hp
    have hk : diff g.ack s.una ≤ s.wnd := by
      have e : diff g.ack s.una ≤ diff s.max s.una := by
        have h1 := BitVec.toInt_lt (x := g.ack - s.una)
        have h2 := BitVec.le_toInt (s.max - s.una)
        have h3 := BitVec.le_toInt (g.ack - s.max)
        have h4 := BitVec.toInt_lt (x := s.max - s.una)
        have e1 : g.ack - s.una = (g.ack - s.max) + (s.max - s.una) := by bv_omega
        have e2 : diff g.ack s.una = ((g.ack - s.max) + (s.max - s.una)).toInt := by unfold diff; rw [← e1]
        rw [BitVec.toInt_add] at e2
        have e3 : diff g.ack s.max = (g.ack - s.max).toInt := rfl
        have e4 : diff s.max s.una = (s.max - s.una).toInt := rfl
        rw [Int.bmod_def] at e2
        simp only [Nat.reducePow] at *
        rw [← e3, ← e4] at e2
        split at e2 <;> omega
      omega
    rcases processAck_win (g := g) pl (by rw [d3.una]; exact c2') (by rw [d3.una, d3.wnd]; exact hk) with z | ⟨z1, z2, z3⟩
    · unfold afterAck
      rw [z]
      intro p hm; exact (d2 p hm).edge rfl rfl
    · generalize processAck v g = y at *
      unfold afterAck
      simp only
      rw [d3.una, d3.wnd] at z3
      split
      · intro p hm; exact (d2 p hm).edge rfl rfl
      · intro p hm
        rcases List.mem_append.1 hm with x | x
        · exact (d2 p x).edge rfl rfl
        · exact .inl (z3 p (dropAfterAck_win z1 hr p x))
      · intro p hm
        rcases List.mem_append.1 hm with x | x
        · exact (d2 p x).edge rfl rfl
        · rcases step6_win z1 hr hw _ p x with w | w
          · exact .inl (z3 p w)
          · right; rw [hu, ← z2]; exact w.within

theorem syncBlk_win (hp : Plain s) (hr : r.Fine) (hw : g.win < 2 ^ 63) (h0 : 0 ≤ diff s.max s.una) (hf : diff s.max s.una ≤ s.wnd) (wn : Nat) :
    ∀ p ∈ (syncBlk s g r wn).2, InEdge s g p := by
  have hst : s.st ≠ .synRcvd := by intro c; have := hp.syn; rw [c] at this; exact absurd this (by decide)
  unfold syncBlk
  rw [if_neg (by simp [hst])]
  simp only
  have ht : SameW s (trimHead s g).1 ∧ (trimHead s g).1.max = s.max ∧ (trimHead s g).1.st = s.st ∧ (trimHead s g).2.ack = g.ack ∧
      (trimHead s g).2.ackf = g.ackf ∧ (trimHead s g).2.win = g.win := by
    unfold trimHead
    simp only
    generalize (if g.syn = true then g.seq + 1 else g.seq) = sq
    generalize (if g.syn = true then diff s.rcvNxt g.seq - 1 else diff s.rcvNxt g.seq) = td
    split
    · split
      · exact ⟨⟨rfl, rfl, rfl, id, rfl, rfl, rfl⟩, rfl, rfl, rfl, rfl, rfl⟩
      · exact ⟨⟨rfl, rfl, rfl, id, rfl, rfl, rfl⟩, rfl, rfl, rfl, rfl, rfl⟩
    · exact ⟨⟨rfl, rfl, rfl, id, rfl, rfl, rfl⟩, rfl, rfl, rfl, rfl, rfl⟩
  generalize (trimHead s g).1 = s1 at *
  generalize (trimHead s g).2 = g1 at *
  obtain ⟨t1, t2, t3, t4, t5, t6⟩ := ht
  have pl := t1.plain hp
  split
  · simp
  generalize diff (g1.seq + BitVec.ofNat 32 g1.tlen) (s1.rcvNxt + BitVec.ofNat 32 wn) = ov
  split
  · intro p hm; exact (dropAfterAck_win pl hr p hm).edge t1.una t1.wnd
  have u1 : ∀ b : Bool, SameW s (if b = true then { s1 with acknow := true } else s1) ∧
      (if b = true then { s1 with acknow := true } else s1).max = s.max ∧
      (if b = true then { s1 with acknow := true } else s1).st = s.st := by
    intro b
    cases b
    · exact ⟨t1, t2, t3⟩
    · exact ⟨⟨t1.sack, t1.force, t1.ns, t1.syn, t1.wnd, t1.buf, t1.una⟩, t2, t3⟩
  obtain ⟨v1, v2, v3⟩ := u1 (decide (ov > 0) && decide (ov ≥ g1.tlen))
  generalize (if (decide (ov > 0) && decide (ov ≥ g1.tlen)) = true then { s1 with acknow := true } else s1) = s2 at *
  have w1 : (if ov > 0 then { g1 with tlen := g1.tlen - ov.toNat, fin := false } else g1).ack = g.ack ∧
      (if ov > 0 then { g1 with tlen := g1.tlen - ov.toNat, fin := false } else g1).ackf = g.ackf ∧
      (if ov > 0 then { g1 with tlen := g1.tlen - ov.toNat, fin := false } else g1).win = g.win := by
    split <;> exact ⟨t4, t5, t6⟩
  generalize (if ov > 0 then { g1 with tlen := g1.tlen - ov.toNat, fin := false } else g1) = g2 at *
  have pl2 := v1.plain hp
  split
  · -- SYN: the connection is dropped
    unfold tcpDrop
    split
    · have hc : SameW s { s2 with st := .closed } := ⟨v1.sack, v1.force, v1.ns, fun _ => rfl, v1.wnd, v1.buf, v1.una⟩
      intro p hm
      exact (hc.out hp _ hr.one p hm).edge rfl rfl
    · simp
  split
  · rw [if_neg (by rw [v3, pl2.ns]; simp [hst])]
    split
    · intro p hm; exact (dropAfterAck_win pl2 hr p hm).edge v1.una v1.wnd
    · simp
  · rename_i hnf
    intro p hm
    have := ackBlk_win pl2 hr (by rw [w1.2.2]; exact hw) (by rw [v2, v1.una]; exact h0) (by rw [v2, v1.una, v1.wnd]; exact hf) (by simpa using hnf) p hm
    unfold InEdge newUna at this ⊢
    rw [v1.una, v1.wnd, v2, w1.1, w1.2.1, w1.2.2] at this
    exact this

/-- **C87**, a segment: when everything sent so far lies in the window, the data sent in reply lies in the window known
before or in the one the segment offers. -/
theorem reply_within_window_partial (hp : Plain s) (hr : r.Fine) (hw : g.win < 2 ^ 63) (h0 : 0 ≤ diff s.max s.una) (hf : diff s.max s.una ≤ s.wnd) :
    ∀ p ∈ (step s (.seg g r)).2, Within p s.una s.wnd ∨ Within p (newUna s g) g.win := by
  have hst : s.st ≠ .synRcvd := by intro c; have := hp.syn; rw [c] at this; exact absurd this (by decide)
  have hst2 : s.st ≠ .synSent := by intro c; have := hp.syn; rw [c] at this; exact absurd this (by decide)
  have key : ∀ p ∈ (doSegment s g r).2, InEdge s g p := by
    unfold doSegment
    simp only
    split
    · rename_i c
      simp only [Bool.and_eq_true, decide_eq_true_eq] at c
      have pc := c.1.1.1.1.1
      unfold predOk at pc
      simp only [Bool.and_eq_true, beq_iff_eq, decide_eq_true_eq] at pc
      have hwin : g.win = s.wnd := pc.1.1.1.2
      have haf : g.ackf = true := pc.1.1.1.1.1.1.2
      have hu : newUna s g = g.ack := by
        unfold newUna; rw [if_pos]
        have c1 := c.1.1.1.2
        have c2 := c.1.1.2
        unfold seqGT at c1; unfold seqLEQ at c2
        simp only [decide_eq_true_eq] at c1 c2
        exact ⟨haf, by omega, c2⟩
      have hx : (predAck s g).una = g.ack ∧ (predAck s g).wnd = g.win ∧ Plain (predAck s g) := by
        have hb : (s.buf.drop (diff g.ack s.una).toNat).length ≤ 2 ^ 30 := by
          have := hp.buf; simp; omega
        unfold predAck
        simp only
        split
        · exact ⟨rfl, hwin.symm, ⟨hp.sack, hp.force, hp.ns, hp.syn, hp.wnd, hb⟩⟩
        · split
          · exact ⟨rfl, hwin.symm, ⟨hp.sack, hp.force, hp.ns, hp.syn, hp.wnd, hb⟩⟩
          · exact ⟨rfl, hwin.symm, ⟨hp.sack, hp.force, hp.ns, hp.syn, hp.wnd, hb⟩⟩
      split
      · intro p hm
        right
        rw [hu, ← hx.1, ← hx.2.1]
        exact (output_win _ _ hx.2.2 hr.one p hm).within
      · simp
    split
    · split
      · simp
      · intro p hm
        refine (SameW.out (s := s) ?_ hp _ hr.one p hm).edge rfl rfl
        exact ⟨rfl, rfl, rfl, id, rfl, rfl, rfl⟩
    rw [if_neg (by simp [hst])]
    split
    · simp
    split
    · split
      · intro p hm; exact (dropAfterAck_win hp hr p hm).edge rfl rfl
      · simp
    · exact syncBlk_win hp hr hw h0 hf _
  unfold step
  split
  · simp
  · exact key

/-- **C87**, everything but segments and probes: the data sent lies in the window. -/
theorem sent_within_window (hp : Plain s) (ev : Ev) (h1 : ∀ g r, ev ≠ .seg g r) (h2 : ∀ es, ev ≠ .persistTimer es)
    (h3 : ∀ d es, ev ≠ .oob d es) (hb : s.buf.length + ev.bytes.length ≤ 2 ^ 30)
    (he : ∀ e ∈ ev.envs, e.Ok ∧ e.cwnd < 2 ^ 63) : ∀ p ∈ (step s ev).2, Within p s.una s.wnd := by
  have out : ∀ (t : Tcb) (es : List Env), (∀ e ∈ es, e.Ok ∧ e.cwnd < 2 ^ 63) → SameW s t → ∀ p ∈ (output t es).2, Within p s.una s.wnd :=
    fun t es h x p hm => (x.out hp es h p hm).within
  unfold step
  split
  · simp
  · cases ev with
    | write d es =>
      simp only
      split
      · simp
      · intro p hm
        have hb : s.buf.length + d.length ≤ 2 ^ 30 := hb
        have := output_win es { s with buf := s.buf ++ d, written := s.written ++ d }
          ⟨hp.sack, hp.force, hp.ns, hp.syn, hp.wnd, by show (s.buf ++ d).length ≤ _; simp only [List.length_append]; omega⟩ he p hm
        exact this.within
    | oob d es => exact absurd rfl (h3 _ _)
    | persistTimer es => exact absurd rfl (h2 _)
    | seg g r => exact absurd rfl (h1 _ _)
    | close es =>
      simp only
      split
      · simp
      · refine out _ es he ?_
        unfold usrClosed
        simp only
        have hx : outSyn s.st = false → outSyn .finWait1 = false := fun _ => rfl
        split
        · exact ⟨rfl, rfl, rfl, id, rfl, rfl, rfl⟩
        · exact ⟨rfl, rfl, rfl, fun _ => rfl, rfl, rfl, rfl⟩
        · exact ⟨rfl, rfl, rfl, id, rfl, rfl, rfl⟩
        · exact ⟨rfl, rfl, rfl, id, rfl, rfl, rfl⟩
        · exact ⟨rfl, rfl, rfl, fun _ => rfl, rfl, rfl, rfl⟩
        · exact ⟨rfl, rfl, rfl, fun _ => rfl, rfl, rfl, rfl⟩
        · exact ⟨rfl, rfl, rfl, id, rfl, rfl, rfl⟩
    | rexmtTimer es =>
      simp only
      split
      · exact out _ es he ⟨rfl, rfl, rfl, id, rfl, rfl, rfl⟩
      · simp
    | delackTimer es => exact out _ es he ⟨rfl, rfl, rfl, id, rfl, rfl, rfl⟩
    | rcvd es => exact out _ es he (SameW.refl s)
    | mtudisc es => exact out _ es he ⟨rfl, rfl, rfl, id, rfl, rfl, rfl⟩
    | drop es =>
      simp only
      unfold tcpDrop
      split
      · exact out _ es he ⟨rfl, rfl, rfl, fun _ => rfl, rfl, rfl, rfl⟩
      · simp

/-! ## Histories -/

theorem step6_force (s : Tcb) (g : Seg) (r : REnv) (need : Bool) : (step6 s g r need).1.force = s.force := by
  have h1 : (wndBlk s g).1.force = s.force := by unfold wndBlk; split <;> rfl
  have h2 : ∀ u, (textFin u g r).1.force = u.force := by
    intro u; unfold textFin; simp only
    generalize ((decide (g.tlen ≠ 0) || g.fin) && decide (u.st ≠ .timeWait)) = c
    cases c <;> cases r.finUp <;> rfl
  have h3 : ∀ u f, (finSt u f).force = u.force := by
    intro u f; unfold finSt; split
    · split
      · rfl
      · split <;> rfl
    · rfl
  unfold step6
  simp only
  refine Eq.trans ?_ (h1)
  generalize (wndBlk s g).1 = v
  generalize (wndBlk s g).2 = w2
  split
  · rfl
  · refine Eq.trans ?_ (h2 v)
    generalize (textFin v g r).1 = v2
    generalize (textFin v g r).2 = f2
    split
    · rfl
    · refine Eq.trans ?_ (h3 v2 f2)
      split
      · exact (output_frame _ _).force
      · rfl

theorem dropAfterAck_force (s : Tcb) (g : Seg) (r : REnv) : (dropAfterAck s g r).1.force = s.force := by
  unfold dropAfterAck; split
  · rfl
  · exact (output_frame _ _).force

theorem tcpDrop_force (s : Tcb) (es : List Env) : (tcpDrop s es).1.force = s.force := by
  unfold tcpDrop; split
  · exact (output_frame { s with st := .closed } es).force
  · rfl

theorem processAck_force (s : Tcb) (g : Seg) : (processAck s g).1.force = s.force := by
  have h1 : (ackTimer s g).force = s.force := by
    unfold ackTimer; split
    · rfl
    · split <;> rfl
  unfold processAck
  simp only
  refine Eq.trans ?_ (h1)
  generalize ackTimer s g = v
  split
  · rfl
  · generalize hal : decide (_ > (v.buf.length : Int)) = al
    have h2 : (ackNew v g (diff g.ack s.una) al).force = v.force := by cases al <;> rfl
    refine Eq.trans ?_ (h2)
    generalize ackNew v g (diff g.ack s.una) al = u
    unfold ackFin
    split
    · rfl
    · split
      · rfl
      · split <;> rfl

theorem dupAck_force (s : Tcb) (g : Seg) (r : REnv) : (dupAck s g r).1.force = s.force := by
  unfold dupAck
  split
  · split
    · rfl
    · simp only
      split
      · exact (output_frame _ _).force
      · split
        · split
          · rfl
          · exact (output_frame { s with dupacks := s.dupacks + 1, rexmt := false, nxt := g.ack, recover := s.max, fastrec := true } r.es1).force
        · split
          · exact (output_frame _ _).force
          · rfl
  · rfl

theorem afterAck_force (q : Tcb × List Pkt × K) (g : Seg) (r : REnv) : (afterAck q g r).1.force = q.1.force := by
  unfold afterAck
  split
  · rfl
  · exact dropAfterAck_force _ _ _
  · exact step6_force _ _ _ _

theorem ackBlk_force (s : Tcb) (g : Seg) (r : REnv) : (ackBlk s g r).1.force = s.force := by
  unfold ackBlk
  simp only
  have h1 : (if s.st = .synRcvd then
      { s with wnd := if r.scaled then g.win else s.wnd, needFin := false,
               st := if s.needFin then .finWait1 else .established, wl1 := g.seq - 1 }
    else s).force = s.force := by split <;> rfl
  refine Eq.trans ?_ (h1)
  generalize (if s.st = .synRcvd then
      { s with wnd := if r.scaled then g.win else s.wnd, needFin := false,
               st := if s.needFin then .finWait1 else .established, wl1 := g.seq - 1 }
    else s) = s1
  split
  · rfl
  · split
    · exact dupAck_force _ _ _
    · have h2 : (partialAck s1 g r).1.force = s1.force := by
        unfold partialAck
        split
        · split
          · exact (output_frame _ _).force
          · exact (output_frame { s1 with rexmt := false, nxt := g.ack, acknow := true } r.es1).force
        · rfl
      refine Eq.trans ?_ (h2)
      generalize partialAck s1 g r = q
      split
      · rfl
      · refine (processAck_force _ _).trans ?_
        split <;> rfl

theorem synSentBlk_force (s : Tcb) (g : Seg) (r : REnv) (wn : Nat) : (synSentBlk s g r wn).1.force = s.force := by
  unfold synSentBlk
  have h1 : (synSentOn s g r wn).force = s.force := by unfold synSentOn; split <;> rfl
  split
  · rfl
  · split
    · split
      · exact tcpDrop_force _ _
      · rfl
    · split
      · rfl
      · simp only
        refine Eq.trans ?_ (h1)
        generalize synSentOn s g r wn = v
        split
        · exact (afterAck_force _ _ _).trans (processAck_force _ _)
        · exact step6_force _ _ _ _

theorem syncBlk_force (s : Tcb) (g : Seg) (r : REnv) (wn : Nat) : (syncBlk s g r wn).1.force = s.force := by
  unfold syncBlk
  split
  · rfl
  · simp only
    have h1 : (trimHead s g).1.force = s.force := by
      unfold trimHead
      simp only
      generalize (if g.syn = true then g.seq + 1 else g.seq) = sq
      generalize (if g.syn = true then diff s.rcvNxt g.seq - 1 else diff s.rcvNxt g.seq) = td
      split
      · split <;> rfl
      · rfl
    refine Eq.trans ?_ (h1)
    generalize (trimHead s g).1 = s1
    generalize (trimHead s g).2 = g1
    split
    · rfl
    generalize diff (g1.seq + BitVec.ofNat 32 g1.tlen) (s1.rcvNxt + BitVec.ofNat 32 wn) = ov
    split
    · exact dropAfterAck_force _ _ _
    have h2 : (if (decide (ov > 0) && decide (ov ≥ g1.tlen)) = true then { s1 with acknow := true } else s1).force = s1.force := by
      split <;> rfl
    refine Eq.trans ?_ (h2)
    generalize (if (decide (ov > 0) && decide (ov ≥ g1.tlen)) = true then { s1 with acknow := true } else s1) = s2
    generalize (if ov > 0 then { g1 with tlen := g1.tlen - ov.toNat, fin := false } else g1) = g2
    split
    · exact tcpDrop_force _ _
    split
    · split
      · exact step6_force _ _ _ _
      · split
        · exact dropAfterAck_force _ _ _
        · rfl
    · exact (afterAck_force _ _ _).trans (ackBlk_force _ _ _)

theorem doSegment_force (s : Tcb) (g : Seg) (r : REnv) : (doSegment s g r).1.force = s.force := by
  unfold doSegment
  simp only
  split
  · have h : (predAck s g).force = s.force := by
      unfold predAck; simp only; split
      · rfl
      · split <;> rfl
    split
    · exact (output_frame (predAck s g) r.es1).force.trans h
    · exact h
  split
  · split
    · rfl
    · exact (output_frame { s with rcvNxt := s.rcvNxt + BitVec.ofNat 32 g.tlen, wl1 := g.seq, acknow := true } r.es1).force
  split
  · rfl
  split
  · exact synSentBlk_force _ _ _ _
  split
  · unfold rstBlk
    split
    · split
      · rfl
      · split
        · split <;> rfl
        · split <;> rfl
    · rfl
  split
  · split
    · exact dropAfterAck_force _ _ _
    · rfl
  · exact syncBlk_force _ _ _ _

theorem step_force (s : Tcb) (ev : Ev) (h : s.force = false) : (step s ev).1.force = false := by
  unfold step
  split
  · exact h
  · cases ev with
    | write d es =>
      simp only; split
      · exact h
      · exact (output_frame _ _).force.trans h
    | oob d es =>
      simp only; split
      · exact h
      · rfl
    | close es =>
      simp only
      have hu : (usrClosed { s with cantSend := true }).force = s.force := by
        unfold usrClosed; split <;> rfl
      split
      · exact hu.trans h
      · exact ((output_frame _ _).force.trans hu).trans h
    | seg g r => exact (doSegment_force s g r).trans h
    | rexmtTimer es =>
      simp only; split
      · exact (output_frame _ _).force.trans h
      · exact h
    | persistTimer es =>
      simp only; split
      · rfl
      · exact h
    | delackTimer es => exact (output_frame _ _).force.trans h
    | rcvd es => exact (output_frame _ _).force.trans h
    | mtudisc es => exact (output_frame _ _).force.trans h
    | drop es => exact (tcpDrop_force _ _).trans h

theorem hist_force {s0 s : Tcb} {ps : List Pkt} (h : Hist s0 s ps) : s.force = false := by
  induction h with
  | nil h => exact h.flags.2.2.2.2
  | snoc ev _ _ _ ih => exact step_force _ ev ih

/-- Between two events of a history the conditions of the theorems above hold. -/
theorem hist_plain {s0 s : Tcb} {ps : List Pkt} (h : Hist s0 s ps) (hs : s0.sackPermit = false) (hp : ∀ q ∈ ps, ¬ FinProbe q)
    (hw : s.wnd < 2 ^ 63) : Plain s ∧ 0 ≤ diff s.max s.una := by
  obtain ⟨hc, hs'⟩ := hist_clean h hs hp
  obtain ⟨_, fa, no, mo, a⟩ := hist_at h hc
  refine ⟨⟨hs', hist_force h, a.ns, ?_, hw, a.size⟩, by rw [a.gap]; omega⟩
  have := a.stl
  unfold outSyn; split
  · rename_i c; exact absurd c this.2.1
  · rename_i c; exact absurd c this.2.2
  · rfl

/-- **C87** for a history: everything but segments and probes. -/
theorem hist_within_window {s0 s : Tcb} {ps : List Pkt} (h : Hist s0 s ps) (hs : s0.sackPermit = false)
    (hp : ∀ q ∈ ps, ¬ FinProbe q) (hw : s.wnd < 2 ^ 63) (ev : Ev) (h1 : ∀ g r, ev ≠ .seg g r)
    (h2 : ∀ es, ev ≠ .persistTimer es) (h3 : ∀ d es, ev ≠ .oob d es) (hb : s.buf.length + ev.bytes.length ≤ BufMax)
    (he : ∀ e ∈ ev.envs, e.Ok ∧ e.cwnd < 2 ^ 63) : ∀ p ∈ (step s ev).2, Within p s.una s.wnd :=
  sent_within_window (hist_plain h hs hp hw).1 ev h1 h2 h3 hb he

/-- **C87** for a history: segments. -/
theorem hist_reply_within_window_partial {s0 s : Tcb} {ps : List Pkt} (h : Hist s0 s ps) (hs : s0.sackPermit = false)
    (hp : ∀ q ∈ ps, ¬ FinProbe q) (hf : diff s.max s.una ≤ s.wnd) (hw : s.wnd < 2 ^ 63) (g : Seg) (r : REnv) (hr : r.Fine)
    (hg : g.win < 2 ^ 63) : ∀ p ∈ (step s (.seg g r)).2, Within p s.una s.wnd ∨ Within p (newUna s g) g.win :=
  reply_within_window_partial (hist_plain h hs hp hw).1 hr hg (hist_plain h hs hp hw).2 hf

/-- Ten bytes for a window of four: four go out; after their acknowledgement the next four. -/
example : (run { demo with wnd := 4, maxwnd := 4 } [.write [1, 2, 3, 4, 5, 6, 7, 8, 9, 10] [envOk],
      .seg (ackSeg 5001 1005 4) (renv [envOk])]).2.map (fun p => (p.seq.toNat, p.data.length)) = [(1001, 4), (1005, 4)] := by
  decide +kernel

example : Plain { demo with wnd := 4 } ∧ 0 ≤ diff demo.max demo.una := by
  refine ⟨⟨rfl, rfl, rfl, rfl, ?_, ?_⟩, ?_⟩ <;> decide

instance : Inhabited Pkt := ⟨⟨0, 0, false, false, false, false, [], false, false⟩⟩

/-- Four bytes in flight, the window closed by a segment with text, five more bytes written. -/
def shrunk : Tcb := (run { demo with wnd := 4 } [.write [1, 2, 3, 4] [envOk],
  .seg { ackSeg 5001 1001 0 with tlen := 5 } { renv [envOk] with rcvTo := 5006 }, .write [5, 6, 7, 8, 9] [envOk]]).1

/-- **C87 violated**: the peer closes its window after four bytes are in flight, then an old segment (sequence number before
the last window update) acknowledges them: `snd_wnd` is not updated but reduced by four, below zero, and wraps to
2^64 - 4 (src/ofp_tcp_input.c:2582-2588): everything written is sent at once to a peer whose window is closed, whatever
window the segment itself offers. -/
theorem reply_within_window_violated : Fresh { demo with wnd := 4 } ∧ shrunk.wnd = 0 ∧
    (step shrunk (.seg (ackSeg 4990 1005 0) (renv [envOk]))).2.map (fun p => (p.seq.toNat, p.data.length)) = [(1005, 5)] ∧
    ¬ (Within ((step shrunk (.seg (ackSeg 4990 1005 0) (renv [envOk]))).2.head!) shrunk.una shrunk.wnd) ∧
    ¬ (Within ((step shrunk (.seg (ackSeg 4990 1005 0) (renv [envOk]))).2.head!) 1005 0) := by
  refine ⟨by constructor <;> decide, ?_, ?_, ?_, ?_⟩
  · decide +kernel
  · decide +kernel
  · unfold Within; decide +kernel
  · unfold Within; decide +kernel

end
end Verif.Snd

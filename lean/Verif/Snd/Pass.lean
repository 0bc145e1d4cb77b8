import Verif.Snd.Inv
/-!
# One pass of `ofp_tcp_output` preserves the invariant and sends what was written
-/
namespace Verif.Snd
open Verif.Tcp

/-- What is known of the local variables of a pass at the decision to send. -/
structure Ready (s : Tcb) (fa no mo : Nat) (w : W) : Prop where
  syn : w.syn = false
  len0 : 0 ≤ w.len
  new : w.sackRx = false → w.len = 0 ∨ (w.off = no ∧ (no : Int) + w.len ≤ s.buf.length)
  rtx : w.sackRx = true → ∃ k : Nat, w.rx = seqOf s.iss (base s fa + k) ∧ w.off = k ∧ (k : Int) + w.len + 1 ≤ mo
  prs : w.sackRx = true → s.force = true → s.persist = false
  out : w.fin = true → outFin s.st = true
  fnew : w.fin = true → w.sackRx = false → (s.buf.length : Int) ≤ no + w.len
  frtx : w.fin = true → w.sackRx = true → (s.buf.length : Int) ≤ w.off + w.len

theorem ulminCC_le (cc : Nat) (win : Int) : ulminCC cc win ≤ cc := by
  unfold ulminCC; split
  · omega
  · split <;> omega

theorem lenBlk_le (s : Tcb) (e : Env) (w : W) (h : w.sackRx = false) :
    (lenBlk s e w).len ≤ s.buf.length - w.off ∨ (lenBlk s e w).len ≤ 0 := by
  unfold lenBlk
  rw [if_neg (by simp [h])]
  have u1 := ulminCC_le s.buf.length w.sendwin
  have u2 := ulminCC_le s.buf.length (toI64 s.wnd)
  split
  · left; simp only; omega
  · simp only
    split
    · left; simp only
      split <;> split <;> omega
    · right; simp only; omega

theorem lenBlk_same (s : Tcb) (e : Env) (w : W) : (lenBlk s e w).sackRx = w.sackRx ∧ (lenBlk s e w).off = w.off ∧
    (lenBlk s e w).rx = w.rx ∧ (lenBlk s e w).syn = w.syn ∧ (lenBlk s e w).fin = w.fin ∧
    (lenBlk s e w).sendwin = w.sendwin ∧ (lenBlk s e w).alot = w.alot ∧ (lenBlk s e w).squeezed = w.squeezed ∧
    (w.sackRx = true → (lenBlk s e w).len = w.len) := by
  unfold lenBlk
  by_cases c : w.sackRx = true
  · rw [if_pos c]; simp
  · rw [if_neg c]
    split
    · simp [c]
    · simp only
      split <;> simp [c]

theorem forceBlk_w (s : Tcb) (w : W) : (forceBlk s w).2.sackRx = w.sackRx ∧ (forceBlk s w).2.off = w.off ∧
    (forceBlk s w).2.rx = w.rx ∧ (forceBlk s w).2.syn = w.syn ∧ ((forceBlk s w).2.fin = true → w.fin = true) ∧
    (forceBlk s w).2.len = w.len ∧ (forceBlk s w).2.alot = w.alot ∧ (forceBlk s w).2.squeezed = w.squeezed := by
  unfold forceBlk
  split
  · split
    · simp only; refine ⟨trivial, trivial, trivial, trivial, ?_, trivial, trivial, trivial⟩
      split <;> simp
    · simp
  · simp

theorem forceBlk_frame (s : Tcb) (w : W) : Frame s (forceBlk s w).1 := by
  unfold forceBlk; split
  · split <;> constructor <;> rfl
  · constructor <;> rfl

theorem forceBlk_more (s : Tcb) (w : W) : (forceBlk s w).1.max = s.max ∧ (forceBlk s w).1.nxt = s.nxt ∧
    (forceBlk s w).1.sentFin = s.sentFin ∧ (forceBlk s w).1.finProbe = s.finProbe ∧
    (forceBlk s w).1.squeezed = s.squeezed ∧ (forceBlk s w).1.hung = s.hung ∧
    (forceBlk s w).1.rexmt = s.rexmt ∧ (forceBlk s w).1.acknow = s.acknow := by
  unfold forceBlk; split
  · split <;> simp
  · simp

theorem negBlk_frame (s : Tcb) (w : W) : Frame s (negBlk s w).1 := by
  unfold negBlk; split
  · split <;> constructor <;> rfl
  · constructor <;> rfl

theorem negBlk_more (s : Tcb) (w : W) : (negBlk s w).1.max = s.max ∧
    (negBlk s w).1.sentFin = s.sentFin ∧ (negBlk s w).1.finProbe = s.finProbe ∧
    (negBlk s w).1.squeezed = s.squeezed ∧ (negBlk s w).1.hung = s.hung ∧ (negBlk s w).1.acknow = s.acknow := by
  unfold negBlk; split
  · split <;> simp
  · simp

/-- 213-410 keep everything but `snd_nxt`, the timers and the ghost. -/
theorem prep_frame (s : Tcb) (e : Env) : Frame s (prep s e).1 := by
  unfold prep
  simp only
  refine Frame.trans (adjustNxt_frame s e) ?_
  have sq : ∀ (t : Tcb) (b : Bool), Frame t { t with squeezed := b } := fun t b => by constructor <;> rfl
  refine Frame.trans ?_ (sq _ _)
  refine Frame.trans ?_ (negBlk_frame _ _)
  exact forceBlk_frame _ _

theorem prep_more (s : Tcb) (e : Env) : (prep s e).1.max = s.max ∧ (prep s e).1.sentFin = s.sentFin ∧
    (prep s e).1.finProbe = s.finProbe ∧ (prep s e).1.hung = s.hung ∧ (prep s e).1.acknow = s.acknow ∧
    (s.squeezed = true → (prep s e).1.squeezed = true) := by
  unfold prep
  simp only
  refine ⟨?_, ?_, ?_, ?_, ?_, ?_⟩
  · rw [(negBlk_more _ _).1, (forceBlk_more _ _).1]; exact (adjustNxt_more s e).1
  · rw [(negBlk_more _ _).2.1, (forceBlk_more _ _).2.2.1]; exact (adjustNxt_more s e).2.1
  · rw [(negBlk_more _ _).2.2.1, (forceBlk_more _ _).2.2.2.1]; exact (adjustNxt_more s e).2.2.1
  · rw [(negBlk_more _ _).2.2.2.2.1, (forceBlk_more _ _).2.2.2.2.2.1]; exact (adjustNxt_more s e).2.2.2.2.1
  · rw [(negBlk_more _ _).2.2.2.2.2, (forceBlk_more _ _).2.2.2.2.2.2.2]; exact (adjustNxt_more s e).2.2.2.2.2.2.2
  · intro h
    rw [(negBlk_more _ _).2.2.2.1, (forceBlk_more _ _).2.2.2.2.1]
    simp [(adjustNxt_more s e).2.2.2.1, h]

section
variable {s : Tcb} {fa no mo : Nat}

theorem sackRx_win (s : Tcb) (e : Env) (h : (sackPick s e).sackRx = true) : 0 < (sackPick s e).sendwin := by
  unfold sackPick at h ⊢
  simp only at h ⊢
  split at h
  · rename_i c
    rw [if_pos c]
    split at h
    · simp at h
    · rename_i rx en hH
      split at h
      · simp at h
      · rename_i c2
        rw [if_neg c2]
        simp only [decide_eq_true_eq] at h
        simp only
        unfold holeLen at h
        split at h
        · omega
        · split at h <;> omega
  · simp at h

/-- The blocks 213-486 of a pass. -/
theorem prep_at (h : At s fa no mo) (e : Env) (hq : (prep s e).1.squeezed = false) :
    ∃ k, At (prep s e).1 fa k mo ∧ Ready (prep s e).1 fa k mo (prep s e).2 := by
  obtain ⟨k, _, h1⟩ := adjustNxt_at h e
  have hp := sackPick_at h1 e
  have hwin := sackRx_win (adjustNxt s e) e
  have hfr := prep_frame s e
  unfold prep at hq ⊢
  generalize hs1 : adjustNxt s e = s1 at *
  generalize hw0 : sackPick s1 e = w0 at *
  obtain ⟨p1, p2, p3, p4, p5, p6⟩ := hp
  simp only at hq ⊢
  -- hidden flags
  have hw1 : hidden s1 w0 = w0 := by
    unfold hidden; rw [h1.nf, h1.ns]; simp
  rw [hw0, hw1] at hq ⊢
  generalize hs2 : s1 = s2 at *
  have h2 : At s2 fa k mo := h1
  have hf := forceBlk_frame s2 w0
  have hm := forceBlk_more s2 w0
  have hw := forceBlk_w s2 w0
  have hpf : w0.sackRx = true → (forceBlk s2 w0).1.force = true → (forceBlk s2 w0).1.persist = false := by
    intro a b
    have := hwin a
    unfold forceBlk at b ⊢
    by_cases c : s2.force = true
    · rw [if_pos c, if_neg (by omega)]
    · rw [if_neg c] at b; exact absurd b c
  generalize hs3 : (forceBlk s2 w0).1 = s3 at *
  generalize hw2 : (forceBlk s2 w0).2 = w2 at *
  have h3 : At s3 fa k mo := h2.congr hf.st hf.iss hf.una hm.2.1 hm.1 hf.buf hf.needSyn hf.needFin hm.2.2.1 hf.cantSend
    hf.dead hf.written
  have hbase : base s3 fa = base s2 fa := by rw [hf.base]
  have hiss : s3.iss = s2.iss := by rw [hf.iss]
  have hst : s3.st = s2.st := by rw [hf.st]
  have hL := lenBlk_same s3 e w2
  have hLe := lenBlk_le s3 e w2
  generalize hw3 : lenBlk s3 e w2 = w3 at *
  obtain ⟨l1, l2, l3, l4, l5, l6, l7, l9, l8⟩ := hL
  obtain ⟨f1, f2, f3, f4, f5, f6, f7, f8⟩ := hw
  have hsyn : w3.syn = false := by
    rw [l4, f4, p1]
    have := h1.stl
    unfold outSyn
    split
    · rename_i c; exact absurd c this.2.1
    · rename_i c; exact absurd c this.2.2
    · rfl
  have hw4 : synBlk s3 w3 = w3 := by unfold synBlk; simp [hsyn]
  rw [hw4] at hq ⊢
  have hrx : w3.sackRx = true → ∃ k : Nat, w3.rx = seqOf s3.iss (base s3 fa + k) ∧ w3.off = k ∧ 0 < w3.len ∧
      (k : Int) + w3.len + 1 ≤ mo := by
    intro c
    have c0 : w2.sackRx = true := by rw [← l1]; exact c
    have c1 : w0.sackRx = true := by rw [← f1]; exact c0
    obtain ⟨k, q1, q2, q3, q4⟩ := p6 c1
    refine ⟨k, ?_, ?_, ?_, ?_⟩
    · rw [l3, f3, q1, hbase, hiss]
    · rw [l2, f2, q2]
    · rw [l8 c0, f6]; exact q3
    · rw [l8 c0, f6]; exact q4
  have hofft : w3.sackRx = false → w3.squeezed = false → w3.off = k := by
    intro c d
    rw [l2, f2]; apply p5
    · rw [← f1, ← l1]; exact c
    · rw [← f8, ← l9]; exact d
  have hnsq : w3.squeezed = true → w3.len ≤ 0 := by
    intro c
    simp only [Bool.or_eq_false_iff, Bool.and_eq_false_iff] at hq
    rcases hq.2 with d | d
    · exfalso
      unfold negBlk at d
      split at d
      · split at d <;> (simp only at d; rw [c] at d; exact absurd d (by simp))
      · simp only at d; rw [c] at d; exact absurd d (by simp)
    · unfold negBlk at d
      by_cases z : w3.len < 0
      · omega
      · rw [if_neg z] at d
        simpa using d
  have hfin : w3.fin = true → outFin s3.st = true := by
    intro c
    rw [l5] at c
    rw [hst, ← p2]; exact f5 c
  have hprs : w3.sackRx = true → s3.force = true → s3.persist = false := by
    intro a b; exact hpf (by rw [← f1, ← l1]; exact a) b
  -- negative length
  have key : ∃ k', At (negBlk s3 w3).1 fa k' mo ∧ (negBlk s3 w3).2.sackRx = w3.sackRx ∧ (negBlk s3 w3).2.rx = w3.rx ∧
      (negBlk s3 w3).2.off = w3.off ∧ (negBlk s3 w3).2.fin = w3.fin ∧ (negBlk s3 w3).2.syn = false ∧
      0 ≤ (negBlk s3 w3).2.len ∧
      (w3.sackRx = false → (negBlk s3 w3).2.len = 0 ∨ (w3.off = k' ∧ (k' : Int) + (negBlk s3 w3).2.len ≤ s3.buf.length)) ∧
      (w3.sackRx = true → (negBlk s3 w3).2.len = w3.len ∧ (negBlk s3 w3).1 = s3) := by
    unfold negBlk
    by_cases c : w3.len < 0
    · rw [if_pos c]
      have nrx : w3.sackRx ≠ true := by
        intro d
        obtain ⟨_, _, _, q, _⟩ := hrx d
        omega
      by_cases c2 : w3.sendwin = 0
      · rw [if_pos c2]
        refine ⟨0, ?_, rfl, rfl, rfl, rfl, hsyn, by simp, fun _ => .inl rfl, fun d => absurd d nrx⟩
        exact h3.setNxt (by omega) (by simp only; rw [h3.una]; rfl) rfl rfl rfl rfl rfl rfl rfl rfl rfl rfl rfl
      · rw [if_neg c2]
        exact ⟨k, h3, rfl, rfl, rfl, rfl, hsyn, by simp, fun _ => .inl rfl, fun d => absurd d nrx⟩
    · rw [if_neg c]
      refine ⟨k, h3, rfl, rfl, rfl, rfl, hsyn, by simp only; omega, ?_, fun _ => ⟨rfl, rfl⟩⟩
      intro d
      have d2 : w2.sackRx = false := by rw [← l1]; exact d
      simp only
      by_cases dq : w3.squeezed = true
      · left; have := hnsq dq; omega
      have d3 := hofft d (by simpa using dq)
      have d4 : w2.off = k := by rw [← l2]; exact d3
      rcases hLe d2 with q | q
      · right; exact ⟨d3, by omega⟩
      · left; omega
  obtain ⟨k', a1, a2, a3, a4, a5, a6, a7, a8, a9⟩ := key
  have nf := negBlk_frame s3 w3
  generalize hs4 : (negBlk s3 w3).1 = s4 at *
  generalize hw5 : (negBlk s3 w3).2 = w5 at *
  have hbl : s4.buf = s3.buf := nf.buf
  refine ⟨k', a1.congr rfl rfl rfl rfl rfl rfl rfl rfl rfl rfl rfl rfl, ?_⟩
  have hml := a1.mlt
  have hnm := a1.nm
  have hsz := a1.size
  refine ⟨a6, a7, ?_, ?_, ?_, ?_, ?_, ?_⟩
  · intro c
    have c : w5.sackRx = false := c
    simp only [finBlk]
    rw [a4, hbl]
    exact a8 (by rw [← a2]; exact c)
  · intro c
    have c : w5.sackRx = true := c
    rw [a2] at c
    obtain ⟨j, q1, q2, q3, q4⟩ := hrx c
    refine ⟨j, ?_, ?_, ?_⟩
    · show w5.rx = seqOf s4.iss (base s4 fa + j)
      rw [a3, q1, nf.iss, nf.base]
    · simp only [finBlk]; rw [a4, q2]
    · simp only [finBlk]; rw [(a9 c).1]; exact q4
  · intro c d
    have c : w5.sackRx = true := c
    rw [a2] at c
    rw [(a9 c).2] at d ⊢
    exact hprs c d
  · intro c
    simp only [finBlk, Bool.and_eq_true] at c
    rw [nf.st]; exact hfin (by rw [← a5]; exact c.1)
  · intro c d
    have d : w5.sackRx = false := d
    simp only [finBlk, d, Bool.and_eq_true] at c
    simp only [finBlk]
    have c2 := c.2
    rw [if_neg (by simp), a1.nxt, a1.una, seqOf_addInt _ _ _ a7, seqOf_add] at c2
    have hk : k' + w5.len.toNat ≤ 2 ^ 30 + 1 + 2 ^ 30 := by
      rcases a8 (by rw [← a2]; exact d) with q | q
      · omega
      · rw [← hbl] at q; omega
    generalize hbz : base s4 fa = bz at c2
    rw [show bz + k' + w5.len.toNat = bz + (k' + w5.len.toNat) by omega] at c2
    have z : ¬ (bz + (k' + w5.len.toNat) < bz + s4.buf.length) := by
      rw [lt_seqOf] at c2
      · simpa using c2
      · rcases a8 (by rw [← a2]; exact d) with q | q
        · omega
        · rw [← hbl] at q; omega
      · omega
    omega
  · intro c d
    have d : w5.sackRx = true := d
    obtain ⟨j, q1, q2, q3, q4⟩ := hrx (by rw [← a2]; exact d)
    have hl : w5.len = w3.len := (a9 (by rw [← a2]; exact d)).1
    simp only [finBlk, d, Bool.and_eq_true] at c
    simp only [finBlk]
    have c2 := c.2
    rw [if_pos trivial, a3, q1, ← nf.iss, ← nf.base, a1.una, seqOf_addInt _ _ _ a7, seqOf_add] at c2
    generalize hbz : base s4 fa = bz at c2
    rw [lt_seqOf _ _ _ (by omega) (by omega)] at c2
    have z : ¬ (bz + j + w5.len.toNat < bz + s4.buf.length) := by simpa using c2
    rw [a4, q2]
    omega

end

end Verif.Snd

import Verif.Snd.Moves
/-!
# Consequences of the decomposition into moves
-/
namespace Verif.Snd
open Verif.Tcp

section
variable {ev : Ev} {s0 s t : Tcb} {p : List Pkt}

/-! ## Ghosts -/

theorem sackPick_squeezed (s : Tcb) (e : Env) (h : s.sackPermit = false) : (sackPick s e).squeezed = false := by
  unfold sackPick; simp [h]

theorem synBlk_squeezed (s : Tcb) (w : W) : (synBlk s w).squeezed = w.squeezed := by
  unfold synBlk
  simp only
  generalize decide (s.st = .synRcvd) = d
  by_cases c : (w.syn && seqGT s.nxt s.una) = true
  · rw [if_pos c]; split <;> rfl
  · rw [if_neg c]; split <;> rfl

theorem prep_squeezed (s : Tcb) (e : Env) (h : s.sackPermit = false) : (prep s e).1.squeezed = s.squeezed := by
  have h1 : (adjustNxt s e).sackPermit = false := by rw [(adjustNxt_frame s e).sackPermit, h]
  have hq : ∀ (s : Tcb) (w : W), (negBlk s w).2.squeezed = w.squeezed ∧ (negBlk s w).1.squeezed = s.squeezed := by
    intro s w; unfold negBlk; split
    · split <;> exact ⟨rfl, rfl⟩
    · exact ⟨rfl, rfl⟩
  have hl : ∀ (s : Tcb) (w : W), (lenBlk s e w).squeezed = w.squeezed := by
    intro s w; unfold lenBlk; split
    · rfl
    · split
      · rfl
      · simp only; split <;> rfl
  have hf : ∀ (s : Tcb) (w : W), (forceBlk s w).2.squeezed = w.squeezed ∧ (forceBlk s w).1.squeezed = s.squeezed := by
    intro s w; unfold forceBlk; split
    · split <;> exact ⟨rfl, rfl⟩
    · exact ⟨rfl, rfl⟩
  have ha : (adjustNxt s e).squeezed = s.squeezed := by unfold adjustNxt; split <;> rfl
  unfold prep
  simp only
  rw [(hq _ _).1, (hq _ _).2, synBlk_squeezed, hl, (hf _ _).1, (hf _ _).2, ha]
  have : (hidden (adjustNxt s e) (sackPick (adjustNxt s e) e)).squeezed = false := sackPick_squeezed _ _ h1
  rw [this]; simp

theorem advance_probe_iff (s : Tcb) (w : W) (h : (advance s w).finProbe = true) :
    s.finProbe = true ∨ (w.fin = true ∧ s.force = true) := by
  cases c : (!s.force || !s.persist) with
  | true =>
    refine .inl ?_
    unfold advance at h
    rw [if_pos c] at h
    have e1 : ∀ x, (advTimer x w).finProbe = x.finProbe := by intro x; unfold advTimer; split <;> rfl
    have e2 : (advSeq s w).finProbe = s.finProbe := by unfold advSeq; simp only; generalize s.nxt + _ + _ = n; split <;> rfl
    rw [e1, e2] at h; exact h
  | false =>
    unfold advance at h
    rw [if_neg (by rw [c]; simp)] at h
    unfold advProbe at h
    simp only [Bool.or_eq_true] at h
    simp only [Bool.or_eq_false_iff, Bool.not_eq_false'] at c
    rcases h with h | h
    · exact .inl h
    · exact .inr ⟨h, c.1⟩

theorem sendSeg_probe (s : Tcb) (e : Env) (w : W) (h : (sendSeg s e w).1.finProbe = true) :
    s.finProbe = true ∨ ∃ q, (sendSeg s e w).2.1 = some q ∧ FinProbe q := by
  have hr : (reIss s w).finProbe = s.finProbe ∧ (reIss s w).force = s.force := by
    unfold reIss; split <;> exact ⟨rfl, rfl⟩
  unfold sendSeg at h ⊢
  simp only at h ⊢
  generalize reIss s w = s1 at *
  split at h
  · rw [← hr.1]; exact .inl h
  · rename_i c
    rw [if_neg c]
    have hb : ∀ x w', (unSent x e w').finProbe = x.finProbe := by intro x w'; unfold unSent; split <;> rfl
    have ha : ∀ x w', (unFin x w').finProbe = x.finProbe ∧ (unFin x w').force = x.force := by
      intro x w'; unfold unFin; split <;> exact ⟨rfl, rfl⟩
    generalize clip s1 e w = w1 at *
    have h' : (advance (unFin s1 w1) w1).finProbe = true := by rw [← hb _ w1]; exact h
    rcases advance_probe_iff _ _ h' with q | q
    · rw [(ha _ _).1, hr.1] at q; exact .inl q
    · exact .inr ⟨_, rfl, q⟩

theorem pass_probe (s : Tcb) (e : Env) (h : (pass s e).1.finProbe = true) :
    s.finProbe = true ∨ ∃ q ∈ (pass s e).2.1.toList, FinProbe q := by
  have hp := (prep_more s e)
  unfold pass at h ⊢
  simp only at h ⊢
  have hpp : (prep s e).1.finProbe = s.finProbe := by
    have hn : ∀ (s : Tcb) (w : W), (negBlk s w).1.finProbe = s.finProbe := by
      intro s w; unfold negBlk; split
      · split <;> rfl
      · rfl
    have hf : ∀ (s : Tcb) (w : W), (forceBlk s w).1.finProbe = s.finProbe := by
      intro s w; unfold forceBlk; split
      · split <;> rfl
      · rfl
    unfold prep
    simp only
    rw [hn, hf]
    unfold adjustNxt; split <;> rfl
  split at h
  · rename_i c
    rw [if_pos c]
    rcases sendSeg_probe _ e _ h with q | ⟨q, hq, hf⟩
    · rw [hpp] at q; exact .inl q
    · refine .inr ⟨q, ?_, hf⟩
      rw [hq]; simp
  · rw [← hpp]
    refine .inl ?_
    rw [← h]
    exact (idleBlk_ghost _).2.1.symm

theorem pass_squeezed (s : Tcb) (e : Env) (hs : s.sackPermit = false) : (pass s e).1.squeezed = s.squeezed := by
  unfold pass
  simp only
  split
  · rw [(sendSeg_ghost _ e _).1, prep_squeezed s e hs]
  · rw [(idleBlk_ghost _).1, prep_squeezed s e hs]

/-- A FIN probe is visible; nothing is squeezed without SACK. -/
theorem mv_ghost (m : Mv ev s0 s p t) : t.sackPermit = s.sackPermit ∧
    (t.finProbe = true → s.finProbe = true ∨ ∃ q ∈ p, FinProbe q) ∧ (s.sackPermit = false → t.squeezed = s.squeezed) := by
  induction m with
  | nil s => exact ⟨rfl, .inl, fun _ => rfl⟩
  | cat _ _ ih1 ih2 =>
    obtain ⟨a1, b1, c1⟩ := ih1
    obtain ⟨a2, b2, c2⟩ := ih2
    refine ⟨by rw [a2, a1], fun h => ?_, fun h => by rw [c2 (by rw [a1, h]), c1 h]⟩
    rcases b2 h with q | ⟨q, hq, hf⟩
    · rcases b1 q with q | ⟨q, hq, hf⟩
      · exact .inl q
      · exact .inr ⟨q, List.mem_append.2 (.inl hq), hf⟩
    · exact .inr ⟨q, List.mem_append.2 (.inr hq), hf⟩
  | pass s e _ _ => exact ⟨(pass_frame s e).sackPermit, pass_probe s e, pass_squeezed s e⟩
  | note h => exact ⟨h.sackPermit, by rw [h.finProbe]; exact .inl, fun _ => h.squeezed⟩
  | _ => exact ⟨rfl, .inl, fun _ => rfl⟩

theorem hist_clean {ps : List Pkt} (h : Hist s0 s ps) (hs : s0.sackPermit = false) (hp : ∀ q ∈ ps, ¬ FinProbe q) : Clean s ∧ s.sackPermit = false := by
  induction h with
  | nil h => exact ⟨h.ghosts, hs⟩
  | snoc ev _ _ _ ih =>
    rename_i s ps _ _ _
    obtain ⟨c, k⟩ := ih (fun q hq => hp q (List.mem_append.2 (.inl hq)))
    obtain ⟨a1, a2, a3⟩ := mv_ghost (step_mv s ev)
    refine ⟨⟨by rw [a3 k, c.1], ?_⟩, by rw [a1, k]⟩
    cases x : (step s ev).1.finProbe with
    | false => rfl
    | true =>
      rcases a2 x with q | ⟨q, hq, hf⟩
      · rw [c.2] at q; exact absurd q (by simp)
      · exact absurd hf (hp q (List.mem_append.2 (.inr hq)))

/-! ## Buffer and `snd_una` -/

/-- Buffer, stream and `snd_una` compared with those at the start of the event. -/
def BufI (ev : Ev) (s0 t : Tcb) : Prop :=
  t.iss = s0.iss ∧
  ((∃ d, (d = [] ∨ d = ev.bytes ∧ s0.cantSend = false) ∧ t.written = s0.written ++ d ∧ t.buf = s0.buf ++ d ∧ t.una = s0.una) ∨
   (∃ g r, ev = .seg g r ∧ g.ackf = true ∧ seqGT g.ack s0.una = true ∧ seqLEQ g.ack s0.max = true ∧ t.una = g.ack ∧
      t.written = s0.written ∧ t.buf = s0.buf.drop (diff g.ack s0.una).toNat))

theorem mv_buf (m : Mv ev s0 s p t) (h1 : s0.st ≠ .synSent) (h2 : s0.needSyn = false) : BufI ev s0 s → BufI ev s0 t := by
  have same : ∀ {a b : Tcb}, b.iss = a.iss → b.written = a.written → b.buf = a.buf → b.una = a.una →
      BufI ev s0 a → BufI ev s0 b := by
    intro a b e1 e2 e3 e4 h; unfold BufI at h ⊢; rw [e1, e2, e3, e4]; exact h
  induction m with
  | nil s => exact fun h => h
  | cat _ _ ih1 ih2 => exact fun h => ih2 (ih1 h)
  | pass s e _ _ =>
    have f := pass_frame s e
    exact same f.iss f.written f.buf f.una
  | note h => exact same h.iss h.written h.buf h.una
  | take s d hs hd hc =>
    intro _
    subst hs
    exact ⟨rfl, .inl ⟨d, .inr ⟨hd.symm, hc⟩, rfl, rfl, rfl⟩⟩
  | acked s hev hf hg1 hg2 hm =>
    rename_i g r
    intro ⟨hi, h⟩
    refine ⟨hi, .inr ⟨g, r, hev, hf, hg1 h1, hm, rfl, ?_⟩⟩
    rcases h with ⟨d, hd, hw, hb, hu⟩ | ⟨g', r', hev', _, _, _, hu, hw, hb⟩
    · have : d = [] := by
        rcases hd with q | q
        · exact q
        · rw [q.1, hev]; rfl
      subst this
      refine ⟨by rw [hw, List.append_nil], ?_⟩
      show s.buf.drop (diff g.ack s.una).toNat = _
      rw [hb, hu, List.append_nil]
    · rw [hev] at hev'
      obtain ⟨rfl, rfl⟩ := Ev.seg.inj hev'
      refine ⟨hw, ?_⟩
      show s.buf.drop (diff g.ack s.una).toNat = _
      rw [hu, hb]
      have : diff g.ack g.ack = 0 := by unfold diff; simp
      rw [this]; rfl
  | synAcked s h =>
    rcases h with h | h
    · exact absurd h h1
    · rw [h2] at h; exact absurd h (by simp)
  | _ => exact fun h => h

theorem step_written (s : Tcb) (ev : Ev) : (step s ev).1.written = s.written ++ taken s ev := by
  by_cases c0 : (s.dead || s.hung) = true
  · unfold step taken; rw [if_pos c0, if_pos (by simp [c0])]; simp
  · have key : ev.bytes = [] → (step s ev).1.written = s.written ++ taken s ev := by
      intro hb
      have ht : taken s ev = [] := by unfold taken; rw [hb]; split <;> rfl
      have : ∀ {a b : Tcb} {q : List Pkt}, Mv ev s a q b → b.written = a.written := by
        intro a b q m
        induction m with
        | nil s => rfl
        | cat _ _ i1 i2 => rw [i2, i1]
        | pass s e _ _ => exact (pass_frame s e).written
        | note h => exact h.written
        | take s d _ hd _ => rw [hb] at hd; subst hd; show s.written ++ [] = _; rw [List.append_nil]
        | _ => rfl
      rw [this (step_mv s ev), ht, List.append_nil]
    cases ev with
    | write d es =>
      unfold step taken; rw [if_neg c0]
      simp only
      by_cases c : s.cantSend = true
      · rw [if_pos c, if_pos (by simp [c])]; simp
      · rw [if_neg c, if_neg (by simp_all)]; exact (output_frame _ es).written
    | oob d es =>
      unfold step taken; rw [if_neg c0]
      simp only
      by_cases c : s.cantSend = true
      · rw [if_pos c, if_pos (by simp [c])]; simp
      · rw [if_neg c, if_neg (by simp_all)]; exact (output_frame _ es).written
    | _ => exact key rfl

/-! ## Timers -/

theorem pass_timers (s : Tcb) (e : Env) (h : s.rexmt = false ∨ s.persist = false) :
    (pass s e).1.rexmt = false ∨ (pass s e).1.persist = false := by
  have hn : ∀ (s : Tcb) (w : W), (s.rexmt = false ∨ s.persist = false) → ((negBlk s w).1.rexmt = false ∨ (negBlk s w).1.persist = false) := by
    intro s w h; unfold negBlk; split
    · split
      · exact .inl rfl
      · exact h
    · exact h
  have hf : ∀ (s : Tcb) (w : W), (s.rexmt = false ∨ s.persist = false) → ((forceBlk s w).1.rexmt = false ∨ (forceBlk s w).1.persist = false) := by
    intro s w h; unfold forceBlk; split
    · split
      · exact h
      · exact .inr rfl
    · exact h
  have hp : (prep s e).1.rexmt = false ∨ (prep s e).1.persist = false := by
    unfold prep
    simp only
    apply hn; apply hf
    unfold adjustNxt; split <;> exact h
  unfold pass
  simp only
  generalize prep s e = q at *
  split
  · have hr : (reIss q.1 q.2).rexmt = false ∨ (reIss q.1 q.2).persist = false := by unfold reIss; split <;> exact hp
    unfold sendSeg
    simp only
    generalize reIss q.1 q.2 = s1 at *
    generalize clip s1 e q.2 = w at *
    split
    · exact hr
    · have hu : (unFin s1 w).rexmt = false ∨ (unFin s1 w).persist = false := by unfold unFin; split <;> exact hr
      generalize unFin s1 w = s2 at *
      have ha : (advance s2 w).rexmt = false ∨ (advance s2 w).persist = false := by
        unfold advance
        split
        · have e2 : (advSeq s2 w).rexmt = s2.rexmt ∧ (advSeq s2 w).persist = s2.persist := by
            unfold advSeq; simp only; generalize s2.nxt + _ + _ = n; split <;> exact ⟨rfl, rfl⟩
          unfold advTimer; split
          · exact .inr rfl
          · rw [e2.1, e2.2]; exact hu
        · exact hu
      have hs : ∀ x : Tcb, (unSent x e w).rexmt = x.rexmt ∧ (unSent x e w).persist = x.persist := by
        intro x; unfold unSent; split <;> exact ⟨rfl, rfl⟩
      show (unSent (advance s2 w) e w).rexmt = false ∨ (unSent (advance s2 w) e w).persist = false
      rw [(hs _).1, (hs _).2]; exact ha
  · unfold idleBlk
    split
    · rename_i c
      simp only [Bool.and_eq_true, Bool.not_eq_true'] at c
      exact .inr c.2
    · split
      · rename_i c
        simp only [Bool.and_eq_true, Bool.not_eq_true'] at c
        exact .inl c.1.2
      · exact hp

theorem mv_timers (m : Mv ev s0 s p t) : (s.rexmt = false ∨ s.persist = false) → (t.rexmt = false ∨ t.persist = false) := by
  induction m with
  | cat _ _ ih1 ih2 => exact fun h => ih2 (ih1 h)
  | pass s e _ _ => exact pass_timers s e
  | note h => rw [h.rexmt, h.persist]; exact fun h => h
  | rexOff s => exact fun _ => .inl rfl
  | rexOn s h => exact fun _ => .inr h
  | _ => exact fun h => h

/-! ## FIN only after close -/

theorem clip_fin (s : Tcb) (e : Env) (w : W) (h : (clip s e w).fin = true) : w.fin = true := by
  unfold clip at h
  split at h
  · split at h
    · simp at h
    · simp at h
  · exact h

theorem prep_fin (s : Tcb) (e : Env) (h : (prep s e).2.fin = true) : outFin s.st = true ∨ s.needFin = true := by
  have hn : ∀ (s : Tcb) (w : W), (negBlk s w).2.fin = true → w.fin = true := by
    intro s w h; unfold negBlk at h; split at h
    · split at h <;> exact h
    · exact h
  have hs : ∀ (s : Tcb) (w : W), (synBlk s w).fin = true → w.fin = true := by
    intro s w h
    unfold synBlk at h
    simp only at h
    generalize decide (s.st = .synRcvd) = d at h
    by_cases c : (w.syn && seqGT s.nxt s.una) = true
    · rw [if_pos c] at h; split at h
      · simp at h
      · exact h
    · rw [if_neg c] at h; split at h
      · simp at h
      · exact h
  have ha := adjustNxt_frame s e
  unfold prep at h
  simp only [finBlk, Bool.and_eq_true] at h
  have h1 := hs _ _ (hn _ _ h.1)
  rw [(lenBlk_same _ _ _).2.2.2.2.1] at h1
  have h2 := (forceBlk_w _ _).2.2.2.2.1 h1
  unfold hidden at h2
  simp only [Bool.or_eq_true] at h2
  rw [ha.needFin] at h2
  rcases h2 with q | q
  · left
    rw [← ha.st]
    generalize adjustNxt s e = s1 at *
    unfold sackPick at q
    simp only at q
    split at q
    · split at q
      · exact q
      · split at q <;> exact q
    · exact q
  · exact .inr q

theorem pass_fin (s : Tcb) (e : Env) : ∀ q ∈ (pass s e).2.1.toList, q.fin = true → outFin s.st = true ∨ s.needFin = true := by
  unfold pass
  simp only
  split
  · intro q hq hf
    unfold sendSeg at hq
    simp only at hq
    split at hq
    · simp at hq
    · simp only [Option.toList_some, List.mem_singleton] at hq
      rw [hq] at hf
      exact prep_fin s e (clip_fin _ _ _ hf)
  · simp

/-- FIN states only after the user has closed. -/
def FinC (t : Tcb) : Prop := (outFin t.st = true → t.cantSend = true) ∧ (t.needFin = true → t.cantSend = true)

theorem mv_fin (h0 : FinC s0) (m : Mv ev s0 s p t) : (s0.cantSend = true → s.cantSend = true) → FinC s →
    FinC t ∧ (s.cantSend = true → t.cantSend = true) ∧ (t.cantSend = true → s.cantSend = true ∨ ∃ es, ev = .close es) ∧
    ∀ q ∈ p, q.fin = true → t.cantSend = true := by
  induction m with
  | nil s => exact fun _ h => ⟨h, fun h => h, .inl, by simp⟩
  | cat _ _ ih1 ih2 =>
    intro hc h
    obtain ⟨a1, b1, d1, c1⟩ := ih1 hc h
    obtain ⟨a2, b2, d2, c2⟩ := ih2 (fun x => b1 (hc x)) a1
    refine ⟨a2, fun x => b2 (b1 x), ?_, ?_⟩
    · intro x
      rcases d2 x with y | y
      · exact d1 y
      · exact .inr y
    intro q hq
    rcases List.mem_append.1 hq with z | z
    · exact fun y => b2 (c1 q z y)
    · exact c2 q z
  | pass s e _ _ =>
    intro _ h
    have f := pass_frame s e
    refine ⟨⟨by rw [f.st, f.cantSend]; exact h.1, by rw [f.needFin, f.cantSend]; exact h.2⟩, by rw [f.cantSend]; exact fun x => x,
      by rw [f.cantSend]; exact .inl, ?_⟩
    intro q hq hf
    rw [f.cantSend]
    rcases pass_fin s e q hq hf with z | z
    · exact h.1 z
    · exact h.2 z
  | note c =>
    intro _ h
    refine ⟨⟨by rw [c.st, c.cantSend]; exact h.1, ?_⟩, by rw [c.cantSend]; exact fun x => x, by rw [c.cantSend]; exact .inl, by simp⟩
    rw [c.cantSend]
    intro z
    rcases c.needFin z with z | z
    · exact h.2 z
    · exact z
  | shut s hev => exact fun _ h => ⟨⟨fun _ => rfl, fun _ => rfl⟩, fun _ => rfl, fun _ => .inr ⟨_, hev⟩, by simp⟩
  | state s y l =>
    intro hc h
    refine ⟨⟨?_, h.2⟩, fun x => x, .inl, by simp⟩
    intro z
    have z : outFin y = true := z
    show s.cantSend = true
    have k : ∀ x, s.st = x → Legal ev s0 s x y → s.cantSend = true := by
      intro x hx l
      cases l with
      | closeEst _ q => exact q
      | closeWait _ q => exact q
      | synAck _ _ _ _ _ _ q =>
        rcases q with q | q
        · rw [q] at z; exact absurd z (by decide)
        · exact hc (h0.2 q.2)
      | estab _ _ _ _ _ q =>
        rcases q with q | q
        · rw [q] at z; exact absurd z (by decide)
        · exact hc (h0.2 q.2)
      | finRcvd _ _ _ _ q =>
        rcases q with q | q | q
        · rw [q.2] at z; exact absurd z (by decide)
        · exact h.1 (by rw [hx, q.1]; rfl)
        · rw [q.2] at z; exact absurd z (by decide)
      | _ => exact absurd z (by decide)
    exact k _ rfl l
  | _ => exact fun _ h => ⟨h, fun h => h, .inl, by simp⟩

/-! ## States and ends -/

/-- The transitions between two states during one event. -/
inductive Path (R : St → St → Prop) : St → St → Prop where
  | refl (x) : Path R x x
  | step {x y z} : Path R x y → R y z → Path R x z

theorem Path.trans {R : St → St → Prop} {x y z : St} (h : Path R x y) (h' : Path R y z) : Path R x z := by
  induction h' with
  | refl => exact h
  | step _ r ih => exact .step ih r

theorem mv_dead (m : Mv ev s0 s p t) : s.dead = false → t.dead = true → ∃ u, Ends ev s0 u := by
  induction m with
  | nil s => intro a b; rw [a] at b; exact absurd b (by simp)
  | cat _ _ ih1 ih2 =>
    rename_i b _ _ _ _ _
    intro h h'
    cases x : b.dead with
    | true => exact ih1 h x
    | false => exact ih2 x h'
  | pass s e _ _ => intro a b; rw [(pass_frame s e).dead, a] at b; exact absurd b (by simp)
  | note h => intro a b; rw [h.dead, a] at b; exact absurd b (by simp)
  | kill s h => exact fun _ _ => ⟨s, h⟩
  | _ => intro a b; rw [a] at b; exact absurd b (by simp)

end
end Verif.Snd

import Verif.Snd.SendSeg
/-!
# `ofp_tcp_output` as a whole
-/
namespace Verif.Snd
open Verif.Tcp

/-- Neither unusual pass has happened. -/
def Clean (s : Tcb) : Prop := s.squeezed = false ∧ s.finProbe = false

theorem bool_mono {a b : Bool} (h : a = true → b = true) (hb : b = false) : a = false := by
  cases a with
  | false => rfl
  | true => rw [h rfl] at hb; exact hb

theorem advance_ghost (s : Tcb) (w : W) : (advance s w).squeezed = s.squeezed ∧
    (s.finProbe = true → (advance s w).finProbe = true) ∧ (advance s w).hung = s.hung := by
  unfold advance advTimer advSeq advProbe
  have key : ∀ (c : Bool) (a b : Tcb), (a.squeezed = s.squeezed ∧ (s.finProbe = true → a.finProbe = true) ∧ a.hung = s.hung) →
      (b.squeezed = s.squeezed ∧ (s.finProbe = true → b.finProbe = true) ∧ b.hung = s.hung) →
      ((if c = true then a else b).squeezed = s.squeezed ∧ (s.finProbe = true → (if c = true then a else b).finProbe = true) ∧
        (if c = true then a else b).hung = s.hung) := by
    intro c a b ha hb
    cases c
    · simpa using hb
    · simpa using ha
  refine key _ _ _ ?_ ⟨rfl, fun h => by simp [h], rfl⟩
  have h1 := key w.sackRx
      { s with nxt := s.nxt + (if w.syn then 1 else 0) + (if w.fin then 1 else 0), sentFin := s.sentFin || w.fin }
      { s with nxt := s.nxt + (if w.syn then 1 else 0) + (if w.fin then 1 else 0) + BitVec.ofInt 32 w.len,
               sentFin := s.sentFin || w.fin,
               max := if seqGT (s.nxt + (if w.syn then 1 else 0) + (if w.fin then 1 else 0) + BitVec.ofInt 32 w.len) s.max
                 then s.nxt + (if w.syn then 1 else 0) + (if w.fin then 1 else 0) + BitVec.ofInt 32 w.len else s.max }
      ⟨rfl, fun h => h, rfl⟩ ⟨rfl, fun h => h, rfl⟩
  exact key _ _ _ h1 h1

theorem unSent_ghost (s : Tcb) (e : Env) (w : W) : (unSent s e w).squeezed = s.squeezed ∧
    (unSent s e w).finProbe = s.finProbe ∧ (unSent s e w).hung = s.hung := by
  unfold unSent; split <;> simp

theorem unFin_ghost (s : Tcb) (w : W) : (unFin s w).squeezed = s.squeezed ∧
    (unFin s w).finProbe = s.finProbe ∧ (unFin s w).hung = s.hung := by
  unfold unFin; split <;> simp

theorem reIss_ghost (s : Tcb) (w : W) : (reIss s w).squeezed = s.squeezed ∧
    (reIss s w).finProbe = s.finProbe ∧ (reIss s w).hung = s.hung := by
  unfold reIss; split <;> simp

theorem sendSeg_ghost (s : Tcb) (e : Env) (w : W) : (sendSeg s e w).1.squeezed = s.squeezed ∧
    (s.finProbe = true → (sendSeg s e w).1.finProbe = true) ∧ (sendSeg s e w).1.hung = s.hung := by
  unfold sendSeg
  simp only
  have r := reIss_ghost s w
  split
  · exact ⟨r.1, fun h => by rw [← h]; exact r.2.1, r.2.2⟩
  · generalize hw : clip (reIss s w) e w = w2
    have a := unFin_ghost (reIss s w) w2
    have b := advance_ghost (unFin (reIss s w) w2) w2
    have c := unSent_ghost (advance (unFin (reIss s w) w2) w2) e w2
    refine ⟨?_, ?_, ?_⟩
    · show (unSent _ e w2).squeezed = _
      rw [c.1, b.1, a.1, r.1]
    · intro h
      show (unSent _ e w2).finProbe = _
      rw [c.2.1]; apply b.2.1; rw [a.2.1, r.2.1, h]
    · show (unSent _ e w2).hung = _
      rw [c.2.2, b.2.2, a.2.2, r.2.2]

theorem idleBlk_at {s : Tcb} {fa no mo : Nat} (h : At s fa no mo) : At (idleBlk s) fa no mo := by
  unfold idleBlk
  split
  · exact h.congr rfl rfl rfl rfl rfl rfl rfl rfl rfl rfl rfl rfl
  · split
    · exact h.congr rfl rfl rfl rfl rfl rfl rfl rfl rfl rfl rfl rfl
    · exact h

theorem idleBlk_frame (s : Tcb) : Frame s (idleBlk s) := by
  unfold idleBlk
  refine Frame.ite (by constructor <;> rfl) (Frame.ite (by constructor <;> rfl) (Frame.refl _))

theorem idleBlk_ghost (s : Tcb) : (idleBlk s).squeezed = s.squeezed ∧ (idleBlk s).finProbe = s.finProbe ∧
    (idleBlk s).hung = s.hung := by
  unfold idleBlk; split
  · simp
  · split <;> simp

theorem pass_clean (s : Tcb) (e : Env) (h : Clean (pass s e).1) : Clean s ∧ Clean (prep s e).1 := by
  have hp : Clean (prep s e).1 := by
    unfold pass at h
    simp only at h
    split at h
    · exact ⟨by rw [← (sendSeg_ghost (prep s e).1 e (prep s e).2).1]; exact h.1,
        bool_mono (sendSeg_ghost (prep s e).1 e (prep s e).2).2.1 h.2⟩
    · exact ⟨by rw [← (idleBlk_ghost (prep s e).1).1]; exact h.1,
        by rw [← (idleBlk_ghost (prep s e).1).2.1]; exact h.2⟩
  refine ⟨⟨bool_mono (prep_more s e).2.2.2.2.2 hp.1, ?_⟩, hp⟩
  rw [← (prep_more s e).2.2.1]; exact hp.2

theorem pass_good {s : Tcb} {fa no mo : Nat} (h : At s fa no mo) (e : Env) (he : e.Ok) (hd : s.dead = false)
    (hc : Clean (pass s e).1) : Good s (pass s e).1 fa mo (pass s e).2.1 := by
  obtain ⟨k, a, r⟩ := prep_at h e (pass_clean s e hc).2.1
  have f := prep_frame s e
  have hd2 : (prep s e).1.dead = false := by rw [f.dead]; exact hd
  unfold pass at hc ⊢
  simp only at hc ⊢
  by_cases c : wantSend (prep s e).1 e (prep s e).2 = true
  · rw [if_pos c] at hc ⊢
    have g := sendSeg_good a _ r e he hd2 hc.2
    refine ⟨Frame.trans f g.frame, g.at_, ?_⟩
    intro q hq
    have := g.pkt q hq
    rw [f.iss, f.written, f.cantSend] at this
    exact this
  · rw [if_neg c] at hc ⊢
    exact ⟨Frame.trans f (idleBlk_frame _), ⟨k, mo, Nat.le_refl _, idleBlk_at a⟩, by simp⟩

/-- What must hold of every packet. -/
def PktOk (s : Tcb) (q : Pkt) : Prop :=
  Faithful s.iss s.written q ∧ FinAtEnd s.iss s.written q ∧ (q.fin = true → s.cantSend = true) ∧ q.syn = false

theorem PktOk.frame {s t : Tcb} {q : Pkt} (f : Frame s t) (h : PktOk t q) : PktOk s q := by
  unfold PktOk at h ⊢; rw [f.iss, f.written, f.cantSend] at h; exact h

/-- A whole call. -/
structure GoodL (s t : Tcb) (fa mo : Nat) (l : List Pkt) : Prop where
  frame : Frame s t
  at_ : ∃ no' mo', mo ≤ mo' ∧ At t fa no' mo'
  pkt : ∀ q ∈ l, PktOk s q

theorem outputLoop_clean (es : List Env) : ∀ s : Tcb, Clean (outputLoop s es).1 → Clean s := by
  induction es with
  | nil => intro s h; exact h
  | cons e es ih =>
    intro s h
    unfold outputLoop at h
    split at h
    · exact (pass_clean s e (ih _ h)).1
    · exact (pass_clean s e h).1

theorem outputLoop_good (es : List Env) : ∀ (s : Tcb) (fa no mo : Nat), At s fa no mo → (∀ e ∈ es, e.Ok) →
    s.dead = false → Clean (outputLoop s es).1 → GoodL s (outputLoop s es).1 fa mo (outputLoop s es).2 := by
  induction es with
  | nil =>
    intro s fa no mo h _ _ _
    exact ⟨by constructor <;> rfl, ⟨no, mo, Nat.le_refl _, h.congr rfl rfl rfl rfl rfl rfl rfl rfl rfl rfl rfl rfl⟩,
      by simp [outputLoop]⟩
  | cons e es ih =>
    intro s fa no mo h he hd hc
    unfold outputLoop at hc ⊢
    by_cases c : (pass s e).2.2 = true
    · rw [if_pos c] at hc ⊢
      have g := pass_good h e (he e (by simp)) hd (outputLoop_clean es _ hc)
      obtain ⟨no', mo', hm, a⟩ := g.at_
      have g2 := ih (pass s e).1 fa no' mo' a (fun x hx => he x (by simp [hx])) (by rw [g.frame.dead]; exact hd) hc
      obtain ⟨no2, mo2, hm2, a2⟩ := g2.at_
      refine ⟨Frame.trans g.frame g2.frame, ⟨no2, mo2, by omega, a2⟩, ?_⟩
      intro q hq
      simp only [List.mem_append, Option.mem_toList] at hq
      rcases hq with hq | hq
      · exact g.pkt q hq
      · exact PktOk.frame g.frame (g2.pkt q hq)
    · rw [if_neg c] at hc ⊢
      have g := pass_good h e (he e (by simp)) hd hc
      refine ⟨g.frame, g.at_, ?_⟩
      intro q hq
      simp only [Option.mem_toList] at hq
      exact g.pkt q hq

theorem output_clean (s : Tcb) (es : List Env) (h : Clean (output s es).1) : Clean s := by
  unfold output at h; split at h
  · exact h
  · exact outputLoop_clean es s h

theorem output_good {s : Tcb} {fa no mo : Nat} (h : At s fa no mo) (es : List Env) (he : ∀ e ∈ es, e.Ok)
    (hd : s.dead = false) (hc : Clean (output s es).1) : GoodL s (output s es).1 fa mo (output s es).2 := by
  unfold output at hc ⊢
  by_cases c : s.hung = true
  · rw [if_pos c] at hc ⊢
    exact ⟨Frame.refl _, ⟨no, mo, Nat.le_refl _, h⟩, by simp⟩
  · rw [if_neg c] at hc ⊢
    exact outputLoop_good es s fa no mo h he hd hc

end Verif.Snd

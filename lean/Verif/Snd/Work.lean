import Verif.Snd.Window
/-!
# Properties C89, C92, C93: the sender's work gets done
-/
namespace Verif.Snd
open Verif.Tcp

section
variable {s : Tcb}

/-! ## C89: `ofp_tcp_output` returns -/

/-- The packet pool has a packet and IP accepts it; a segment with its headers fits an IP packet. -/
def Env.Good (e : Env) : Prop := e.Ok ∧ e.cwnd < 2 ^ 63 ∧ e.alloc = true ∧ e.sent = true ∧ e.maxopd + e.hdrlen ≤ 65535

theorem prep_nf {e : Env} (h : Plain s) (hf : s.needFin = false) : (prep s e).2.alot = false ∧ (prep s e).1.needFin = false ∧
    (prep s e).1.force = false := by
  have ha : adjustNxt s e = s := by unfold adjustNxt; rw [h.sack]; simp
  have f := prep_frame s e
  refine ⟨?_, by rw [f.needFin]; exact hf, by rw [f.force]; exact h.force⟩
  unfold prep
  simp only [ha]
  have hf : ∀ w, forceBlk s w = (s, w) := by intro w; unfold forceBlk; rw [if_neg (by simp [h.force])]
  simp only [hf]
  have k : (hidden s (sackPick s e)).alot = false ∧ (hidden s (sackPick s e)).syn = false := by
    unfold hidden sackPick
    simp only [h.sack, Bool.false_and, Bool.false_eq_true, if_false, h.ns, h.syn, Bool.or_false]
    exact ⟨trivial, trivial⟩
  have l := lenBlk_same s e (hidden s (sackPick s e))
  generalize hidden s (sackPick s e) = w1 at *
  generalize lenBlk s e w1 = w2 at *
  have hs : synBlk s w2 = w2 := by
    unfold synBlk
    have : w2.syn = false := by rw [l.2.2.2.1]; exact k.2
    simp [this]
  rw [hs]
  have la : w2.alot = false := by rw [l.2.2.2.2.2.2.1]; exact k.1
  unfold negBlk finBlk
  split
  · split <;> exact la
  · exact la

/-- When a pass asks for another one it has sent at least one byte. -/
theorem clip_alot {e : Env} {w : W} (he : e.Good) (h0 : 0 ≤ w.len) (ha : w.alot = false) (hn : s.needFin = false)
    (h : (clip s e w).alot = true) : 0 < (clip s e w).len ∧ (clip s e w).fin = false := by
  obtain ⟨⟨e1, e2, e3⟩, _, _, _, e4⟩ := he
  unfold clip at h ⊢
  by_cases c : w.len + e.optlen + e.ipoptlen > e.maxopd
  · rw [if_pos c] at h ⊢
    by_cases t : w.tso = true
    · rw [if_pos t] at h ⊢
      refine ⟨?_, rfl⟩
      simp only [ha, hn, Bool.false_or, Bool.or_false] at h ⊢
      have hb : 0 < (e.maxopd : Int) - e.optlen := by omega
      have hl : w.len > 65535 - (e.hdrlen : Int) := by simpa using h
      have m1 := Int.emod_lt_of_pos (65535 - (e.hdrlen : Int)) hb
      rw [if_pos hl]
      split <;> omega
    · rw [if_neg t] at h ⊢
      have : ((e.maxopd : Int) - e.optlen - e.ipoptlen) % 2 ^ 32 = (e.maxopd : Int) - e.optlen - e.ipoptlen :=
        Int.emod_eq_of_lt (by omega) (by omega)
      simp only [this]
      exact ⟨by omega, trivial⟩
  · rw [if_neg c] at h
    rw [ha] at h
    exact absurd h (by simp)

theorem pass_progress {e : Env} (h : Plain s) (hf : s.needFin = false) (he : e.Good) (ha : (pass s e).2.2 = true) :
    diff s.nxt s.una < s.buf.length ∧ diff s.nxt s.una < diff (pass s e).1.nxt s.una ∧
    diff (pass s e).1.nxt s.una ≤ s.buf.length := by
  obtain ⟨a1, a2, a3, a4⟩ := prep_win h e he.2.1
  obtain ⟨b1, b2, b3⟩ := prep_nf (e := e) h hf
  have hb := h.buf
  unfold pass at ha ⊢
  simp only at ha ⊢
  generalize prep s e = q at *
  by_cases c : wantSend q.1 e q.2 = true
  · rw [if_pos c] at ha ⊢
    unfold sendSeg at ha ⊢
    simp only at ha ⊢
    have hr : reIss q.1 q.2 = q.1 := by unfold reIss; rw [a1]; simp
    rw [hr] at ha ⊢
    have hal : (!e.alloc) = false := by rw [he.2.2.1]; rfl
    rw [hal] at ha ⊢
    have ha : (clip q.1 e q.2).alot = true := ha
    obtain ⟨l1, l2⟩ := clip_alot he a3 b1 b2 ha
    obtain ⟨c1, c2, c3, c4, c5, c6, c7⟩ := clip_spec q.1 e q.2 he.1 a3
    generalize clip q.1 e q.2 = w at *
    have hu : unFin q.1 w = q.1 := by unfold unFin; rw [l2]; simp
    have n := advance_norm q.1 w (by rw [c1]; exact a1) (by rw [b3]; rfl)
    rw [c3, a2, l2] at n
    simp only [Bool.false_eq_true, if_false] at n
    have hv : (postBlk (unSent (advance (unFin q.1 w) w) e w) e).nxt = q.1.nxt + 0 + BitVec.ofInt 32 w.len := by
      rw [hu]
      show (unSent (advance q.1 w) e w).nxt = _
      unfold unSent
      rw [if_neg (by rw [he.2.2.2.1]; simp)]
      exact n.1
    have hv2 : (if (false : Bool) = true then (postBlk q.1 e, none, w.alot)
        else (postBlk (unSent (advance (unFin q.1 w) w) e w) e, some (mkPkt (unFin q.1 w) e w), w.alot)).1.nxt =
        q.1.nxt + 0 + BitVec.ofInt 32 w.len := hv
    rw [hv2]
    rcases a4 with a4 | ⟨k1, k2, k3, k4⟩
    · omega
    · rw [k1]
      have : s.nxt + 0 + BitVec.ofInt 32 w.len = s.nxt + BitVec.ofInt 32 w.len := by simp
      rw [this, diff_add_len _ _ _ c5 (by omega)]
      omega
  · rw [if_neg c] at ha
    exact absurd ha (by simp)

theorem loop_returns (es : List Env) : ∀ s : Tcb, Plain s → s.needFin = false → s.hung = false → 0 ≤ diff s.nxt s.una →
    (∀ e ∈ es, e.Good) → (s.buf.length : Int) - diff s.nxt s.una < es.length → 1 ≤ es.length → (outputLoop s es).1.hung = false := by
  induction es with
  | nil => intro s _ _ _ _ _ _ h; simp at h
  | cons e es ih =>
    intro s h hf hh h0 he hm _
    have hg : (pass s e).1.hung = false := by
      have : (pass s e).1.hung = s.hung := by
        unfold pass
        simp only
        have := (prep_more s e).2.2.2.1
        split
        · rw [(sendSeg_ghost _ e _).2.2, this]
        · rw [(idleBlk_ghost _).2.2, this]
      rw [this, hh]
    unfold outputLoop
    split
    · rename_i c
      obtain ⟨p1, p2, p3⟩ := pass_progress h hf (he e (by simp)) c
      have f := pass_frame s e
      simp only [List.length_cons] at hm
      refine ih (pass s e).1 (h.frame f) (by rw [f.needFin]; exact hf) hg (by rw [f.una]; omega)
        (fun x hx => he x (by simp [hx])) (by rw [f.buf, f.una]; omega) (by omega)
    · exact hg

/-- **C89**, when the packet pool and IP do their part and nothing is forced: a call returns after at most one pass per byte
of the send buffer, plus one. -/
theorem output_returns_partial (h : Plain s) (hf : s.needFin = false) (hh : s.hung = false) (h0 : 0 ≤ diff s.nxt s.una)
    (es : List Env) (he : ∀ e ∈ es, e.Good) (hl : s.buf.length < es.length) : (output s es).1.hung = false := by
  unfold output
  rw [if_neg (by simp [hh])]
  exact loop_returns es s h hf hh h0 he (by omega) (by omega)

example : (output { demo with buf := [1, 2, 3], written := [1, 2, 3] } (List.replicate 4 { envOk with maxopd := 1 })).2.length = 3 ∧
    (output { demo with buf := [1, 2, 3], written := [1, 2, 3] } (List.replicate 4 { envOk with maxopd := 1 })).1.hung = false := by
  decide +kernel

example : ({ envOk with maxopd := 1 } : Env).Good := by unfold Env.Good Env.Ok; decide

/-- A pass that asks for another one and changes nothing. -/
theorem stuck (s t : Tcb) (e : Env) (h1 : (pass s e).1 = t ∧ (pass s e).2.2 = true)
    (h2 : (pass t e).1 = t ∧ (pass t e).2.2 = true) (n : Nat) : (outputLoop s (List.replicate n e)).1.hung = true := by
  have h3 : ∀ n, (outputLoop t (List.replicate n e)).1.hung = true := by
    intro n
    induction n with
    | zero => rfl
    | succ n ih => rw [List.replicate_succ]; unfold outputLoop; rw [if_pos h2.2, h2.1]; exact ih
  cases n with
  | zero => rfl
  | succ n => rw [List.replicate_succ]; unfold outputLoop; rw [if_pos h1.2, h1.1]; exact h3 n

/-- **C89 violated**: three bytes to send in segments of two while the packet pool stays empty: `sendalot` is set, the
allocation fails, and the loop starts over, for as long as the pool is empty (src/ofp_tcp_output.c:845-849, 1308-1381: the
returns on errors are compiled out), with the connection locked. -/
theorem output_returns_violated (n : Nat) :
    (step demo (.write [10, 11, 12] (List.replicate n { envNoBuf with maxopd := 2 }))).1.hung = true := by
  have key := fun t h1 h2 => stuck { demo with buf := [10, 11, 12], written := [10, 11, 12] } t { envNoBuf with maxopd := 2 } h1 h2 n
  have hd : step demo (.write [10, 11, 12] (List.replicate n { envNoBuf with maxopd := 2 })) =
      outputLoop { demo with buf := [10, 11, 12], written := [10, 11, 12] } (List.replicate n { envNoBuf with maxopd := 2 }) := rfl
  rw [hd]
  refine key (pass { demo with buf := [10, 11, 12], written := [10, 11, 12] } { envNoBuf with maxopd := 2 }).1 ?_ ?_
  · exact ⟨rfl, by decide +kernel⟩
  · constructor <;> decide +kernel

/-- **C89 violated** by a vanished route as well: IP refuses each segment, `snd_nxt` is taken back, and the loop starts
over with the same segment. -/
theorem output_no_route_violated (n : Nat) :
    (step demo (.write [10, 11, 12] (List.replicate n { envOk with maxopd := 2, sent := false }))).1.hung = true := by
  have hd : step demo (.write [10, 11, 12] (List.replicate n { envOk with maxopd := 2, sent := false })) =
      outputLoop { demo with buf := [10, 11, 12], written := [10, 11, 12] } (List.replicate n { envOk with maxopd := 2, sent := false }) := rfl
  rw [hd]
  refine stuck _ { demo with buf := [10, 11, 12], written := [10, 11, 12], max := 1003, rexmt := true } _ ⟨?_, ?_⟩ ⟨?_, ?_⟩ n
  all_goals decide +kernel

/-- **C89** for the application: `ofp_send` on a connection in any history returns, under the same conditions. -/
theorem send_returns_partial {s0 s : Tcb} {ps : List Pkt} (h : Hist s0 s ps) (hs : s0.sackPermit = false)
    (hp : ∀ q ∈ ps, ¬ FinProbe q) (hw : s.wnd < 2 ^ 63) (hh : s.hung = false) (d : List UInt8) (es : List Env)
    (hb : s.buf.length + d.length ≤ BufMax) (he : ∀ e ∈ es, e.Good) (hl : s.buf.length + d.length < es.length) :
    (step s (.write d es)).1.hung = false := by
  obtain ⟨pl, _⟩ := hist_plain h hs hp hw
  obtain ⟨_, fa, no, mo, a⟩ := hist_at h (hist_clean h hs hp).1
  unfold step
  split
  · exact hh
  · simp only
    split
    · exact hh
    · refine output_returns_partial (s := { s with buf := s.buf ++ d, written := s.written ++ d }) ⟨pl.sack, pl.force, pl.ns, pl.syn, pl.wnd, ?_⟩ a.nf hh ?_ es he ?_
      · show (s.buf ++ d).length ≤ _
        rw [List.length_append]; exact hb
      · show 0 ≤ diff s.nxt s.una
        rw [a.off]; omega
      · show (s.buf ++ d).length < _
        rw [List.length_append]; exact hl

/-! ## C92: unacknowledged data is covered by a timer -/

/-- A timer that will make the sender try again. -/
def Covered (s : Tcb) : Prop := s.rexmt = true ∨ s.persist = true

theorem idle_covered (s : Tcb) (h : s.buf ≠ []) : Covered (idleBlk s) := by
  unfold idleBlk Covered
  have hl : s.buf.length ≠ 0 := by simpa using h
  split
  · exact .inl rfl
  · split
    · exact .inr rfl
    · rename_i c
      cases h1 : s.rexmt with
      | true => exact .inl rfl
      | false =>
        cases h2 : s.persist with
        | true => exact .inr rfl
        | false => rw [h1, h2] at c; simp [hl] at c

theorem pass_covered {e : Env} (h : Plain s) (he : e.Ok) (hc : e.cwnd < 2 ^ 63) (ha : e.alloc = true) (hb : s.buf ≠ [])
    {fa no mo : Nat} (hat : At s fa no mo) (hq : s.squeezed = false) :
    Covered (pass s e).1 ∨ ∃ p, (pass s e).2.1 = some p ∧ p.data = [] ∧ p.fin = false := by
  obtain ⟨a1, a2, a3, a4⟩ := prep_win h e hc
  have f := prep_frame s e
  have hsz := h.buf
  obtain ⟨k, at1, rd⟩ := prep_at hat e (by rw [prep_squeezed s e h.sack]; exact hq)
  unfold pass
  simp only
  generalize prep s e = q at *
  by_cases c : wantSend q.1 e q.2 = true
  · rw [if_pos c]
    unfold sendSeg
    simp only
    have hr : reIss q.1 q.2 = q.1 := by unfold reIss; rw [a1]; simp
    rw [hr]
    obtain ⟨b1, b2, b3, b4, b5, b6, b7⟩ := clip_spec q.1 e q.2 he a3
    generalize clip q.1 e q.2 = w at *
    rw [if_neg (by rw [ha]; simp)]
    by_cases z : w.len = 0 ∧ w.fin = false
    · right
      refine ⟨_, rfl, ?_, z.2⟩
      unfold mkPkt payload
      simp [z.1]
    · left
      have hfr : q.1.force = false := by rw [f.force]; exact h.force
      have hk : ∀ x : Tcb, Covered x → Covered (postBlk (unSent x e w) e) := by
        intro x hx
        unfold unSent
        split <;> exact hx
      apply hk
      unfold advance
      have hff : (unFin q.1 w).force = false := by
        unfold unFin; split <;> exact hfr
      rw [if_pos (by rw [hff]; simp)]
      unfold advTimer
      split
      · exact .inl rfl
      · rename_i c2
        left
        cases h1 : (advSeq (unFin q.1 w) w).rexmt with
        | true => rfl
        | false =>
          exfalso
          rw [h1, b3, a2] at c2
          simp only [Bool.not_false, Bool.true_and, Bool.false_and, Bool.false_or, bne_iff_ne, ne_eq, Decidable.not_not] at c2
          have eu : (advSeq (unFin q.1 w) w).una = seqOf q.1.iss (base q.1 fa) := by
            rw [← at1.una]
            unfold advSeq unFin
            simp only [b3, a2, Bool.false_eq_true, if_false]
            split <;> rfl
          have hbl : 1 ≤ q.1.buf.length := by
            rw [f.buf]; exact List.length_pos_iff.2 hb
          have hml := at1.mlt
          have hnm := at1.nm
          have hsz2 : q.1.buf.length ≤ 2 ^ 30 := at1.size
          have hsy : w.syn = false := by rw [b1]; exact a1
          -- `snd_nxt` after the segment is after `snd_una`
          have en : ∃ j : Nat, (advSeq (unFin q.1 w) w).nxt = seqOf q.1.iss (base q.1 fa + j) ∧ 1 ≤ j ∧ j < 2 ^ 31 - 1 := by
            have e1 : (advSeq (unFin q.1 w) w).nxt = (unFin q.1 w).nxt + (if w.fin then 1 else 0) + BitVec.ofInt 32 w.len := by
              unfold advSeq
              simp only [b3, a2, Bool.false_eq_true, if_false, hsy]
              simp
            rw [e1]
            cases hfin : w.fin with
            | false =>
              have z3 : w.len ≠ 0 := fun z3 => z ⟨z3, hfin⟩
              have hu : (unFin q.1 w).nxt = q.1.nxt := by unfold unFin; rw [hfin]; rfl
              refine ⟨k + w.len.toNat, ?_, by omega, ?_⟩
              · rw [hu, at1.nxt, if_neg (by simp), ofInt_nonneg _ b5]
                show seqOf q.1.iss (base q.1 fa + k) + 0#32 + _ = _
                rw [BitVec.add_zero, seqOf_add, Nat.add_assoc]
              · rcases rd.new a2 with r1 | r1 <;> omega
            | true =>
              obtain ⟨c1, c3⟩ := b7 hfin
              have hge := rd.fnew c1 a2
              have hlt : k + w.len.toNat < 2 ^ 31 - 2 := by
                rcases rd.new a2 with r1 | r1 <;> omega
              unfold unFin
              rw [hfin]
              simp only [Bool.true_and, if_true]
              by_cases cu : (q.1.sentFin && q.1.nxt == q.1.max) = true
              · rw [if_pos cu]
                refine ⟨k + w.len.toNat, ?_, by omega, by omega⟩
                simp only
                rw [at1.nxt, ofInt_nonneg _ b5]
                have : seqOf q.1.iss (base q.1 fa + k) - 1 + 1 = seqOf q.1.iss (base q.1 fa + k) := by bv_omega
                rw [this, seqOf_add, Nat.add_assoc]
              · rw [if_neg cu]
                refine ⟨k + 1 + w.len.toNat, ?_, by omega, by omega⟩
                rw [at1.nxt, ofInt_nonneg _ b5, seqOf_succ, seqOf_add]
                congr 1; omega
          obtain ⟨j, en, j1, j2⟩ := en
          rw [en, eu] at c2
          have := eq_seqOf q.1.iss (base q.1 fa + j) (base q.1 fa) (by omega) (by omega)
          rw [c2] at this
          simp at this
          omega
  · rw [if_neg c]
    exact .inl (idle_covered _ (by rw [f.buf]; exact hb))

theorem pass_clean_plain (h : Plain s) (hc : Clean s) (e : Env) : Clean (pass s e).1 := by
  refine ⟨by rw [pass_squeezed s e h.sack]; exact hc.1, ?_⟩
  cases x : (pass s e).1.finProbe with
  | false => rfl
  | true =>
    rcases pass_probe s e x with y | ⟨p, hp, hf⟩
    · rw [hc.2] at y; exact absurd y (by simp)
    · exfalso
      have hf := hf.2
      have : p.forced = s.force := by
        unfold pass at hp
        simp only at hp
        split at hp
        · unfold sendSeg at hp
          simp only at hp
          split at hp
          · simp at hp
          · simp only [Option.toList_some, List.mem_singleton] at hp
            rw [hp]
            show (unFin (reIss (prep s e).1 (prep s e).2) (clip (reIss (prep s e).1 (prep s e).2) e (prep s e).2)).force = _
            have f := (prep_frame s e).force
            generalize clip _ e (prep s e).2 = w
            unfold unFin reIss
            split <;> split <;> exact f
        · simp at hp
      rw [this, h.force] at hf
      exact absurd hf (by simp)

/-- After a call: a timer runs, or its last segment was empty and no FIN. -/
theorem loop_covered (es : List Env) : ∀ (s : Tcb) (fa no mo : Nat), Plain s → Clean s → At s fa no mo → s.dead = false →
    s.buf ≠ [] → (∀ e ∈ es, e.Ok ∧ e.cwnd < 2 ^ 63 ∧ e.alloc = true) → (outputLoop s es).1.hung = false →
    Covered (outputLoop s es).1 ∨ ∃ p, (outputLoop s es).2.getLast? = some p ∧ p.data = [] ∧ p.fin = false := by
  induction es with
  | nil => intro s fa no mo _ _ _ _ _ _ h; exact absurd h (by simp [outputLoop])
  | cons e es ih =>
    intro s fa no mo h hc a hd hb he hh
    obtain ⟨e1, e2, e3⟩ := he e (by simp)
    unfold outputLoop at hh ⊢
    by_cases c : (pass s e).2.2 = true
    · rw [if_pos c] at hh ⊢
      have f := pass_frame s e
      have c2 := pass_clean_plain h hc e
      obtain ⟨no', mo', _, a'⟩ := (pass_good a e e1 hd c2).at_
      rcases ih _ fa no' mo' (h.frame f) c2 a' (by rw [f.dead]; exact hd) (by rw [f.buf]; exact hb)
        (fun x hx => he x (by simp [hx])) hh with r | ⟨p, r1, r2⟩
      · exact .inl r
      · refine .inr ⟨p, ?_, r2⟩
        simp only
        rw [List.getLast?_append, r1]; rfl
    · rw [if_neg c] at hh ⊢
      rcases pass_covered h e1 e2 e3 hb a hc.1 with r | ⟨p, r1, r2⟩
      · exact .inl r
      · refine .inr ⟨p, ?_, r2⟩
        simp only
        rw [r1]; rfl

/-- **C92.** Every call of `ofp_tcp_output` that finds packets in the pool, and finds data in the send buffer, leaves the
retransmission or the persist timer running, unless the last segment it sends is empty and no FIN. -/
theorem data_covered_partial {s0 s : Tcb} {ps : List Pkt} (h : Hist s0 s ps) (hs : s0.sackPermit = false)
    (hp : ∀ q ∈ ps, ¬ FinProbe q) (hw : s.wnd < 2 ^ 63) (hd : s.dead = false) (hh : s.hung = false) (d : List UInt8)
    (hb : s.buf ++ d ≠ []) (hn : (s.buf ++ d).length ≤ BufMax) (es : List Env)
    (he : ∀ e ∈ es, e.Ok ∧ e.cwnd < 2 ^ 63 ∧ e.alloc = true) (hc : s.cantSend = false)
    (hr : (step s (.write d es)).1.hung = false) :
    Covered (step s (.write d es)).1 ∨
    ∃ p, (step s (.write d es)).2.getLast? = some p ∧ p.data = [] ∧ p.fin = false := by
  obtain ⟨pl, _⟩ := hist_plain h hs hp hw
  have cl := (hist_clean h hs hp).1
  obtain ⟨_, fa, no, mo, a⟩ := hist_at h cl
  have e1 : step s (.write d es) = outputLoop { s with buf := s.buf ++ d, written := s.written ++ d } es := by
    unfold step
    rw [if_neg (by simp [hd, hh])]
    simp only
    rw [if_neg (by simp [hc])]
    unfold output
    rw [if_neg (by simp [hh])]
  rw [e1] at hr ⊢
  refine loop_covered es { s with buf := s.buf ++ d, written := s.written ++ d } fa no mo ⟨pl.sack, pl.force, pl.ns, pl.syn, pl.wnd, hn⟩ cl ?_ hd hb he hr
  exact (write_at (t := { s with buf := s.buf ++ d, written := s.written ++ d }) a d (by simpa [BufMax] using hn) hc rfl rfl rfl rfl rfl rfl rfl rfl rfl rfl rfl rfl).1

example : Covered (step demo (.write [10, 11] [envOk])).1 ∧ Covered (step { demo with wnd := 0 } (.write [10] [envOk])).1 := by
  unfold Covered; decide +kernel

/-- **C92 violated**: three bytes for a window of two, two are sent; the peer's data acknowledges them and closes the window.
The reply is a pure acknowledgement, after which no timer runs: when the segment that opens the window again is lost,
the third byte is never sent. -/
theorem data_covered_violated : Fresh { demo with wnd := 2, maxwnd := 2 } ∧
    let r := run { demo with wnd := 2, maxwnd := 2 } [.write [10, 11, 12] [envOk],
      .seg { ackSeg 5001 1003 0 with tlen := 5 } { renv [envOk] with rcvTo := 5006 }]
    r.1.buf = [12] ∧ r.1.hung = false ∧ r.1.dead = false ∧ ¬ Covered r.1 ∧
      r.2.map (fun p => (p.seq.toNat, p.data)) = [(1001, [some 10, some 11]), (1003, [])] := by
  refine ⟨by constructor <;> decide, ?_⟩
  unfold Covered
  decide +kernel

/-- **C92 violated** by an empty packet pool: the byte is neither sent nor covered by a timer. -/
theorem data_covered_pool_violated :
    let r := run demo [.write [10] [envNoBuf]]
    r.1.buf = [10] ∧ r.1.hung = false ∧ r.1.dead = false ∧ ¬ Covered r.1 ∧ r.2 = [] := by
  unfold Covered
  decide +kernel

/-! ## C93: an owed acknowledgement is sent -/

theorem pass_ack {e : Env} (ha : e.alloc = true) (hk : s.acknow = true) (hst : outAck s.st = true) :
    ∃ p, (pass s e).2.1 = some p ∧ p.ackf = true ∧ p.ack = s.rcvNxt := by
  have f := prep_frame s e
  have hak : (prep s e).1.acknow = true := by rw [(prep_more s e).2.2.2.2.1]; exact hk
  unfold pass
  simp only
  generalize prep s e = q at *
  have c : wantSend q.1 e q.2 = true := by unfold wantSend; rw [hak]; simp
  rw [if_pos c]
  unfold sendSeg
  simp only
  rw [if_neg (by rw [ha]; simp)]
  refine ⟨_, rfl, ?_, ?_⟩
  · show outAck (unFin (reIss q.1 q.2) _).st = true
    generalize clip _ e q.2 = w
    have : (unFin (reIss q.1 q.2) w).st = q.1.st := by unfold unFin reIss; split <;> split <;> rfl
    rw [this, f.st]; exact hst
  · show (unFin (reIss q.1 q.2) _).rcvNxt = s.rcvNxt
    generalize clip _ e q.2 = w
    have : (unFin (reIss q.1 q.2) w).rcvNxt = q.1.rcvNxt := by unfold unFin reIss; split <;> split <;> rfl
    rw [this, f.rcvNxt]

/-- An acknowledgement of everything received. -/
def Acks (s : Tcb) (ps : List Pkt) : Prop := ∃ p ∈ ps, p.ackf = true ∧ p.ack = s.rcvNxt

theorem output_ack {e : Env} {es : List Env} (hh : s.hung = false) (ha : e.alloc = true) (hk : s.acknow = true) (hst : outAck s.st = true) :
    Acks s (output s (e :: es)).2 := by
  obtain ⟨p, h1, h2⟩ := pass_ack (e := e) ha hk hst
  refine ⟨p, ?_, h2⟩
  unfold output
  rw [if_neg (by simp [hh])]
  unfold outputLoop
  split
  · simp only; rw [h1]; simp
  · simp only; rw [h1]; simp

/-- **C93.** When the delayed-acknowledgement or the retransmission timer fires, everything received is acknowledged, if
the pool has a packet. -/
theorem timer_acks_partial {e : Env} {es : List Env} (hd : s.dead = false) (hh : s.hung = false) (ha : e.alloc = true)
    (hst : outAck s.st = true) :
    Acks s (step s (.delackTimer (e :: es))).2 ∧ (s.rexmt = true → Acks s (step s (.rexmtTimer (e :: es))).2) := by
  constructor
  · unfold step
    rw [if_neg (by simp [hd, hh])]
    exact output_ack (s := { s with acknow := true }) hh ha rfl hst
  · intro hr
    unfold step
    rw [if_neg (by simp [hd, hh])]
    simp only
    rw [if_pos hr]
    exact output_ack (s := { s with rexmt := false, nxt := s.una, recover := s.max, acknow := true }) hh ha rfl hst

/-- **C93.** The expected text, with nothing else to process, is acknowledged at once when acknowledgements are not
delayed. -/
theorem text_acked_partial {e : Env} {es : List Env} {g : Seg} {r : REnv} (hd : s.dead = false) (hh : s.hung = false)
    (ha : e.alloc = true) (hp : predOk s g r = true) (ht : g.tlen ≠ 0) (hs : g.tlen ≤ r.space) (hg : g.ack = s.una)
    (hdl : r.delay = false) (he : r.es1 = e :: es) :
    ∃ p ∈ (step s (.seg g r)).2, p.ackf = true ∧ p.ack = g.seq + BitVec.ofNat 32 g.tlen := by
  have hpp := hp
  unfold predOk at hpp
  simp only [Bool.and_eq_true, decide_eq_true_eq, beq_iff_eq] at hpp
  have hst : s.st = .established := hpp.1.1.1.1.1.1.1.1.1.1.1.1
  have hsq : g.seq = s.rcvNxt := hpp.1.1.1.1.1.1.1.1.1.1.1.2
  have := output_ack (s := { s with rcvNxt := s.rcvNxt + BitVec.ofNat 32 g.tlen, wl1 := g.seq, acknow := true }) (es := es)
    hh ha rfl (by show outAck s.st = true; rw [hst]; rfl)
  obtain ⟨p, h1, h2, h3⟩ := this
  refine ⟨p, ?_, h2, ?_⟩
  · unfold step
    rw [if_neg (by simp [hd, hh])]
    show p ∈ (doSegment s g r).2
    unfold doSegment
    simp only [hp, Bool.true_and]
    rw [if_neg (by simp [ht]), if_pos (by simp [ht, hg, hs]), if_neg (by simp [hdl])]
    simp only
    rw [he]; exact h1
  · rw [hsq]; exact h3

example : predOk demo { ackSeg 5001 1001 100 with tlen := 5 } (renv [envOk]) = true ∧
    (step demo (.seg { ackSeg 5001 1001 100 with tlen := 5 } (renv [envOk]))).2.map (fun p => p.ack.toNat) = [5006] := by
  decide +kernel

/-- **C93 violated** when the pool is empty: the acknowledgement is forgotten (src/ofp_tcp_output.c:1308-1364): a
later call with nothing to send does not send it. -/
theorem text_acked_violated :
    let r := run demo [.seg { ackSeg 5001 1001 100 with tlen := 5 } (renv [envNoBuf]), .rcvd [envOk]]
    r.1.rcvNxt = 5006 ∧ r.1.lastAckSent = 5006 ∧ r.1.acknow = false ∧ r.1.delack = false ∧ r.2 = [] := by
  decide +kernel

end
end Verif.Snd

import Verif.Snd.Pass
/-!
# Transmission: `send:` of `ofp_tcp_output`, a whole pass, the `again` loop
-/
namespace Verif.Snd
open Verif.Tcp

theorem clip_spec (s : Tcb) (e : Env) (w : W) (he : e.Ok) (h0 : 0 ≤ w.len) :
    (clip s e w).syn = w.syn ∧ (clip s e w).off = w.off ∧ (clip s e w).sackRx = w.sackRx ∧ (clip s e w).rx = w.rx ∧
    0 ≤ (clip s e w).len ∧ (clip s e w).len ≤ w.len ∧
    ((clip s e w).fin = true → w.fin = true ∧ (clip s e w).len = w.len) := by
  obtain ⟨e1, e2, e3⟩ := he
  unfold clip
  by_cases c : w.len + e.optlen + e.ipoptlen > e.maxopd
  · rw [if_pos c]
    by_cases t : w.tso = true
    · rw [if_pos t]
      simp only
      refine ⟨trivial, trivial, trivial, trivial, ?_, ?_, by simp⟩
      · generalize hl : (if w.len > 65535 - (e.hdrlen : Int) then 65535 - (e.hdrlen : Int) else w.len) = l1
        have hl1 : 0 ≤ l1 := by subst hl; split <;> omega
        split
        · have hb : 0 < (e.maxopd : Int) - e.optlen := by omega
          have h1 := Int.mul_ediv_add_emod l1 ((e.maxopd : Int) - e.optlen)
          have h2 : 0 ≤ l1 / ((e.maxopd : Int) - e.optlen) := Int.ediv_nonneg hl1 (by omega)
          have h3 := Int.mul_nonneg (Int.le_of_lt hb) h2
          omega
        · exact hl1
      · generalize hl : (if w.len > 65535 - (e.hdrlen : Int) then 65535 - (e.hdrlen : Int) else w.len) = l1
        have hl1 : l1 ≤ w.len := by subst hl; split <;> omega
        split
        · have := Int.emod_nonneg l1 (b := (e.maxopd : Int) - e.optlen) (by omega)
          omega
        · exact hl1
    · rw [if_neg t]
      simp only
      have : ((e.maxopd : Int) - e.optlen - e.ipoptlen) % 2 ^ 32 = (e.maxopd : Int) - e.optlen - e.ipoptlen :=
        Int.emod_eq_of_lt (by omega) (by omega)
      rw [this]
      refine ⟨trivial, trivial, trivial, trivial, by omega, by omega, by simp⟩
  · rw [if_neg c]
    simp [h0]

theorem payload_eq (buf : List UInt8) (k : Nat) (l : Int) (h : (k : Int) + l ≤ buf.length) :
    payload buf k l = ((buf.drop k).take l.toNat).map some := by
  unfold payload
  apply List.ext_getElem
  · simp; omega
  · intro i h1 h2
    simp only [List.length_map, List.length_range] at h1
    have : k + i < buf.length := by omega
    simp [this]

theorem payload_length (buf : List UInt8) (k l : Int) : (payload buf k l).length = l.toNat := by
  unfold payload; simp

section
variable {s : Tcb} {fa no mo : Nat}

/-- A piece of the send buffer is a piece of the stream. -/
theorem piece_faithful (h : At s fa no mo) (hfa : fa = 0) (p : Pkt) (k : Nat) (l : Int) (hl : 0 ≤ l)
    (h1 : p.seq = seqOf s.iss (base s fa + k)) (h2 : p.data = payload s.buf k l) (h3 : (k : Int) + l ≤ s.buf.length) :
    Faithful s.iss s.written p := by
  right
  have hle := h.le
  have hsz := h.size
  have hlen : p.data.length = l.toNat := by rw [h2, payload_length]
  refine ⟨s.written.length - s.buf.length + k, ?_, by omega, ?_, ?_⟩
  · rw [h1]; unfold seqOfByte base; subst hfa; congr 1; omega
  · unfold BufMax; omega
  · rw [hlen, h2, payload_eq _ _ _ h3]
    have : s.buf.drop k = s.written.drop (s.written.length - s.buf.length + k) := by
      rw [← List.drop_drop, ← h.suf]
    rw [this]

theorem postBlk_at {s : Tcb} (h : At s fa no mo) (e : Env) : At (postBlk s e) fa no mo :=
  h.congr rfl rfl rfl rfl rfl rfl rfl rfl rfl rfl rfl rfl

theorem postBlk_frame (s : Tcb) (e : Env) : Frame s (postBlk s e) := by constructor <;> rfl

theorem Frame.ite {s a b : Tcb} {c : Prop} [Decidable c] (ha : Frame s a) (hb : Frame s b) :
    Frame s (if c then a else b) := by
  by_cases h : c
  · rw [if_pos h]; exact ha
  · rw [if_neg h]; exact hb

theorem advance_frame (s : Tcb) (w : W) : Frame s (advance s w) := by
  unfold advance advTimer advSeq advProbe
  refine Frame.ite ?_ (by constructor <;> rfl)
  have h1 : Frame s (if w.sackRx = true then
      { s with nxt := s.nxt + (if w.syn then 1 else 0) + (if w.fin then 1 else 0), sentFin := s.sentFin || w.fin }
      else
      { s with nxt := s.nxt + (if w.syn then 1 else 0) + (if w.fin then 1 else 0) + BitVec.ofInt 32 w.len,
               sentFin := s.sentFin || w.fin,
               max := if seqGT (s.nxt + (if w.syn then 1 else 0) + (if w.fin then 1 else 0) + BitVec.ofInt 32 w.len) s.max
                 then s.nxt + (if w.syn then 1 else 0) + (if w.fin then 1 else 0) + BitVec.ofInt 32 w.len else s.max }) :=
    Frame.ite (by constructor <;> rfl) (by constructor <;> rfl)
  exact Frame.ite (Frame.trans h1 (by constructor <;> rfl)) h1

/-- In the sequence space: `advance` on a segment without SYN. -/
theorem advance_norm (s : Tcb) (w : W) (hs : w.syn = false) (hp : (s.force && s.persist) = false) :
    (advance s w).nxt = (if w.sackRx then s.nxt + (if w.fin then 1 else 0)
      else s.nxt + (if w.fin then 1 else 0) + BitVec.ofInt 32 w.len) ∧
    (advance s w).max = (if w.sackRx then s.max else
      if seqGT (s.nxt + (if w.fin then 1 else 0) + BitVec.ofInt 32 w.len) s.max then
        s.nxt + (if w.fin then 1 else 0) + BitVec.ofInt 32 w.len else s.max) ∧
    (advance s w).sentFin = (s.sentFin || w.fin) ∧ (advance s w).finProbe = s.finProbe ∧
    (advance s w).squeezed = s.squeezed ∧ (advance s w).hung = s.hung := by
  unfold advance advTimer advSeq advProbe
  have c : (!s.force || !s.persist) = true := by
    revert hp; cases s.force <;> cases s.persist <;> simp
  rw [if_pos c]
  simp only [hs]
  have hz : (s.nxt + (if false = true then (1 : BitVec 32) else 0)) = s.nxt := by simp
  rw [hz]
  by_cases d : w.sackRx = true
  · simp only [d, if_true]
    generalize s.nxt + (if w.fin = true then (1 : BitVec 32) else 0) = n1
    split <;> simp
  · have d : w.sackRx = false := by simpa using d
    simp only [d, Bool.false_eq_true, if_false]
    generalize s.nxt + (if w.fin = true then (1 : BitVec 32) else 0) = n1
    generalize (if seqGT (n1 + BitVec.ofInt 32 w.len) s.max = true then n1 + BitVec.ofInt 32 w.len else s.max) = m1
    split <;> simp

theorem advance_prs (s : Tcb) (w : W) (hs : w.syn = false) (hf : w.fin = false) (hp : (s.force && s.persist) = true) :
    (advance s w).nxt = s.nxt ∧
    (advance s w).max = (if seqGT (s.nxt + BitVec.ofInt 32 w.len) s.max then s.nxt + BitVec.ofInt 32 w.len else s.max) ∧
    (advance s w).sentFin = s.sentFin ∧ (advance s w).finProbe = s.finProbe ∧
    (advance s w).squeezed = s.squeezed ∧ (advance s w).hung = s.hung ∧
    (advance s w).force = true ∧ (advance s w).persist = true := by
  unfold advance advTimer advSeq advProbe
  have c : ¬ (!s.force || !s.persist) = true := by
    revert hp; cases s.force <;> cases s.persist <;> simp
  rw [if_neg c]
  have : s.force = true ∧ s.persist = true := by simpa using hp
  simp [hs, hf, this.1, this.2]

theorem advance_probe (s : Tcb) (w : W) (hp : (s.force && s.persist) = true) (h : (advance s w).finProbe = false) :
    w.fin = false ∧ s.finProbe = false := by
  unfold advance advTimer advSeq advProbe at h
  have c : ¬ (!s.force || !s.persist) = true := by
    revert hp; cases s.force <;> cases s.persist <;> simp
  rw [if_neg c] at h
  simp at h
  exact ⟨h.2, h.1⟩

/-- Move `snd_nxt` and `snd_max`, possibly sending the FIN. -/
theorem At.move {s t : Tcb} (h : At s fa no mo) (f : Frame s t) (k m : Nat) (hk : k ≤ m) (hm : mo ≤ m)
    (h1 : t.nxt = seqOf s.iss (base s fa + k)) (h2 : t.max = seqOf s.iss (base s fa + m))
    (hfin : t.sentFin = true → s.sentFin = true ∨ outFin s.st = true)
    (hmono : s.sentFin = true → t.sentFin = true)
    (hb : m + fa ≤ s.buf.length + (if t.sentFin then 1 else 0))
    (hfm : t.sentFin = true → fa = 0 → m = s.buf.length + 1) : At t fa k m := by
  have hne : (s.st = .established ∨ s.st = .closeWait) → outFin s.st = false := by
    intro c; rcases c with c | c <;> rw [c] <;> rfl
  refine ⟨?_, ?_, ?_, ?_, ?_, hk, ?_, h.fa1, ?_, ?_, ?_, ?_, ?_, ?_, ?_, ?_, ?_, ?_, ?_⟩
  · rw [f.buf, f.written]; exact h.le
  · rw [f.buf, f.written]; exact h.suf
  · rw [f.una, f.iss, f.base]; exact h.una
  · rw [h1, f.iss, f.base]
  · rw [h2, f.iss, f.base]
  · rw [f.buf]; exact hb
  · intro c; rw [f.buf]; exact ⟨(h.fab c).1, hmono (h.fab c).2⟩
  · rw [f.buf]; exact h.size
  · rw [f.needSyn]; exact h.ns
  · rw [f.needFin]; exact h.nf
  · rw [f.st]; exact h.stl
  · intro c; rw [f.cantSend]
    rcases hfin c with d | d
    · exact h.fc d
    · exact h.oc d
  · rw [f.st, f.cantSend]; exact h.oc
  · rw [f.buf]; exact hfm
  · rw [f.st]; exact h.f2
  · rw [f.st]
    intro c
    cases d : t.sentFin with
    | false => rfl
    | true =>
      rcases hfin d with g | g
      · rw [h.es c] at g; exact absurd g (by simp)
      · rw [hne c] at g; exact absurd g (by simp)
  · rw [f.st, f.dead]; exact h.of

/-- What a pass guarantees. -/
structure Good (s t : Tcb) (fa mo : Nat) (p : Option Pkt) : Prop where
  frame : Frame s t
  at_ : ∃ no' mo', mo ≤ mo' ∧ At t fa no' mo'
  pkt : ∀ q, p = some q → Faithful s.iss s.written q ∧ FinAtEnd s.iss s.written q ∧
    (q.fin = true → s.cantSend = true) ∧ q.syn = false

/-- 671-1370 on a segment without SYN. -/
theorem sendSeg_good (h : At s fa no mo) (w0 : W) (hr : Ready s fa no mo w0) (e : Env) (he : e.Ok)
    (hd : s.dead = false) (hg : (sendSeg s e w0).1.finProbe = false) :
    Good s (sendSeg s e w0).1 fa mo (sendSeg s e w0).2.1 := by
  have hnm := h.nm
  have hmb := h.mb
  have hml := h.mlt
  have hsz := h.size
  unfold sendSeg at hg ⊢
  have hs1 : reIss s w0 = s := by unfold reIss; simp [hr.syn]
  simp only at hg ⊢
  rw [hs1] at hg ⊢
  obtain ⟨c1, c2, c3, c4, c5, c6, c7⟩ := clip_spec s e w0 he hr.len0
  generalize hw : clip s e w0 = w at *
  by_cases ha : (!e.alloc) = true
  · rw [if_pos ha] at hg ⊢
    exact ⟨postBlk_frame s e, ⟨no, mo, Nat.le_refl _, postBlk_at h e⟩, by simp⟩
  rw [if_neg ha] at hg ⊢
  -- facts on the clipped variables
  have hsyn : w.syn = false := by rw [c1, hr.syn]
  have hnew : w.sackRx = false → w.len = 0 ∨ (w.off = no ∧ (no : Int) + w.len ≤ s.buf.length) := by
    intro d
    rcases hr.new (by rw [← c3]; exact d) with q | q
    · left; omega
    · right; rw [c2]; exact ⟨q.1, by omega⟩
  have hrtx : w.sackRx = true → ∃ k : Nat, w.rx = seqOf s.iss (base s fa + k) ∧ w.off = k ∧ (k : Int) + w.len + 1 ≤ mo := by
    intro d
    obtain ⟨k, q1, q2, q3⟩ := hr.rtx (by rw [← c3]; exact d)
    exact ⟨k, by rw [c4, q1], by rw [c2, q2], by omega⟩
  have hout : w.fin = true → outFin s.st = true := fun d => hr.out (c7 d).1
  have hfa : w.fin = true → fa = 0 := fun d => h.of (hout d) hd
  have hfnew : w.fin = true → w.sackRx = false → (s.buf.length : Int) ≤ no + w.len := by
    intro d d2
    rw [(c7 d).2]; exact hr.fnew (c7 d).1 (by rw [← c3]; exact d2)
  have hfrtx : w.fin = true → w.sackRx = true → (s.buf.length : Int) ≤ w.off + w.len := by
    intro d d2
    rw [(c7 d).2, c2]; exact hr.frtx (c7 d).1 (by rw [← c3]; exact d2)
  have hprs : w.sackRx = true → s.force = true → s.persist = false := by
    intro d; exact hr.prs (by rw [← c3]; exact d)
  have hfa0 : 0 < w.len → fa = 0 := by
    intro d
    have := h.fa1
    rcases Nat.lt_or_ge fa 1 with q | q
    · omega
    · exfalso
      have hfe : fa = 1 := by omega
      have hb := (h.fab hfe).1
      rw [hb] at hmb
      simp only [List.length_nil] at hmb
      by_cases z : w.sackRx = true
      · obtain ⟨k, _, _, q3⟩ := hrtx z
        split at hmb <;> omega
      · rcases hnew (by simpa using z) with q | q
        · omega
        · rw [hb] at q; simp only [List.length_nil] at q; omega
  have hcc1 : s.sentFin = true → fa = 0 → mo = s.buf.length + 1 := h.fm
  -- step back over a FIN already sent
  generalize hs2 : unFin s w = s2 at *
  unfold unFin at hs2
  have hs2' : ∃ k, At s2 fa k mo ∧ Frame s s2 ∧ s2.sentFin = s.sentFin ∧ s2.finProbe = s.finProbe ∧
      s2.force = s.force ∧ s2.persist = s.persist ∧ s2.max = s.max ∧ s2.hung = s.hung ∧
      (w.fin = false → k = no) ∧ (w.fin = true → w.sackRx = false → (k : Int) + w.len = s.buf.length ∧
        (w.len = 0 ∨ k = no)) ∧
      (w.fin = true → k + 1 ≤ mo ∨ w.sackRx = false ∧ s.sentFin = false) := by
    by_cases z : (w.fin && s.sentFin && s.nxt == s.max) = true
    · rw [if_pos z] at hs2
      simp only [Bool.and_eq_true] at z
      obtain ⟨⟨z1, z2⟩, z3⟩ := z
      have hm := hcc1 z2 (hfa z1)
      rw [h.nxt, h.max, eq_seqOf _ _ _ (by omega) (by omega)] at z3
      have z3 : no = mo := by simpa using z3
      refine ⟨s.buf.length, ?_, ?_, ?_, ?_, ?_, ?_, ?_, ?_, ?_, ?_, ?_⟩
      · subst hs2
        refine h.setNxt (by omega) ?_ rfl rfl rfl rfl rfl rfl rfl rfl rfl rfl rfl
        simp only
        rw [h.nxt, z3, hm, ← Nat.add_assoc, seqOf_pred]
      · subst hs2; constructor <;> rfl
      all_goals try (subst hs2; rfl)
      · intro d; rw [d] at z1; exact absurd z1 (by simp)
      · intro _ d
        rcases hnew d with q | q
        · exact ⟨by omega, .inl q⟩
        · exfalso; omega
      · intro _; left; omega
    · rw [if_neg z] at hs2
      subst hs2
      refine ⟨no, h, Frame.refl s, rfl, rfl, rfl, rfl, rfl, rfl, fun _ => rfl, ?_, ?_⟩
      · intro d d2
        refine ⟨?_, .inr rfl⟩
        have q1 := hfnew d d2
        rcases hnew d2 with q | q
        · have hm1 : no ≤ s.buf.length := by
            cases hsf : s.sentFin with
            | false => rw [hsf] at hmb; simp at hmb; omega
            | true =>
              have hm := hcc1 hsf (hfa d)
              have : no ≠ mo := by
                intro hc
                apply z
                rw [d, hsf, h.nxt, h.max, hc]; simp
              omega
          omega
        · omega
      · intro d
        cases hsf : s.sentFin with
        | false =>
          rw [hsf] at hmb; simp at hmb
          by_cases hx : w.sackRx = true
          · obtain ⟨k, _, q2, q3⟩ := hrtx hx
            have := hfrtx d hx
            exfalso; omega
          · right; exact ⟨by simpa using hx, rfl⟩
        | true =>
          left
          have : no ≠ mo := by
            intro hc
            apply z
            rw [d, hsf, h.nxt, h.max, hc]; simp
          omega
  obtain ⟨k, h2, f2, t1, t2, t3, t4, t5, t6, t7, t8, t9⟩ := hs2'
  clear hs2
  have hb2 : base s2 fa = base s fa := f2.base fa
  -- the packet
  have hpkt : ∀ q, some (mkPkt s2 e w) = some q →
      Faithful s.iss s.written q ∧ FinAtEnd s.iss s.written q ∧ (q.fin = true → s.cantSend = true) ∧ q.syn = false := by
    intro q hq
    have hq := (Option.some.inj hq).symm
    unfold mkPkt at hq
    have hdl : q.data.length = w.len.toNat := by rw [hq]; exact payload_length _ _ _
    refine ⟨?_, ?_, ?_, ?_⟩
    · by_cases z : w.len = 0
      · left
        rw [← List.length_eq_zero_iff, hdl, z]; rfl
      · have z0 : 0 < w.len := by omega
        have f0 := hfa0 z0
        by_cases zz : w.sackRx = true
        · obtain ⟨j, q1, q2, q3⟩ := hrtx zz
          refine piece_faithful h f0 q j w.len c5 ?_ ?_ ?_
          · rw [hq]; simp only; rw [if_pos zz, q1]
          · rw [hq]; simp only; rw [f2.buf, q2]
          · split at hmb <;> omega
        · have zz : w.sackRx = false := by simpa using zz
          have hk : k = no := by
            cases hfn : w.fin with
            | false => exact t7 hfn
            | true => rcases (t8 hfn zz).2 with a | a
                      · exact absurd a z
                      · exact a
          rcases hnew zz with a | a
          · exact absurd a z
          · refine piece_faithful h f0 q no w.len c5 ?_ ?_ a.2
            · rw [hq]; simp only; rw [if_neg (by simp [zz]), if_pos (by simp [z]), h2.nxt, f2.iss, hb2, hk]
            · rw [hq]; simp only; rw [f2.buf, a.1]
    · intro hfn
      have hfn : w.fin = true := by rw [hq] at hfn; exact hfn
      have f0 := hfa hfn
      have hle := h.le
      rw [hdl]
      by_cases zz : w.sackRx = true
      · obtain ⟨j, q1, q2, q3⟩ := hrtx zz
        have := hfrtx hfn zz
        have hsq : q.seq = seqOf s.iss (base s fa + j) := by rw [hq]; simp only; rw [if_pos zz, q1]
        rw [hsq, seqOf_add]
        unfold seqOfByte base
        congr 1
        subst f0
        split at hmb <;> omega
      · have zz : w.sackRx = false := by simpa using zz
        have hsq : q.seq = seqOf s.iss (base s fa + k) := by
          rw [hq]; simp only; rw [if_neg (by simp [zz]), if_pos (by simp [hfn]), h2.nxt, f2.iss, hb2]
        have := (t8 hfn zz).1
        rw [hsq, seqOf_add]
        unfold seqOfByte base
        congr 1
        subst f0
        omega
    · intro hfn
      have hfn : w.fin = true := by rw [hq] at hfn; exact hfn
      exact h.oc (hout hfn)
    · rw [hq]; exact hsyn
  refine ⟨?_, ?_, hpkt⟩
  · refine Frame.trans f2 ?_
    refine Frame.trans (advance_frame s2 w) ?_
    exact Frame.trans (Frame.ite (by constructor <;> rfl) (Frame.refl _)) (postBlk_frame _ e)
  · -- the state
    have hgm : (advance s2 w).finProbe = false := by
      unfold unSent at hg
      by_cases z : (!e.sent && (!(advance s2 w).force || !(advance s2 w).persist) && !w.syn && !w.sackRx) = true
      · rw [if_pos z] at hg; exact hg
      · rw [if_neg z] at hg; exact hg
    by_cases hp : (s2.force && s2.persist) = true
    · -- a probe
      have hfn := (advance_probe s2 w hp hgm).1
      obtain ⟨a1, a2, a3, a4, a5, a6, a7, a8⟩ := advance_prs s2 w hsyn hfn hp
      have hnrx : w.sackRx = false := by
        cases z : w.sackRx with
        | false => rfl
        | true =>
          rw [t3, t4] at hp
          simp only [Bool.and_eq_true] at hp
          rw [hprs z hp.1] at hp
          exact absurd hp.2 (by simp)
      have hk := t7 hfn
      have hkl : k + w.len.toNat ≤ s.buf.length ∨ w.len = 0 := by
        rcases hnew hnrx with q | q
        · exact .inr q
        · left; omega
      have hif : unSent (advance s2 w) e w = advance s2 w := by
        unfold unSent; rw [a7, a8]; simp
      rw [hif]
      refine ⟨k, max mo (k + w.len.toNat), by omega, postBlk_at ?_ e⟩
      have hkm : k ≤ mo := h2.nm
      refine h2.move (advance_frame s2 w) k _ (by omega) (by omega) ?_ ?_ ?_ ?_ ?_ ?_
      · rw [a1]; exact h2.nxt
      · rw [a2, h2.nxt, seqOf_addInt _ _ _ c5, h2.max]
        generalize base s2 fa = bz
        rw [gt_seqOf _ _ _ (by omega) (by omega)]
        by_cases z : bz + mo < bz + k + w.len.toNat
        · simp only [z, decide_true, if_true]; congr 1; omega
        · simp only [z, decide_false]; rw [if_neg (by simp)]; congr 1; omega
      · intro d; left; rw [← a3]; exact d
      · intro d; rw [a3]; exact d
      · rw [a3]
        have := h2.mb
        have hbe := f2.buf
        have hlf : w.len ≠ 0 → fa = 0 := fun d => hfa0 (by omega)
        rcases hkl with q | q
        · by_cases y : w.len = 0
          · rw [y]; simp only [Int.toNat_zero]; split <;> split at this <;> first | omega | (exfalso; simp_all)
          · have := hlf y
            rw [← hbe] at q
            omega
        · rw [q]; simp only [Int.toNat_zero]; omega
      · intro d d0
        rw [a3] at d
        have := h2.fm d d0
        have hbe := f2.buf
        rcases hkl with q | q
        · rw [← hbe] at q; omega
        · rw [q]; simp only [Int.toNat_zero]; omega
    · -- ordinary transmission
      have hp : (s2.force && s2.persist) = false := by simpa using hp
      obtain ⟨a1, a2, a3, a4, a5, a6⟩ := advance_norm s2 w hsyn hp
      have hfr := advance_frame s2 w
      generalize hs3 : advance s2 w = s3 at *
      have hbe := f2.buf
      have hfrst := f2.st
      -- position after the segment
      obtain ⟨fb, hfb⟩ : ∃ fb : Nat, fb = (if w.fin then 1 else 0) := ⟨_, rfl⟩
      have hfb1 : (if w.fin = true then (1 : BitVec 32) else 0) = BitVec.ofNat 32 fb := by
        rw [hfb]; split <;> rfl
      rw [hfb1, h2.nxt, seqOf_add, h2.max] at a2
      rw [hfb1, h2.nxt, seqOf_add] at a1
      by_cases hx : w.sackRx = true
      · rw [if_pos hx] at a1 a2
        have hsent : unSent s3 e w = s3 := by unfold unSent; simp [hx]
        rw [hsent]
        have hk1 : k + fb ≤ mo := by
          rw [hfb]
          cases hfn : w.fin with
          | false => simp; exact h2.nm
          | true =>
            rcases t9 hfn with q | q
            · simpa using q
            · rw [hx] at q; exact absurd q.1 (by simp)
        refine ⟨k + fb, mo, Nat.le_refl _, postBlk_at ?_ e⟩
        have hsf : s3.sentFin = s2.sentFin := by
          rw [a3]
          cases hfn : w.fin with
          | false => simp
          | true =>
            rcases t9 hfn with q | q
            · -- then the FIN has been sent before
              obtain ⟨j, q1, q2, q3⟩ := hrtx hx
              have := hfrtx hfn hx
              rw [t1]
              cases hsf : s.sentFin with
              | true => rfl
              | false => rw [hsf] at hmb; simp at hmb; omega
            · rw [hx] at q; exact absurd q.1 (by simp)
        refine h2.move hfr (k + fb) mo hk1 (Nat.le_refl _) ?_ a2 ?_ ?_ ?_ ?_
        · rw [a1]; congr 1; omega
        · intro d; left; rw [← hsf]; exact d
        · intro d; rw [hsf]; exact d
        · rw [hsf]; exact h2.mb
        · rw [hsf]; exact h2.fm
      · have hx : w.sackRx = false := by simpa using hx
        rw [if_neg (by simp [hx])] at a1 a2
        rw [seqOf_addInt _ _ _ c5] at a1 a2
        generalize hbz : base s2 fa = bz at *
        have hkm : k ≤ mo := h2.nm
        -- end of the segment
        have hend : k + fb + w.len.toNat ≤ s2.buf.length + 1 ∧ (w.fin = true → k + fb + w.len.toNat = s2.buf.length + 1) ∧
            (w.fin = false → k + w.len.toNat ≤ s2.buf.length ∨ w.len = 0) := by
          rw [hbe]
          refine ⟨?_, ?_, ?_⟩
          · rw [hfb]
            cases hfn : w.fin with
            | false =>
              simp only [Bool.false_eq_true, if_false]
              have := t7 hfn
              rcases hnew hx with q | q
              · have : mo ≤ s.buf.length + 1 := by split at hmb <;> omega
                omega
              · omega
            | true =>
              have := (t8 hfn hx).1
              simp only [if_true]
              omega
          · intro hfn
            have := (t8 hfn hx).1
            rw [hfb, hfn]; simp only [if_true]; omega
          · intro hfn
            have := t7 hfn
            rcases hnew hx with q | q
            · right; exact q
            · left; omega
        have hmax : s3.max = seqOf s2.iss (bz + max mo (k + fb + w.len.toNat)) := by
          rw [a2, gt_seqOf _ _ _ (by rw [hbe] at hend; omega) (by omega)]
          by_cases z : bz + mo < bz + k + fb + w.len.toNat
          · simp only [z, decide_true, if_true]; congr 1; omega
          · simp only [z, decide_false]; rw [if_neg (by simp)]; congr 1; omega
        have hat : ∀ t : Tcb, Frame s2 t → t.max = s3.max → t.sentFin = s3.sentFin → ∀ j, j ≤ max mo (k + fb + w.len.toNat) →
            t.nxt = seqOf s2.iss (bz + j) → At t fa j (max mo (k + fb + w.len.toNat)) := by
          intro t ft u1 u2 j hj u3
          refine h2.move ft j _ hj (by omega) ?_ ?_ ?_ ?_ ?_ ?_
          · rw [u3, hbz]
          · rw [u1, hmax, hbz]
          · intro d
            rw [u2, a3] at d
            simp only [Bool.or_eq_true] at d
            rcases d with d | d
            · exact .inl d
            · right; rw [hfrst]; exact hout d
          · intro d; rw [u2, a3, d]; rfl
          · rw [u2, a3]
            have m2 := h2.mb
            cases hfn : w.fin with
            | true =>
              have := hfa hfn
              simp only [Bool.or_true, if_true]
              have := hend.1
              split at m2 <;> omega
            | false =>
              simp only [Bool.or_false]
              have hfb0 : fb = 0 := by rw [hfb, hfn]; rfl
              rcases hend.2.2 hfn with q | q
              · by_cases y : w.len = 0
                · rw [y, hfb0]; simp only [Int.toNat_zero]; omega
                · have := hfa0 (by omega)
                  split <;> split at m2 <;> first | omega | (exfalso; simp_all)
              · rw [q, hfb0]; simp only [Int.toNat_zero]; omega
          · intro d d0
            rw [u2, a3] at d
            simp only [Bool.or_eq_true] at d
            have m2 := h2.mb
            by_cases y : s2.sentFin = true
            · have := h2.fm y d0
              have := hend.1
              omega
            · rcases d with d | d
              · exact absurd d y
              · have := hend.2.1 d
                rw [if_neg y] at m2
                omega
        unfold unSent
        by_cases z : (!e.sent && (!s3.force || !s3.persist) && !w.syn && !w.sackRx) = true
        · rw [if_pos z]
          refine ⟨k + fb, _, by omega, postBlk_at (hat { s3 with nxt := s3.nxt - BitVec.ofInt 32 w.len } ?_ rfl rfl
            (k + fb) (by omega) ?_) e⟩
          · exact Frame.trans hfr (by constructor <;> rfl)
          · simp only
            rw [a1, seqOf_subInt _ _ _ c5]; congr 1; omega
        · rw [if_neg z]
          exact ⟨k + fb + w.len.toNat, _, by omega, postBlk_at (hat s3 hfr rfl rfl _ (by omega) (by rw [a1]; congr 1; omega)) e⟩

end

end Verif.Snd

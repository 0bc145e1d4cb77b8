import Verif.Snd.Spec
import Verif.Snd.Lemmas
/-!
# Invariant of the sender and its preservation by one pass of `ofp_tcp_output`
-/
namespace Verif.Snd
open Verif.Tcp

/-- Position of `una`: bytes already dropped from the buffer, plus the SYN, plus the acknowledged FIN. -/
def base (s : Tcb) (fa : Nat) : Nat := s.written.length - s.buf.length + 1 + fa

/-- The invariant.  `fa`: our FIN has been acknowledged; `no`, `mo`: `snd_nxt - snd_una`, `snd_max - snd_una`. -/
structure At (s : Tcb) (fa no mo : Nat) : Prop where
  le : s.buf.length ≤ s.written.length
  suf : s.buf = s.written.drop (s.written.length - s.buf.length)
  una : s.una = seqOf s.iss (base s fa)
  nxt : s.nxt = seqOf s.iss (base s fa + no)
  max : s.max = seqOf s.iss (base s fa + mo)
  nm : no ≤ mo
  mb : mo + fa ≤ s.buf.length + (if s.sentFin then 1 else 0)
  fa1 : fa ≤ 1
  fab : fa = 1 → s.buf = [] ∧ s.sentFin = true
  size : s.buf.length ≤ 2 ^ 30
  ns : s.needSyn = false
  nf : s.needFin = false
  stl : s.st ≠ .listen ∧ s.st ≠ .synSent ∧ s.st ≠ .synRcvd
  fc : s.sentFin = true → s.cantSend = true
  oc : outFin s.st = true → s.cantSend = true
  fm : s.sentFin = true → fa = 0 → mo = s.buf.length + 1
  f2 : (s.st = .finWait2 ∨ s.st = .timeWait) → fa = 1
  es : (s.st = .established ∨ s.st = .closeWait) → s.sentFin = false
  of : outFin s.st = true → s.dead = false → fa = 0

theorem At.congr {s t : Tcb} {fa no mo : Nat} (h : At s fa no mo) (h1 : t.st = s.st) (h2 : t.iss = s.iss)
    (h3 : t.una = s.una) (h4 : t.nxt = s.nxt) (h5 : t.max = s.max) (h6 : t.buf = s.buf)
    (h7 : t.needSyn = s.needSyn) (h8 : t.needFin = s.needFin) (h9 : t.sentFin = s.sentFin)
    (h10 : t.cantSend = s.cantSend) (h11 : t.dead = s.dead) (h12 : t.written = s.written) : At t fa no mo := by
  cases s; cases t
  simp only at h1 h2 h3 h4 h5 h6 h7 h8 h9 h10 h11 h12
  subst h1 h2 h3 h4 h5 h6 h7 h8 h9 h10 h11 h12
  exact ⟨h.1, h.2, h.3, h.4, h.5, h.6, h.7, h.8, h.9, h.10, h.11, h.12, h.13, h.14, h.15, h.16, h.17, h.18, h.19⟩

/-- Same sequence-space bookkeeping, other `snd_nxt`. -/
theorem At.setNxt {s t : Tcb} {fa no mo k : Nat} (h : At s fa no mo) (hk : k ≤ mo)
    (h4 : t.nxt = seqOf s.iss (base s fa + k)) (h1 : t.st = s.st) (h2 : t.iss = s.iss)
    (h3 : t.una = s.una) (h5 : t.max = s.max) (h6 : t.buf = s.buf)
    (h7 : t.needSyn = s.needSyn) (h8 : t.needFin = s.needFin) (h9 : t.sentFin = s.sentFin)
    (h10 : t.cantSend = s.cantSend) (h11 : t.dead = s.dead) (h12 : t.written = s.written) : At t fa k mo := by
  cases s; cases t
  simp only at h1 h2 h3 h4 h5 h6 h7 h8 h9 h10 h11 h12
  subst h1 h2 h3 h4 h5 h6 h7 h8 h9 h10 h11 h12
  exact ⟨h.1, h.2, h.3, rfl, h.5, hk, h.7, h.8, h.9, h.10, h.11, h.12, h.13, h.14, h.15, h.16, h.17, h.18, h.19⟩

/-- What a pass leaves alone. -/
structure Frame (s t : Tcb) : Prop where
  st : t.st = s.st
  iss : t.iss = s.iss
  una : t.una = s.una
  buf : t.buf = s.buf
  needSyn : t.needSyn = s.needSyn
  needFin : t.needFin = s.needFin
  cantSend : t.cantSend = s.cantSend
  dead : t.dead = s.dead
  written : t.written = s.written
  wnd : t.wnd = s.wnd
  maxwnd : t.maxwnd = s.maxwnd
  force : t.force = s.force
  noopt : t.noopt = s.noopt
  sackPermit : t.sackPermit = s.sackPermit
  fastrec : t.fastrec = s.fastrec
  recover : t.recover = s.recover
  wl1 : t.wl1 = s.wl1
  wl2 : t.wl2 = s.wl2
  rcvNxt : t.rcvNxt = s.rcvNxt
  irs : t.irs = s.irs

theorem Frame.refl (s : Tcb) : Frame s s := by constructor <;> rfl

theorem Frame.trans {a b c : Tcb} (h : Frame a b) (h' : Frame b c) : Frame a c := by
  cases h; cases h'; constructor <;> simp_all

theorem Frame.base {s t : Tcb} (h : Frame s t) (fa : Nat) : base t fa = base s fa := by
  unfold Snd.base; rw [h.buf, h.written]

section
variable {s : Tcb} {fa no mo : Nat}

theorem At.mlt (h : At s fa no mo) : mo ≤ 2 ^ 30 + 1 := by
  have h1 := h.mb; have := h.size; split at h1 <;> omega

theorem At.off (h : At s fa no mo) : diff s.nxt s.una = no := by
  rw [h.nxt, h.una, diff_seqOf _ _ _ (by have := h.mlt; have := h.nm; omega) (by omega)]; omega

theorem At.gap (h : At s fa no mo) : diff s.max s.una = mo := by
  rw [h.max, h.una, diff_seqOf _ _ _ (by have := h.mlt; omega) (by omega)]; omega

theorem At.gap2 (h : At s fa no mo) : diff s.max s.nxt = (mo - no : Nat) := by
  have := h.mlt; have := h.nm
  rw [h.max, h.nxt, diff_seqOf _ _ _ (by omega) (by omega)]; omega

/-- `ofp_tcp_sack_adjust`. -/
theorem adjustNxt_at (h : At s fa no mo) (e : Env) : ∃ k, no ≤ k ∧ At (adjustNxt s e) fa k mo := by
  unfold adjustNxt
  split
  · refine ⟨no + min e.adjust (mo - no), by omega, ?_⟩
    refine h.setNxt (by have := h.nm; omega) ?_ rfl rfl rfl rfl rfl rfl rfl rfl rfl rfl rfl
    rw [h.gap2, h.nxt, seqOf_add, Nat.add_assoc]; simp
  · exact ⟨no, Nat.le_refl _, h⟩

theorem adjustNxt_frame (s : Tcb) (e : Env) : Frame s (adjustNxt s e) := by
  unfold adjustNxt; split <;> constructor <;> rfl

theorem adjustNxt_more (s : Tcb) (e : Env) : (adjustNxt s e).max = s.max ∧ (adjustNxt s e).sentFin = s.sentFin ∧
    (adjustNxt s e).finProbe = s.finProbe ∧ (adjustNxt s e).squeezed = s.squeezed ∧
    (adjustNxt s e).hung = s.hung ∧ (adjustNxt s e).rexmt = s.rexmt ∧ (adjustNxt s e).persist = s.persist ∧
    (adjustNxt s e).acknow = s.acknow := by
  unfold adjustNxt; split <;> simp

/-- A hole lies strictly inside what has been sent. -/
theorem holeOf_at (h : At s fa no mo) (e : Env) {rx en : BitVec 32} (hh : holeOf s e = some (rx, en)) :
    ∃ a b, rx = seqOf s.iss (base s fa + a) ∧ en = seqOf s.iss (base s fa + b) ∧ a < b ∧ b + 1 ≤ mo := by
  unfold holeOf at hh
  simp only [h.gap, Int.toNat_natCast] at hh
  cases hH : e.hole with
  | none => simp [hH] at hh
  | some ab =>
    obtain ⟨a, b⟩ := ab
    simp only [hH] at hh
    by_cases hd : mo - 1 = 0
    · simp [hd] at hh
    · rw [if_neg hd] at hh
      simp only [Option.some.injEq, Prod.mk.injEq] at hh
      obtain ⟨h1, h2⟩ := hh
      refine ⟨min a (mo - 1 - 1), min a (mo - 1 - 1) + 1 + min b (mo - 1 - 1 - min a (mo - 1 - 1)), ?_, ?_, by omega,
        by omega⟩
      · rw [← h1, h.una, seqOf_add]
      · rw [← h2, h.una, seqOf_add]

/-- What the SACK block chooses. -/
theorem sackPick_at (h : At s fa no mo) (e : Env) :
    let w := sackPick s e
    w.syn = outSyn s.st ∧ w.fin = outFin s.st ∧ w.alot = w.sackRx ∧ w.sendwin = min (toI64 s.wnd) (toI64 e.cwnd) ∧
    (w.sackRx = false → w.squeezed = false → w.off = no) ∧
    (w.sackRx = true → ∃ k : Nat, w.rx = seqOf s.iss (base s fa + k) ∧ w.off = k ∧ 0 < w.len ∧ (k : Int) + w.len + 1 ≤ mo) := by
  intro w
  have hw : w = sackPick s e := rfl
  unfold sackPick at hw
  simp only at hw
  by_cases c1 : (s.sackPermit && s.fastrec) = true
  · rw [if_pos c1] at hw
    cases hH : holeOf s e with
    | none =>
      simp only [hH] at hw
      rw [hw]; simp [h.off]
    | some p =>
      obtain ⟨rx, en⟩ := p
      simp only [hH] at hw
      by_cases c2 : (seqGT en s.recover && seqGEQ rx s.recover) = true
      · rw [if_pos c2] at hw
        rw [hw]; simp [h.off]
      · rw [if_neg c2] at hw
        obtain ⟨a, b, e1, e2, e3, e4⟩ := holeOf_at h e hH
        by_cases hlen : 0 < w.len
        case neg =>
          have hl2 : ¬ (0 < holeLen (min (toI64 s.wnd) (toI64 e.cwnd)) e.sackBytes (holeLim s rx en)) := by
            rw [hw] at hlen; exact hlen
          rw [hw]
          refine ⟨rfl, rfl, rfl, rfl, ?_, ?_⟩
          · intro _ c
            simp only [decide_eq_false_iff_not] at c
            omega
          · intro c
            simp only [decide_eq_true_eq] at c
            omega
        have hoff : w.off = (a : Int) := by
          rw [hw]; simp only
          rw [e1, h.una, diff_seqOf _ _ _ (by have := h.mlt; omega) (by omega)]; omega
        have hb : (en - rx).toNat = b - a := by
          have e5 : en = rx + BitVec.ofNat 32 (b - a) := by
            rw [e1, e2, seqOf_add]; congr 1; omega
          rw [e5, BitVec.add_comm, BitVec.add_sub_cancel, BitVec.toNat_ofNat]
          have := h.mlt
          exact Nat.mod_eq_of_lt (by omega)
        have hle : w.len ≤ ((b - a : Nat) : Int) := by
          rw [hw]
          simp only
          by_cases c3 : seqGT en s.recover = true
          · -- the part of the hole below `snd_recover`
            have c4 : seqGEQ rx s.recover = false := by
              simpa [c3] using c2
            have hrec : ∃ m, s.recover = seqOf s.iss (base s fa + a + m) ∧ m < b - a := by
              have e6 := as_seqOf s.iss (base s fa + a) s.recover
              generalize hm : (s.recover - seqOf s.iss (base s fa + a)).toNat = m at e6
              have hm2 : m < 2 ^ 32 := by rw [← hm]; exact (s.recover - seqOf s.iss (base s fa + a)).isLt
              have hm3 : m < 2 ^ 31 ∧ 0 < m := by
                have c5 : diff rx s.recover < 0 := by
                  unfold seqGEQ at c4; simpa using c4
                have c6 : m ≠ 2 ^ 31 ∨ m = 2 ^ 31 := by omega
                have c7 : (rx - s.recover).toInt < 0 := c5
                have c8 : rx - s.recover = - (BitVec.ofNat 32 m) := by
                  have : s.recover - rx = BitVec.ofNat 32 m := by
                    rw [← hm, ← e1, BitVec.ofNat_toNat, BitVec.setWidth_eq]
                  rw [← this, BitVec.neg_sub, BitVec.add_comm, ← BitVec.sub_eq_add_neg]
                rw [c8, BitVec.toInt_eq_toNat_cond, BitVec.toNat_neg, BitVec.toNat_ofNat] at c7
                have h32 : (2 : Nat) ^ 32 = 4294967296 := by decide
                have h31 : (2 : Nat) ^ 31 = 2147483648 := by decide
                rw [h32] at *
                have e7 : m % 4294967296 = m := Nat.mod_eq_of_lt hm2
                rw [e7] at c7
                by_cases z : m = 0
                · subst z; simp at c7
                · rw [Nat.mod_eq_of_lt (by omega)] at c7
                  -- exactly 2^31 is before both ways; then `en` cannot be after it
                  by_cases z2 : m = 2147483648
                  · exfalso
                    have c9 : diff en s.recover > 0 := by unfold seqGT at c3; simpa using c3
                    rw [e2, e6] at c9
                    have := h.mlt
                    rw [show base s fa + b = base s fa + a + (b - a) by omega] at c9
                    have c10 := diff_eq s.iss (base s fa + a + (b - a)) (base s fa + a + m) (by omega) (by omega)
                    rw [c10] at c9
                    omega
                  · split at c7 <;> omega
              refine ⟨m, e6, ?_⟩
              rw [e2, e6] at c3
              have := h.mlt
              rw [gt_seqOf _ _ _ (by omega) (by omega)] at c3
              simp at c3
              omega
            obtain ⟨m, r1, r2⟩ := hrec
            have hrx : (s.recover - rx).toNat = m := by
              rw [r1, e1, ← seqOf_add s.iss (base s fa + a) m, BitVec.add_comm, BitVec.add_sub_cancel,
                BitVec.toNat_ofNat]
              have := h.mlt
              exact Nat.mod_eq_of_lt (by omega)
            have hl : holeLim s rx en = m := by unfold holeLim; rw [if_pos c3, hrx]
            rw [hl]
            unfold holeLen
            split
            · omega
            · split <;> omega
          · have hl : holeLim s rx en = b - a := by unfold holeLim; rw [if_neg c3, hb]
            rw [hl]
            unfold holeLen
            split
            · omega
            · split <;> omega
        refine ⟨?_, ?_, ?_, ?_, ?_, ?_⟩
        · rw [hw]
        · rw [hw]
        · rw [hw]
        · rw [hw]
        · intro c _
          rw [hw] at c hlen
          simp only [decide_eq_false_iff_not] at c
          exact absurd hlen c
        · intro _
          refine ⟨a, ?_, hoff, hlen, by omega⟩
          rw [hw]; exact e1
  · rw [if_neg c1] at hw
    rw [hw]; simp [h.off]

end

end Verif.Snd

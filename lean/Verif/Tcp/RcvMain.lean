import Verif.Tcp.RcvInv
/-! # C30, C31: the theorems -/
namespace Verif.Tcp
open Verif.Sockbuf (Pkt)

theorem diff_swap (a c : BitVec 32) (h : diff a c ≠ -2 ^ 31) : diff c a = - diff a c := by
  unfold diff at *
  have hneg : c - a = -(a - c) := by
    apply BitVec.eq_of_toNat_eq
    simp only [BitVec.toNat_sub, BitVec.toNat_neg]
    have := a.isLt
    have := c.isLt
    omega
  rw [hneg]
  generalize a - c = d at *
  rw [BitVec.toInt_neg]
  have h1 := BitVec.toInt_lt (x := d)
  have h2 := BitVec.le_toInt (x := d)
  simp only [Nat.add_one_sub_one] at h1 h2
  apply Int.bmod_eq_of_le <;> omega

theorem add_diff (a n : BitVec 32) (h : 0 ≤ diff n a) : a + BitVec.ofNat 32 (diff n a).toNat = n := by
  have e : BitVec.ofNat 32 (diff n a).toNat = n - a := by
    unfold diff at *
    apply BitVec.eq_of_toInt_eq
    generalize n - a = d at *
    have h1 := BitVec.toInt_lt (x := d)
    simp only [Nat.add_one_sub_one] at h1
    rw [BitVec.toInt_ofNat', Int.toNat_of_nonneg h]
    apply Int.bmod_eq_of_le <;> omega
  rw [e, BitVec.add_comm, BitVec.sub_add_cancel]

section
variable {b : BitVec 32} {P : Nat → QEnt → Prop}

theorem trimRight_out (hP : Closed P) (c : Cfg) (s : Rcv) (r x tlen wnd : Nat) (thfin hfin ack zone : Bool)
    (m : Pkt) (hn : s.nxt = seqOf b r) (hc : Ch b P r s.segq (r + W)) (hw : wnd ≤ W) (hrx : r ≤ x)
    (hx2 : x + tlen < r + 2 ^ 31)
    (hin : ∀ j st, j ≤ tlen → x + (tlen - j) ≤ r + wnd → (j ≠ 0 → x + tlen = r + wnd + j) →
      (tlen - j ≠ 0 ∨ (thfin = true ∧ j = 0)) →
      P x ⟨seqOf b x, tlen - j, hfin, { m with data := m.data.take (m.data.length - j) }, st⟩) :
    ∃ r' pres fin, Out b P s r (trimRight c s (seqOf b x) tlen thfin hfin m wnd ack zone) r' pres fin ∧
      (x = r → tlen ≠ 0 → tlen ≤ wnd → s.phase = .open → tlen ≤ s.space c → r + tlen ≤ if fin then r' - 1 else r') := by
  have hW : W = 2 ^ 30 := rfl
  unfold trimRight
  have ho : diff (seqOf b x + BitVec.ofNat 32 tlen) (s.nxt + BitVec.ofNat 32 wnd) = (x + tlen : Int) - (r + wnd) := by
    rw [hn, seqOf_add, seqOf_add, diff_eq b (x + tlen) (r + wnd) (by omega) (by omega)]
    omega
  simp only [ho]
  split
  · next hov =>
    split
    · exact ⟨r, [], false, out_idle s _ r hn hc rfl rfl rfl rfl rfl (Or.inl rfl), fun h1 h2 h3 _ _ => by omega⟩
    · next hcut =>
      refine Exists.imp (fun r' => Exists.imp fun pres => Exists.imp fun fin => And.imp_right
        fun _ h1 h2 h3 _ _ => by omega) (afterTrim_out hP c s r _ _ _ _ _ _ _ hn hc ?_)
      intro hne
      simp only [Bool.false_eq_true, or_false] at hne
      have hj : ((x + tlen : Int) - (r + wnd)).toNat = x + tlen - (r + wnd) := by omega
      rw [hj] at hne ⊢
      refine ⟨x, rfl, hrx, by omega, fun st => hin _ st (by omega) (by omega) (fun _ => by omega) (Or.inl hne)⟩
  · next hov =>
    obtain ⟨r', pres, fin, h, hpr⟩ := afterTrim_out hP c s r (seqOf b x) tlen thfin hfin ack zone m hn hc (by
      intro hne
      refine ⟨x, rfl, hrx, by omega, fun st => ?_⟩
      have := hin 0 st (Nat.zero_le _) (by omega) (fun h => absurd rfl h) (hne.imp (fun h => h) (fun h => ⟨h, rfl⟩))
      simpa using this)
    exact ⟨r', pres, fin, h, fun h1 h2 _ h4 h5 => hpr (by rw [h1, hn]) h2 h4 h5⟩

/-- A segment with nothing left after trimming. -/
theorem trimRight_empty (hP : Closed P) (c : Cfg) (s : Rcv) (r wnd : Nat) (seq : BitVec 32) (hfin ack zone : Bool)
    (m : Pkt) (hn : s.nxt = seqOf b r) (hc : Ch b P r s.segq (r + W)) :
    ∃ r' pres fin, Out b P s r (trimRight c s seq 0 false hfin m wnd ack zone) r' pres fin := by
  unfold trimRight
  simp only
  split
  · split
    · exact ⟨r, [], false, out_idle s _ r hn hc rfl rfl rfl rfl rfl (Or.inl rfl)⟩
    · have key : ∀ n m', ∃ r' pres fin, Out b P s r (afterTrim c s seq (0 - n) false hfin m' ack zone) r' pres fin := by
        intro n m'
        obtain ⟨r', pres, fin, h, _⟩ := afterTrim_out hP c s r seq (0 - n) false hfin ack zone m' hn hc (by
          intro h; rcases h with h | h
          · exact absurd (Nat.zero_sub _) h
          · cases h)
        exact ⟨r', pres, fin, h⟩
      exact key _ _
  · obtain ⟨r', pres, fin, h, _⟩ := afterTrim_out hP c s r seq 0 false hfin ack zone m hn hc (by
      intro h; rcases h with h | h
      · exact absurd rfl h
      · cases h)
    exact ⟨r', pres, fin, h⟩

theorem segment_out (hP : Closed P) (c : Cfg) (s : Rcv) (r : Nat) (g : Seg)
    (hn : s.nxt = seqOf b r) (hc : Ch b P r s.segq (r + W)) (hw : g.wnd ≤ W)
    (hD : diff g.seq s.nxt + g.payload.length < 2 ^ 31) (hD2 : -2 ^ 31 < diff g.seq s.nxt)
    (hin : ∀ (k j x : Nat) (st : Bool), k + j ≤ g.payload.length → (x : Int) = r + diff g.seq s.nxt + k → r ≤ x →
      x + (g.payload.length - k) < r + 2 ^ 31 →
      (j ≠ 0 → x + (g.payload.length - k) = r + g.wnd + j) →
      (g.payload.length - k - j ≠ 0 ∨ (g.fin = true ∧ j = 0)) →
      P x ⟨seqOf b x, g.payload.length - k - j, g.fin,
        ⟨g.id, ((g.payload ++ g.pad).drop k).take (((g.payload ++ g.pad).drop k).length - j)⟩, st⟩) :
    ∃ r' pres fin, Out b P s r (segment c s g) r' pres fin ∧
      (diff g.seq s.nxt ≤ 0 → 0 < diff g.seq s.nxt + g.payload.length →
        diff g.seq s.nxt + g.payload.length ≤ g.wnd → s.phase = .open → g.payload.length ≤ s.space c →
        (r : Int) + diff g.seq s.nxt + g.payload.length ≤ if fin then r' - 1 else r') := by
  have hW : W = 2 ^ 30 := rfl
  have hsw := diff_swap g.seq s.nxt (by omega)
  unfold segment
  simp only
  split
  · next hpred =>
    -- header prediction: as the in-order path of `dodata`
    obtain ⟨p1, _, p3, p4, p5, p6, p7⟩ := hpred
    have a := append_segq { s with nxt := s.nxt + BitVec.ofNat 32 g.payload.length } ⟨g.id, g.payload ++ g.pad⟩
    have hlt : diff g.seq s.nxt = 0 := by rw [p3]; unfold diff; simp
    have := hin 0 0 r false (Nat.zero_le _) (by omega) (Nat.le_refl _)
      (by rw [hlt] at hD; omega) (fun h => absurd rfl h) (Or.inl (by simpa using p6))
    refine ⟨r + g.payload.length, [⟨seqOf b r, g.payload.length, g.fin, ⟨g.id, g.payload ++ g.pad⟩, false⟩], false,
      ⟨?_, by omega, ?_, ?_, a.2.2.2.2.2, by simp, ?_, by rw [a.2.2.2.2.1]; simp, Or.inl a.2.2.1, by intro h; cases h⟩,
      fun _ _ _ _ _ => by simp only [Bool.false_eq_true, if_false]; omega⟩
    · rw [a.2.1]; simp only; rw [hn, seqOf_add]
    · rw [a.1]; simp only; rw [p5]; unfold Ch; omega
    · rw [List.foldl_cons, List.foldl_nil]
      unfold Rcv.append Rcv.free
      split
      · rfl
      · split <;> rfl
    · simp only [Contig, if_neg Bool.false_ne_true, and_true, true_and]
      rw [List.drop_zero, Nat.sub_zero, Nat.sub_zero, Nat.sub_zero, List.take_of_length_le (Nat.le_refl _)] at this
      exact this
  · unfold trimLeft
    simp only
    split
    · next htd =>
      split
      · next hall =>
        obtain ⟨r', pres, fin, h⟩ := trimRight_empty hP c s r g.wnd (g.seq + BitVec.ofNat 32 g.payload.length) g.fin g.ack g.zone
          (pull ⟨g.id, g.payload ++ g.pad⟩ g.payload.length) hn hc
        exact ⟨r', pres, fin, h, fun _ _ _ _ _ => by omega⟩
      · next hpart =>
        have hx : g.seq + BitVec.ofNat 32 (diff s.nxt g.seq).toNat = seqOf b r := by
          rw [add_diff g.seq s.nxt (by omega), hn]
        have hk : (diff s.nxt g.seq).toNat ≤ g.payload.length := by omega
        have hk3 : ((diff s.nxt g.seq).toNat : Int) = diff s.nxt g.seq := by omega
        have hk2 : g.payload.length - (diff s.nxt g.seq).toNat < 2 ^ 31 := by omega
        generalize (diff s.nxt g.seq).toNat = k at hx hk hk2 hk3
        rw [hx]
        obtain ⟨r', pres, fin, h, hpr⟩ := trimRight_out hP c s r r (g.payload.length - k) g.wnd g.fin g.fin g.ack g.zone
          (pull ⟨g.id, g.payload ++ g.pad⟩ k) hn hc hw (Nat.le_refl _) (by omega) (by
            intro j st h1 h2 h3 h4
            exact hin k j r st (by omega) (by omega) (Nat.le_refl _) (by omega) h3 h4)
        refine ⟨r', pres, fin, h, fun h1 h2 h3 h4 h5 => ?_⟩
        have := hpr rfl (by omega) (by omega) h4 (by omega)
        split
        · next hf => rw [if_pos hf] at this; have := h.le; have := (h.last hf).1; omega
        · next hf => rw [if_neg hf] at this; omega
    · next htd =>
      have hx : g.seq = seqOf b (r + (diff g.seq s.nxt).toNat) := by
        rw [← seqOf_add, ← hn, add_diff s.nxt g.seq (by omega)]
      have hlt : (r + (diff g.seq s.nxt).toNat) + g.payload.length < r + 2 ^ 31 := by omega
      generalize hd : (diff g.seq s.nxt).toNat = d at hx hlt
      obtain ⟨r', pres, fin, h, hpr⟩ := trimRight_out hP c s r (r + d) g.payload.length g.wnd g.fin g.fin g.ack g.zone
        ⟨g.id, g.payload ++ g.pad⟩ hn hc hw (by omega) hlt (by
          intro j st h1 h2 h3 h4
          have := hin 0 j (r + d) st (by omega) (by omega) (by omega) (by omega)
            (by simpa using h3) (by simpa using h4)
          simpa using this)
      rw [← hx] at h
      refine ⟨r', pres, fin, h, fun h1 h2 h3 h4 h5 => ?_⟩
      have := hpr (by omega) (by omega) (by omega) h4 h5
      split
      · next hf => rw [if_pos hf] at this; have := h.le; have := (h.last hf).1; omega
      · next hf => rw [if_neg hf] at this; omega

end

/-! ## Arbitrary segments: the queue stays bounded -/

theorem closed_true : Closed (fun _ _ => True) := fun _ _ _ _ _ => trivial

/-- The counter of queued segments is right, no entry lives on a stack frame that is gone, the queue is bounded. -/
def Bounded (c : Cfg) (s : Rcv) : Prop :=
  s.segqlen = s.segq.length ∧ (∀ e ∈ s.segq, e.stack = false) ∧ s.segq.length ≤ c.maxq + 1

theorem present_bounded (c : Cfg) (s : Rcv) (h : Bounded c s) : Bounded c (present s).1 := by
  unfold present
  split
  · exact h
  · simp only
    obtain ⟨f1, _, _, f4, _, _⟩ := fold_segq (presentLoop s.nxt false s.segq).2.2.1
      { s with nxt := (presentLoop s.nxt false s.segq).1, segq := (presentLoop s.nxt false s.segq).2.2.2,
               segqlen := s.segqlen - (presentLoop s.nxt false s.segq).2.2.1.length }
    have hs := presentLoop_split s.nxt false s.segq
    have hl := congrArg List.length hs
    rw [List.length_append] at hl
    obtain ⟨h1, h2, h3⟩ := h
    refine ⟨?_, ?_, ?_⟩
    · rw [f4, f1]; simp only; omega
    · rw [f1]; intro e he
      exact h2 e (by rw [hs]; exact List.mem_append_right _ he)
    · rw [f1]; simp only; omega

theorem reass_bounded (c : Cfg) (s : Rcv) (b : BitVec 32) (r x tlen : Nat) (fin zone : Bool) (m : Pkt)
    (h : Bounded c s) (hn : s.nxt = seqOf b r) (hc : Ch b (fun _ _ => True) r s.segq (r + W)) (hx : r ≤ x)
    (hx2 : x + tlen ≤ r + W) : Bounded c (reass c s (seqOf b x) tlen fin m zone).1 := by
  rcases reass_shape closed_true c s r x tlen fin zone m hn hc hx hx2 trivial with ⟨he, _⟩ | ⟨t, he, t1, t2, t3, _, _, _, t7, t8, _, t9⟩
  · rw [he]; exact h
  · rw [he]
    obtain ⟨h1, h2, h3⟩ := h
    rcases t9 with hsame | ⟨hz, hl, pre, te, post, m', e1, e2, e3, e4, e5, e6⟩
    · refine present_bounded c t ⟨?_, ?_, ?_⟩
      · omega
      · rw [hsame]; exact h2
      · rw [hsame]; exact h3
    · by_cases hmiss : x = r ∧ s.phase.est = true
      · -- the missing segment: it is presented at once
        unfold present
        rw [if_neg (by rw [t3, hmiss.2]; simp)]
        simp only
        obtain ⟨f1, _, _, f4, _, _⟩ := fold_segq (presentLoop t.nxt false t.segq).2.2.1
          { t with nxt := (presentLoop t.nxt false t.segq).1, segq := (presentLoop t.nxt false t.segq).2.2.2,
                   segqlen := t.segqlen - (presentLoop t.nxt false t.segq).2.2.1.length }
        have hs := presentLoop_split t.nxt false t.segq
        have hlen := congrArg List.length hs
        rw [List.length_append] at hlen
        have hpost : ∃ pr, post = pr ++ (presentLoop t.nxt false t.segq).2.2.2 := by
          have hcat : t.segq = (pre ++ [te]) ++ post := by rw [e1]; simp
          have := (presentLoop_contig (b := b) (P := fun _ _ => True) (pre ++ [te]) post false r m' (e6 hmiss.1)).1
          rw [hcat, t2, hn, this]
          exact ⟨_, presentLoop_split _ _ _⟩
        obtain ⟨pr, hpr⟩ := hpost
        have hpl := congrArg List.length hpr
        rw [List.length_append] at hpl
        refine ⟨?_, ?_, ?_⟩
        · rw [f4, f1]; simp only; omega
        · rw [f1]; intro e he
          exact e5 h2 e (by rw [hpr]; exact List.mem_append_right _ he)
        · rw [f1]; simp only; omega
      · have hz : zone = true := hz.resolve_right hmiss
        have hl := hl.resolve_left hmiss
        refine present_bounded c t ⟨?_, ?_, ?_⟩
        · omega
        · rw [e1]; intro e he
          rcases List.mem_append.1 he with he | he
          · exact h2 e (e3 e he)
          · rcases List.mem_cons.1 he with rfl | he
            · rw [e2, hz]; rfl
            · exact e5 h2 e he
        · omega

theorem dodata_bounded (c : Cfg) (s : Rcv) (b : BitVec 32) (r : Nat) (seq : BitVec 32) (tlen : Nat) (thfin hfin zone : Bool)
    (m : Pkt) (h : Bounded c s) (hn : s.nxt = seqOf b r) (hc : Ch b (fun _ _ => True) r s.segq (r + W))
    (hx : tlen ≠ 0 ∨ thfin = true → ∃ x, seq = seqOf b x ∧ r ≤ x ∧ x + tlen ≤ r + W) :
    Bounded c (dodata c s seq tlen thfin hfin m zone) := by
  unfold dodata
  split
  · exact h
  split
  · next hne =>
    obtain ⟨x, rfl, hx1, hx2⟩ := hx hne
    split
    · split
      · simp only
        have a := append_segq { s with nxt := s.nxt + BitVec.ofNat 32 tlen } m
        have hb : Bounded c ({ s with nxt := s.nxt + BitVec.ofNat 32 tlen }.append m) := by
          unfold Bounded; rw [a.1, a.2.2.2.1]; exact h
        split
        · exact hb
        · exact hb
      · simp only
        have hb := reass_bounded c s b r x tlen hfin zone m h hn hc hx1 hx2
        split
        · exact hb
        · exact hb
    · exact h
  · exact h

theorem afterTrim_bounded (c : Cfg) (s : Rcv) (b : BitVec 32) (r : Nat) (seq : BitVec 32) (tlen : Nat)
    (thfin hfin ack zone : Bool)
    (m : Pkt) (h : Bounded c s) (hn : s.nxt = seqOf b r) (hc : Ch b (fun _ _ => True) r s.segq (r + W))
    (hx : tlen ≠ 0 ∨ thfin = true → ∃ x, seq = seqOf b x ∧ r ≤ x ∧ x + tlen ≤ r + W) :
    Bounded c (afterTrim c s seq tlen thfin hfin m ack zone) := by
  unfold afterTrim
  split
  · simp only
    split
    · exact present_bounded c { s with phase := .open } h
    · exact dodata_bounded c { s with phase := .open } b r seq tlen thfin hfin zone m h hn hc hx
  · exact dodata_bounded c s b r seq tlen thfin hfin zone m h hn hc hx

theorem trimRight_bounded (c : Cfg) (s : Rcv) (b : BitVec 32) (r x tlen wnd : Nat) (thfin hfin ack zone : Bool)
    (m : Pkt) (h : Bounded c s) (hn : s.nxt = seqOf b r) (hc : Ch b (fun _ _ => True) r s.segq (r + W)) (hw : wnd ≤ W)
    (hrx : r ≤ x) (hx2 : x + tlen < r + 2 ^ 31) :
    Bounded c (trimRight c s (seqOf b x) tlen thfin hfin m wnd ack zone) := by
  have hW : W = 2 ^ 30 := rfl
  unfold trimRight
  have ho : diff (seqOf b x + BitVec.ofNat 32 tlen) (s.nxt + BitVec.ofNat 32 wnd) = (x + tlen : Int) - (r + wnd) := by
    rw [hn, seqOf_add, seqOf_add, diff_eq b (x + tlen) (r + wnd) (by omega) (by omega)]
    omega
  simp only [ho]
  split
  · split
    · exact h
    · exact afterTrim_bounded c s b r _ _ _ _ _ _ _ h hn hc (fun hne => ⟨x, rfl, hrx, by
        simp only [Bool.false_eq_true, or_false] at hne; omega⟩)
  · exact afterTrim_bounded c s b r _ _ _ _ _ _ _ h hn hc (fun _ => ⟨x, rfl, hrx, by omega⟩)

theorem segment_bounded (c : Cfg) (s : Rcv) (b : BitVec 32) (r : Nat) (g : Seg) (h : Bounded c s)
    (hn : s.nxt = seqOf b r) (hc : Ch b (fun _ _ => True) r s.segq (r + W)) (hw : g.wnd ≤ W)
    (hD : diff g.seq s.nxt + g.payload.length < 2 ^ 31) (hD2 : -2 ^ 31 < diff g.seq s.nxt) :
    Bounded c (segment c s g) := by
  have hsw := diff_swap g.seq s.nxt (by omega)
  unfold segment
  simp only
  split
  · have a := append_segq { s with nxt := s.nxt + BitVec.ofNat 32 g.payload.length } ⟨g.id, g.payload ++ g.pad⟩
    unfold Bounded; rw [a.1, a.2.2.2.1]; exact h
  · unfold trimLeft
    simp only
    split
    · split
      · unfold trimRight
        simp only
        have e : ∀ n : Nat, ¬ (0 - n ≠ 0 ∨ false = true) := by intro n hh; simp at hh
        split
        · split
          · exact h
          · exact afterTrim_bounded c s b r _ _ _ _ _ _ _ h hn hc (fun hne => absurd hne (e _))
        · exact afterTrim_bounded c s b r _ _ _ _ _ _ _ h hn hc (fun hne => absurd hne (e 0))
      · next hpart =>
        have hx : g.seq + BitVec.ofNat 32 (diff s.nxt g.seq).toNat = seqOf b r := by
          rw [add_diff g.seq s.nxt (by omega), hn]
        rw [hx]
        exact trimRight_bounded c s b r r _ _ _ _ _ _ _ h hn hc hw (Nat.le_refl _) (by omega)
    · next htd =>
      have hx : g.seq = seqOf b (r + (diff g.seq s.nxt).toNat) := by
        rw [← seqOf_add, ← hn, add_diff s.nxt g.seq (by omega)]
      rw [hx]
      exact trimRight_bounded c s b r _ _ _ _ _ _ _ _ h hn hc hw (by omega) (by omega)

/-- **C31, bound.** Whatever segments arrive (lying, overlapping, hostile) the reassembly queue never holds more than
`sb_hiwat / t_maxseg + 1` entries, its length counter is exact, and no entry refers to a finished call. -/
theorem queue_bounded (c : Cfg) (s : Rcv) (h : AnyHist c s) : Bounded c s := by
  have : Bounded c s ∧ ∃ b r, s.nxt = seqOf b r ∧ Ch b (fun _ _ => True) r s.segq (r + W) := by
    induction h with
    | init ph n =>
      refine ⟨⟨rfl, ⟨(fun e he => nomatch he), Nat.zero_le _⟩⟩, n, 0, ?_, Nat.zero_le _⟩
      simp [Rcv.init, seqOf]
    | seg s g _ hD hD2 hw ih =>
      obtain ⟨hb, b, r, hn, hc⟩ := ih
      refine ⟨segment_bounded c s b r g hb hn hc hw hD hD2, b, ?_⟩
      obtain ⟨r', pres, fin, ho, _⟩ := segment_out closed_true c s r g hn hc hw hD hD2 (fun _ _ _ _ _ _ _ _ _ _ => trivial)
      exact ⟨r', ho.nxt, ho.ch⟩
    | read s n _ ih =>
      obtain ⟨hb, b, r, hn, hc⟩ := ih
      exact ⟨hb, b, r, hn, hc⟩
  exact this.1

/-! ## Pieces of one stream: the application gets the stream -/

theorem slice_length (str : Nat → UInt8) (a n : Nat) : (slice str a n).length = n := by simp [slice]

theorem slice_zero (str : Nat → UInt8) (a : Nat) : slice str a 0 = [] := rfl

theorem slice_append (str : Nat → UInt8) (a n m : Nat) : slice str a n ++ slice str (a + n) m = slice str a (n + m) := by
  unfold slice
  rw [List.range_add, List.map_append, List.map_map]
  congr 1
  apply List.map_congr_left
  intro i _
  simp only [Function.comp]
  rw [Nat.add_assoc]

theorem slice_drop (str : Nat → UInt8) (a n i : Nat) (h : i ≤ n) : (slice str a n).drop i = slice str (a + i) (n - i) := by
  have := slice_append str a i (n - i)
  rw [show i + (n - i) = n by omega] at this
  rw [← this, List.drop_left' (slice_length str a i)]

theorem slice_take (str : Nat → UInt8) (a n i : Nat) (h : i ≤ n) : (slice str a n).take i = slice str a i := by
  have := slice_append str a i (n - i)
  rw [show i + (n - i) = n by omega] at this
  rw [← this, List.take_left' (slice_length str a i)]

/-- A queue entry holds the right piece of the stream. -/
def Right (str : Nat → UInt8) (L : Nat) (a : Nat) (e : QEnt) : Prop :=
  e.pkt.data = slice str a e.len ∧ a + e.len ≤ L ∧ (e.fin = true → a + e.len = L) ∧ (e.len = 0 → e.fin = true)

theorem right_closed (str : Nat → UInt8) (L : Nat) : Closed (Right str L) := by
  intro a e i h hi
  obtain ⟨h1, h2, h3, h4⟩ := h
  refine ⟨?_, by simp only; omega, fun hf => by have := h3 hf; simp only; omega, fun hz => by simp only at hz; omega⟩
  simp only [pull]
  rw [h1, slice_drop str a e.len i (by omega)]

theorem contig_bytes {b : BitVec 32} (str : Nat → UInt8) (L : Nat) : ∀ (l : List QEnt) (r r' : Nat),
    Contig b (Right str L) r l r' → r ≤ r' ∧ (l ≠ [] → r' ≤ L) ∧
      (l.map fun q => q.pkt.data).flatten = slice str r (r' - r) := by
  intro l
  induction l with
  | nil =>
    intro r r' h
    unfold Contig at h
    subst h
    exact ⟨Nat.le_refl _, fun h => absurd rfl h, by simp [slice]⟩
  | cons e es ih =>
    intro r r' h
    unfold Contig at h
    obtain ⟨h1, h2, h3⟩ := h
    obtain ⟨i1, i2, i3⟩ := ih _ _ h3
    have hP := h2
    unfold Right at h2
    refine ⟨by omega, fun _ => ?_, ?_⟩
    · by_cases hes : es = []
      · subst hes; unfold Contig at h3; omega
      · exact i2 hes
    · rw [List.map_cons, List.flatten_cons, i3, h2.1, slice_append]
      congr 1; omega

theorem contig_last {b : BitVec 32} (str : Nat → UInt8) (L : Nat) : ∀ (p : List QEnt) (e : QEnt) (r r' : Nat),
    Contig b (Right str L) r (p ++ [e]) r' → e.fin = true → r' = L := by
  intro p
  induction p with
  | nil =>
    intro e r r' h hf
    simp only [List.nil_append, Contig] at h
    have := h.2.1.2.2.1 hf
    omega
  | cons x xs ih =>
    intro e r r' h hf
    rw [List.cons_append] at h
    unfold Contig at h
    exact ih e _ _ h.2.2 hf

theorem fold_buf (l : List QEnt) : ∀ (s : Rcv), s.cantrcv = false → s.buf.length + l.length ≤ 63 →
    (l.foldl (fun s q => s.append q.pkt) s).buf = s.buf ++ l.map fun q => q.pkt := by
  induction l with
  | nil => intro s _ _; simp
  | cons q l ih =>
    intro s hc hl
    simp only [List.length_cons] at hl
    rw [List.foldl_cons, ih _ (by rw [(append_segq s q.pkt).2.2.2.2.1, hc])]
    · unfold Rcv.append
      rw [hc]
      simp only [Bool.false_eq_true, if_false]
      rw [if_pos (by omega)]
      simp
    · unfold Rcv.append
      rw [hc]
      simp only [Bool.false_eq_true, if_false]
      rw [if_pos (by omega)]
      simp only [List.length_append, List.length_cons, List.length_nil]
      omega

/-- The receiver of the stream. -/
structure Good (base : BitVec 32) (str : Nat → UInt8) (L : Nat) (s : Rcv) (r : Nat) : Prop where
  bytes : delivered s = slice str 0 r
  le : r ≤ L
  nxt : s.nxt = seqOf base (r + if s.phase = .finRcvd then 1 else 0)
  ch : Ch base (Right str L) (r + if s.phase = .finRcvd then 1 else 0) s.segq
    ((r + if s.phase = .finRcvd then 1 else 0) + W)
  cant : s.cantrcv = true ↔ s.phase = .finRcvd
  eof : s.phase = .finRcvd → r = L

theorem Good.len {base : BitVec 32} {str : Nat → UInt8} {L : Nat} {s : Rcv} {r : Nat} (h : Good base str L s r) :
    (delivered s).length = r := by rw [h.bytes, slice_length]

theorem segment_good (c : Cfg) (base : BitVec 32) (str : Nat → UInt8) (L : Nat) (s : Rcv) (r : Nat) (g : Seg)
    (h : Good base str L s r) (hp : PieceOf base str L (delivered s).length g) (hb : Benign s g) :
    ∃ r', Good base str L (segment c s g) r' ∧
      (∀ x0, g.seq = seqOf base x0 → (r : Int) + 1 - x0 < 2 ^ 31 → x0 ≤ r → r < x0 + g.payload.length →
        x0 + g.payload.length ≤ r + g.wnd → s.phase = .open →
        g.payload.length ≤ s.space c → x0 + g.payload.length ≤ r') := by
  rw [h.len] at hp
  obtain ⟨x0, p1, p2, p3, p4, p5, p6, p7⟩ := hp
  obtain ⟨b1, b2, b3⟩ := hb
  have hW : W = 2 ^ 30 := rfl
  obtain ⟨q, hq⟩ : ∃ q, q = r + (if s.phase = .finRcvd then 1 else 0) := ⟨_, rfl⟩
  have hqr : r ≤ q ∧ q ≤ r + 1 ∧ (s.phase ≠ .finRcvd → q = r) ∧ (s.phase = .finRcvd → q = L + 1) := by
    have := h.eof
    by_cases hf : s.phase = .finRcvd
    · rw [if_pos hf] at hq; have := this hf; exact ⟨by omega, by omega, fun hh => absurd hf hh, fun _ => by omega⟩
    · rw [if_neg hf] at hq; exact ⟨by omega, by omega, fun _ => by omega, fun hh => absurd hh hf⟩
  have hn := h.nxt
  have hc := h.ch
  rw [← hq] at hn hc
  have hD : diff g.seq s.nxt = (x0 : Int) - q := by
    rw [p1, hn]; exact diff_eq base x0 q (by omega) (by omega)
  obtain ⟨r', pres, fin, ho, hprog⟩ := segment_out (right_closed str L) c s q g hn hc b2
    (by rw [hD]; omega) (by rw [hD]; omega) (by
      intro k j x st h1 h2 h3 h4 h5 h6
      rw [hD] at h2
      have hx : x = x0 + k := by omega
      rw [b1, List.append_nil]
      refine ⟨?_, by simp only; omega, ?_, ?_⟩
      · simp only
        rw [List.length_drop]
        have e : g.payload.drop k = slice str (x0 + k) (g.payload.length - k) := by
          have := congrArg (List.drop k) p2
          rw [this, slice_drop str x0 _ k (by omega)]
        rw [e, slice_take str _ _ _ (by omega), hx]
      · intro hf
        simp only at hf ⊢
        have := p4 hf
        have := p7 hf
        by_cases hj : j = 0
        · omega
        · have := h5 hj; omega
      · intro hz
        simp only at hz ⊢
        rcases h6 with h6 | h6
        · exact absurd hz h6
        · exact h6.1)
  have hph := ho.phase
  by_cases hf : s.phase = .finRcvd
  · -- the stream is complete: nothing is presented any more
    have hqL := hqr.2.2.2 hf
    have hpres : pres = [] := by
      cases pres with
      | nil => rfl
      | cons e es =>
        have := ho.contig
        unfold Contig at this
        have := this.2.1.2.1
        omega
    have hfin : fin = false := by
      cases fin with
      | false => rfl
      | true =>
        obtain ⟨p, e, he, _⟩ := (ho.last rfl).2
        rw [hpres] at he
        cases p <;> cases he
    subst hpres hfin
    simp only [Bool.false_eq_true, if_false] at hph
    have hph' : (segment c s g).phase = .finRcvd := by
      rcases hph with h1 | h1
      · exact h1.trans hf
      · rw [hf] at h1; cases h1.1
    have hct := ho.contig
    simp only [Bool.false_eq_true, if_false, Contig] at hct
    subst hct
    refine ⟨r, ⟨?_, h.le, ?_, ?_, ?_, fun _ => h.eof hf⟩, fun _ _ _ _ _ _ ho => by rw [hf] at ho; cases ho⟩
    · unfold delivered; rw [ho.read, ho.buf]; exact h.bytes
    · rw [ho.nxt, hq, hph', hf]
    · rw [if_pos hf] at hq
      rw [if_pos hph', ← hq]; exact ho.ch
    · rw [ho.cant, hph']; simp [h.cant.2 hf]
  · have hqr' := hqr.2.2.1 hf
    rw [hqr'] at ho
    have hcf : s.cantrcv = false := by
      cases hh : s.cantrcv with
      | false => rfl
      | true => exact absurd (h.cant.1 hh) hf
    have hbuf := ho.buf
    rw [fold_buf pres s hcf (by have := ho.len; omega)] at hbuf
    obtain ⟨c1, c2, c3⟩ := contig_bytes str L pres r _ ho.contig
    have hdel : ∀ r1, r1 = (if fin = true then r' - 1 else r') → delivered (segment c s g) = slice str 0 r1 := by
      intro r1 hr1
      unfold delivered
      rw [ho.read, hbuf, List.map_append, List.flatten_append, ← List.append_assoc, List.map_map]
      have e1 : s.readBytes ++ (s.buf.map Pkt.data).flatten = slice str 0 r := h.bytes
      have e2 : (pres.map (Pkt.data ∘ fun q => q.pkt)).flatten = slice str r (r1 - r) := by rw [hr1]; exact c3
      rw [e1, e2]
      have := slice_append str 0 r (r1 - r)
      rw [Nat.zero_add] at this
      rw [this]; congr 1; omega
    have hle : ∀ r1, r1 = (if fin = true then r' - 1 else r') → r1 ≤ L := by
      intro r1 hr1
      by_cases hpn : pres = []
      · have := ho.contig
        rw [hpn] at this
        unfold Contig at this
        have := h.le
        omega
      · have := c2 hpn
        omega
    have hpg : ∀ x1, g.seq = seqOf base x1 → (r : Int) + 1 - x1 < 2 ^ 31 → x1 ≤ r → r < x1 + g.payload.length →
        x1 + g.payload.length ≤ r + g.wnd → s.phase = .open →
        g.payload.length ≤ s.space c → x1 + g.payload.length ≤ if fin then r' - 1 else r' := by
      intro x1 e1 e2 e3 e4 e5 e6 e7
      have hx : x1 = x0 := seqOf_inj base x1 x0 (by omega) (by omega) (e1.symm.trans p1)
      subst hx
      rw [hD, hqr'] at hprog
      have := hprog (by omega) (by omega) (by omega) e6 e7
      split
      · next hf =>
        rw [if_pos hf] at this
        have := (ho.last hf).1
        omega
      · next hf => rw [if_neg hf] at this; omega
    cases fin with
    | false =>
      simp only [Bool.false_eq_true, if_false] at hph hdel hle hpg
      have hph' : (segment c s g).phase ≠ .finRcvd := by
        rcases hph with h1 | h1
        · rw [h1]; exact hf
        · rw [h1.2]; intro hh; cases hh
      refine ⟨r', ⟨hdel r' rfl, hle r' rfl, ?_, ?_, ?_, fun hh => absurd hh hph'⟩, hpg⟩
      · rw [ho.nxt, if_neg hph']; rfl
      · rw [if_neg hph']; exact ho.ch
      · rw [ho.cant, hcf]; simp [hph']
    | true =>
      simp only [if_true] at hph hdel hle hpg
      have hl := ho.last rfl
      obtain ⟨p, e, he, hef⟩ := hl.2
      have hct := ho.contig
      rw [he] at hct
      have hL := contig_last str L p e r _ hct hef
      simp only [if_true] at hL
      refine ⟨r' - 1, ⟨hdel _ rfl, hle _ rfl, ?_, ?_, ?_, fun _ => hL⟩, hpg⟩
      · rw [ho.nxt, if_pos hph]; congr 1; omega
      · rw [if_pos hph]
        have e : r' - 1 + 1 = r' := by omega
        rw [e]; exact ho.ch
      · rw [ho.cant]; simp [hph]

theorem readBuf_bytes : ∀ (b : List Pkt) (n : Nat),
    (readBuf n b).1 ++ ((readBuf n b).2.1.map Pkt.data).flatten = (b.map Pkt.data).flatten := by
  intro b
  induction b with
  | nil => intro n; cases n <;> rfl
  | cons p ps ih =>
    intro n
    cases n with
    | zero => rfl
    | succ n =>
      rw [readBuf]
      split
      · simp only [List.map_cons, List.flatten_cons, pull]
        rw [← List.append_assoc, List.take_append_drop]
      · simp only [List.map_cons, List.flatten_cons]
        rw [List.append_assoc, ih]

theorem hist_good (c : Cfg) (base : BitVec 32) (str : Nat → UInt8) (L : Nat) (s : Rcv) (h : Hist c base str L s) :
    ∃ r, Good base str L s r := by
  induction h with
  | init ph hph =>
    refine ⟨0, rfl, Nat.zero_le _, ?_, ?_, ?_, fun hh => absurd hh hph⟩
    · simp [Rcv.init, hph]
    · simp only [Rcv.init, Ch]; omega
    · simp [Rcv.init, hph]
  | seg s g _ hp hb ih =>
    obtain ⟨r, hg⟩ := ih
    obtain ⟨r', h, _⟩ := segment_good c base str L s r g hg hp hb
    exact ⟨r', h⟩
  | read s n _ ih =>
    obtain ⟨r, hg⟩ := ih
    refine ⟨r, ?_, hg.le, hg.nxt, hg.ch, hg.cant, hg.eof⟩
    rw [← hg.bytes]
    unfold delivered appRead
    simp only
    rw [List.append_assoc, readBuf_bytes]

/-- **C30 (partial: no padding, room in the socket buffer, FIN inside the window).** Whatever pieces of the sender's
stream arrive in whatever order, what the application has read and can read is exactly the stream up to `rcv_nxt`, each
byte once and in order; `rcv_nxt` (what is acknowledged) counts exactly the bytes handed over, plus one for the FIN;
and the end of the stream is reported exactly when the FIN and all bytes before it have arrived. -/
theorem stream_exact_partial (c : Cfg) (base : BitVec 32) (str : Nat → UInt8) (L : Nat) (s : Rcv)
    (h : Hist c base str L s) :
    delivered s = slice str 0 (delivered s).length ∧ (delivered s).length ≤ L ∧
    s.nxt = seqOf base ((delivered s).length + if s.cantrcv then 1 else 0) ∧
    (s.cantrcv = true → (delivered s).length = L) := by
  obtain ⟨r, hg⟩ := hist_good c base str L s h
  rw [hg.len]
  refine ⟨hg.bytes, hg.le, ?_, fun hc => hg.eof (hg.cant.1 hc)⟩
  rw [hg.nxt]
  congr 2
  by_cases hf : s.phase = .finRcvd
  · rw [if_pos hf, if_pos (hg.cant.2 hf)]
  · rw [if_neg hf, if_neg (fun hh => hf (hg.cant.1 hh))]

/-- **C30, progress.** A segment that contains the next expected byte, lies inside the window and for which the socket
buffer has room is delivered to its end (at least: data queued behind it follow) - no such segment is ever ignored, so
a sender that retransmits the first unacknowledged byte always gets on. -/
theorem stream_progress (c : Cfg) (base : BitVec 32) (str : Nat → UInt8) (L : Nat) (s : Rcv)
    (h : Hist c base str L s) (g : Seg) (hp : PieceOf base str L (delivered s).length g) (hb : Benign s g)
    (x : Nat) (hx : g.seq = seqOf base x) (hd : ((delivered s).length : Int) + 1 - x < 2 ^ 31)
    (h1 : x ≤ (delivered s).length) (h2 : (delivered s).length < x + g.payload.length)
    (h3 : x + g.payload.length ≤ (delivered s).length + g.wnd) (ho : s.phase = .open)
    (hs : g.payload.length ≤ c.bufSize * (63 - s.buf.length)) :
    x + g.payload.length ≤ (delivered (segment c s g)).length := by
  obtain ⟨r, hg⟩ := hist_good c base str L s h
  obtain ⟨r', hg', hpr⟩ := segment_good c base str L s r g hg hp hb
  rw [hg.len] at hd h1 h2 h3
  rw [hg'.len]
  exact hpr x hx hd h1 h2 h3 ho hs

end Verif.Tcp

import Verif.Sack.RecvInv
/-! # C32: the SACK report -/
namespace Verif.Sack
open Verif.Tcp
open Verif.Sockbuf (Pkt)

section
variable {b : BitVec 32}

structure SInv (b : BitVec 32) (perm : Bool) (s : Rcv) (B : List Blk) (r : Nat) (L : List NBlk) : Prop where
  nxt : s.nxt = seqOf b r
  ch : Ch b Any r s.segq (r + W)
  blks : B = L.map (toB b)
  off : perm = false → L = []
  len : L.length ≤ 6
  ne : ∀ p ∈ L, p.1 < p.2
  sep : L.Pairwise SepN
  live : s.phase ≠ .finRcvd →
    (∀ p ∈ L, p.2 ≤ r + W ∧ ∀ y, p.1 ≤ y → y < p.2 → Cov b r s.segq y) ∧
    ((∀ p ∈ L, r < p.1) ∨ (s.phase = .open ∧ Clear b r s.segq (r + W) ∧ ∀ p ∈ L, r < p.1 + W))
  near : ∃ lo : Int, ∀ p ∈ L, NearB lo p

theorem SInv.of_eq {perm : Bool} {s t : Rcv} {B : List Blk} {r : Nat} {L : List NBlk} (h : SInv b perm s B r L)
    (h1 : t.nxt = s.nxt) (h2 : t.segq = s.segq) (h3 : t.phase = s.phase) : SInv b perm t B r L :=
  ⟨h1.trans h.nxt, h2 ▸ h.ch, h.blks, h.off, h.len, h.ne, h.sep, by rw [h2, h3]; exact h.live, h.near⟩

/-- One call of `ofp_tcp_update_sack_list`. -/
theorem report_step {perm : Bool} {s : Rcv} {B : List Blk} {r : Nat} {L : List NBlk} (h : SInv b perm s B r L)
    (hph : s.phase ≠ .finRcvd) (t : Rcv) (r' x T : Nat) (hrr : r ≤ r') (hr' : r' ≤ r + W) (hx : r ≤ x)
    (hxT : x + T ≤ r + W) (hT : T > 0)
    (hn : t.nxt = seqOf b r') (hch : Ch b Any r' t.segq (r' + W))
    (hcov : ∀ y, y < r + W → Cov b r s.segq y ∨ (x ≤ y ∧ y < x + T) → Cov b r' t.segq y) :
    ∃ L', SInv b perm t (report perm t.nxt B (seqOf b x) T) r' L' := by
  have hW : W = 2 ^ 30 := rfl
  unfold report
  cases hp : perm with
  | false =>
    rw [if_neg (by simp)]
    have hL := h.off hp
    subst hL
    exact ⟨[], hn, hch, h.blks, fun _ => rfl, h.len, h.ne, h.sep,
      fun _ => ⟨(fun p hp => by cases hp), Or.inl (fun p hp => by cases hp)⟩, h.near⟩
  | true =>
    rw [if_pos ⟨hT, rfl⟩]
    obtain ⟨l1, l2⟩ := h.live hph
    have hlow : ∀ p ∈ L, r < p.1 + W := by
      rcases l2 with h | h
      · intro p hp; have := h p hp; omega
      · exact h.2.2
    have hU := update_ok r' L (x, x + T) h.len h.ne h.sep (by simp only; omega)
    have href := update_ref (b := b) (lo := (r : Int) - W + 1) r' (by unfold Near; omega) L (x, x + T)
      (by
        intro p hp
        have g1 := hlow p hp
        have g2 := (l1 p hp).1
        have g3 := h.ne p hp
        unfold NearB Near
        omega)
      (by unfold NearB Near; simp only; omega)
    have hsub : ∀ p ∈ updateN r' L (x, x + T), ∀ y, p.1 ≤ y → y < p.2 →
        y < r + W ∧ Cov b r' t.segq y := by
      intro p hp y h1 h2
      rcases hU.sub p hp y h1 h2 with g | ⟨q, hq, _, g1, g2⟩
      · simp only at g
        exact ⟨by omega, hcov y (by omega) (Or.inr g)⟩
      · have := l1 q hq
        exact ⟨by omega, hcov y (by omega) (Or.inl (this.2 y g1 g2))⟩
    refine ⟨updateN r' L (x, x + T), hn, hch, ?_, (fun h => by cases h), hU.len, hU.ne, hU.sep, fun _ => ⟨?_, Or.inl hU.above⟩, ?_⟩
    · rw [hn, seqOf_add, h.blks]; exact href
    · intro p hp
      refine ⟨?_, fun y h1 h2 => (hsub p hp y h1 h2).2⟩
      have hne := hU.ne p hp
      have := (hsub p hp (p.2 - 1) (by omega) (by omega)).1
      omega
    · refine ⟨r', fun p hp => ?_⟩
      have hne := hU.ne p hp
      have h1 := (hsub p hp (p.2 - 1) (by omega) (by omega)).1
      have h2 := hU.above p hp
      unfold NearB Near
      omega

theorem SInv.fin {perm : Bool} {s : Rcv} {B : List Blk} {r : Nat} {L : List NBlk} (h : SInv b perm s B r L)
    (hc : Clear b r s.segq (r + W)) : SInv b perm (finStep s) B (r + 1) L := by
  refine ⟨?_, ?_, h.blks, h.off, h.len, h.ne, h.sep, fun hh => absurd rfl hh, h.near⟩
  · show s.nxt + 1 = _
    rw [h.nxt]; exact seqOf_add b r 1
  · show Ch b Any (r + 1) s.segq _
    rcases hc with hc | hc
    · rw [hc]; unfold Ch; omega
    · exact hc.mono_hi (by omega)

/-- The list unchanged while `rcv_nxt` moves: only `finRcvd` states do not care. -/
theorem SInv.stay {perm : Bool} {s t : Rcv} {B : List Blk} {r r' : Nat} {L : List NBlk} (h : SInv b perm s B r L)
    (hn : t.nxt = seqOf b r') (hch : Ch b Any r' t.segq (r' + W))
    (hl : t.phase ≠ .finRcvd →
      (∀ p ∈ L, p.2 ≤ r' + W ∧ ∀ y, p.1 ≤ y → y < p.2 → Cov b r' t.segq y) ∧
      ((∀ p ∈ L, r' < p.1) ∨ (t.phase = .open ∧ Clear b r' t.segq (r' + W) ∧ ∀ p ∈ L, r' < p.1 + W))) :
    SInv b perm t B r' L :=
  ⟨hn, hch, h.blks, h.off, h.len, h.ne, h.sep, hl, h.near⟩

theorem dodata_sack (c : Cfg) (perm : Bool) (s : Rcv) (B : List Blk) (r : Nat) (L : List NBlk) (seq : BitVec 32) (tlen : Nat)
    (thfin hfin zone : Bool) (m : Pkt) (h : SInv b perm s B r L) (hf : thfin = true → hfin = true)
    (hx : tlen ≠ 0 ∨ thfin = true → ∃ x, seq = seqOf b x ∧ r ≤ x ∧ x + tlen ≤ r + W) :
    ∃ r' L', SInv b perm (dodata c s seq tlen thfin hfin m zone) (dodataS c perm s B seq tlen thfin hfin m zone) r' L' := by
  have hW : W = 2 ^ 30 := rfl
  have idle : ∃ r' L', SInv b perm (s.free m) B r' L' := ⟨r, L, h.of_eq rfl rfl rfl⟩
  unfold dodata dodataS
  split
  · exact idle
  next hnf =>
  split
  · next hne =>
    obtain ⟨x, rfl, hx1, hx2⟩ := hx hne
    split
    · split
      · next hfast =>
        have hxr : x = r := seqOf_inj b x r (by omega) (by omega) (hfast.1.trans h.nxt)
        subst hxr
        simp only
        have a := append_segq { s with nxt := s.nxt + BitVec.ofNat 32 tlen } m
        have an : ({ s with nxt := s.nxt + BitVec.ofNat 32 tlen }.append m).nxt = seqOf b (x + tlen) := by
          rw [a.2.1]; simp only; rw [h.nxt, seqOf_add]
        have aq : ({ s with nxt := s.nxt + BitVec.ofNat 32 tlen }.append m).segq = [] := by
          rw [a.1]; exact hfast.2.1
        have ach : Ch b Any (x + tlen) ({ s with nxt := s.nxt + BitVec.ofNat 32 tlen }.append m).segq (x + tlen + W) := by
          rw [aq]; unfold Ch; omega
        by_cases ht : tlen = 0
        · subst ht
          have hh := hf (hne.resolve_left fun h => h rfl)
          rw [if_pos hh]
          unfold report
          rw [if_neg (by omega)]
          refine ⟨x + 0 + 1, L, h.stay ?_ ?_ fun hh => absurd rfl hh⟩
          · show _ + 1 = _
            rw [an]; exact seqOf_add b _ 1
          · show Ch b Any _ ({ s with nxt := s.nxt + BitVec.ofNat 32 0 }.append m).segq _
            rw [aq]; unfold Ch; omega
        · obtain ⟨L', hL'⟩ := report_step h (fun hp => hnf ⟨ht, hp⟩)
            ({ s with nxt := s.nxt + BitVec.ofNat 32 tlen }.append m) (x + tlen) x tlen (by omega) (by omega) (by omega)
            (by omega) (by omega) an ach (by
              rintro y hy (h1 | h1)
              · rcases h1 with h1 | h1
                · left; omega
                · rw [hfast.2.1] at h1; exact absurd h1 inq_nil
              · left; omega)
          rw [a.2.1] at hL'
          split
          · exact ⟨_, L', hL'.fin (Or.inl aq)⟩
          · exact ⟨_, L', hL'⟩
      · simp only
        obtain ⟨r', p1, p2, p3, p4, p5, p6, p7, p8, p9, p10, p11⟩ :=
          reass_cov (b := b) c s r x tlen hfin zone m h.nxt h.ch hx1 hx2
        have key : ∃ L', SInv b perm (reass c s (seqOf b x) tlen hfin m zone).1
            (report perm (reass c s (seqOf b x) tlen hfin m zone).1.nxt B (seqOf b x) (reassT c s (seqOf b x) tlen zone)) r' L' ∨
            ((reass c s (seqOf b x) tlen hfin m zone).2 = true ∧
              SInv b perm (finStep (reass c s (seqOf b x) tlen hfin m zone).1) 
            (report perm (reass c s (seqOf b x) tlen hfin m zone).1.nxt B (seqOf b x) (reassT c s (seqOf b x) tlen zone)) (r' + 1) L') := by
          by_cases hT : reassT c s (seqOf b x) tlen zone = 0
          · have hrep : report perm (reass c s (seqOf b x) tlen hfin m zone).1.nxt B (seqOf b x)
                (reassT c s (seqOf b x) tlen zone) = B := by
              unfold report; rw [if_neg (by omega)]
            rw [hrep]
            refine ⟨L, ?_⟩
            by_cases hph : s.phase = .finRcvd
            · left
              exact h.stay p1 p4 fun hh => absurd (p5.trans hph) hh
            · obtain ⟨l1, l2⟩ := h.live hph
              have hcv : ∀ p ∈ L, p.2 ≤ r' + W ∧ ∀ y, p.1 ≤ y → y < p.2 →
                  Cov b r' (reass c s (seqOf b x) tlen hfin m zone).1.segq y := by
                intro p hp
                refine ⟨by have := (l1 p hp).1; omega, fun y h1 h2 => ?_⟩
                exact p6 y (by have := (l1 p hp).1; omega) (Or.inl ((l1 p hp).2 y h1 h2))
              cases hest : s.phase.est with
              | false =>
                left
                have hrr := p8 hest
                subst hrr
                refine h.stay p1 p4 fun _ => ⟨hcv, ?_⟩
                rcases l2 with h2 | h2
                · exact Or.inl h2
                · rw [h2.1] at hest; cases hest
              | true =>
                have hop : s.phase = .open := by
                  cases hq : s.phase with
                  | synRcvd => rw [hq] at hest; cases hest
                  | «open» => rfl
                  | finRcvd => exact absurd hq hph
                rcases l2 with h2 | h2
                · left
                  refine h.stay p1 p4 fun _ => ⟨hcv, ?_⟩
                  rcases p10 hest with ⟨e1, _⟩ | e1
                  · subst e1; exact Or.inl h2
                  · refine Or.inr ⟨p5.trans hop, e1, fun p hp => ?_⟩
                    have := h2 p hp
                    omega
                · by_cases hd : tlen = 0
                  · have hh := hf (hne.resolve_left fun h => h hd)
                    rcases p11 hT h2.2.1 hh hest with ⟨e1, e2⟩ | e1
                    · left
                      subst e1
                      exact h.stay p1 p4 fun _ => ⟨hcv, Or.inr ⟨p5.trans hop, e2, h2.2.2⟩⟩
                    · right
                      refine ⟨e1, h.stay ?_ ?_ fun hh => absurd rfl hh⟩
                      · show _ + 1 = _
                        rw [p1]; exact seqOf_add b r' 1
                      · show Ch b Any (r' + 1) (reass c s (seqOf b x) tlen hfin m zone).1.segq _
                        rcases p9 e1 with hc | hc
                        · rw [hc]; unfold Ch; omega
                        · exact hc.mono_hi (by omega)
                  · -- dropped: nothing changes
                    left
                    rcases reass_dropped c s (seqOf b x) tlen hfin zone m hT hd with e
                    rw [e]
                    have : r' = r := by
                      rw [e] at p1
                      exact seqOf_inj b r' r (by omega) (by omega) (p1.symm.trans h.nxt)
                    subst this
                    exact h.of_eq rfl rfl rfl
          · have hph : s.phase ≠ .finRcvd := fun hp => hnf ⟨by omega, hp⟩
            obtain ⟨L', hL'⟩ := report_step h hph (reass c s (seqOf b x) tlen hfin m zone).1 r' x
              (reassT c s (seqOf b x) tlen zone) p2 p3 hx1 (by omega) (by omega) p1 p4 p6
            exact ⟨L', Or.inl hL'⟩
        obtain ⟨L', hk | ⟨hk1, hk2⟩⟩ := key
        · split
          · next hfl => exact ⟨_, L', hk.fin (p9 hfl)⟩
          · exact ⟨_, L', hk⟩
        · rw [if_pos hk1]
          exact ⟨_, L', hk2⟩
    · exact idle
  · exact idle

theorem afterTrim_sack (c : Cfg) (perm : Bool) (s : Rcv) (B : List Blk) (r : Nat) (L : List NBlk) (seq : BitVec 32)
    (tlen : Nat) (thfin hfin ack zone : Bool) (m : Pkt) (h : SInv b perm s B r L) (hf : thfin = true → hfin = true)
    (hx : tlen ≠ 0 ∨ thfin = true → ∃ x, seq = seqOf b x ∧ r ≤ x ∧ x + tlen ≤ r + W) :
    ∃ r' L', SInv b perm (afterTrim c s seq tlen thfin hfin m ack zone)
      (afterTrimS c perm s B seq tlen thfin hfin m ack zone) r' L' := by
  have hW : W = 2 ^ 30 := rfl
  unfold afterTrim afterTrimS
  split
  · next hsy =>
    simp only
    obtain ⟨l1, l2⟩ := h.live (by rw [hsy.1]; simp)
    have hA : ∀ p ∈ L, r < p.1 := by
      rcases l2 with h2 | h2
      · exact h2
      · rw [hsy.1] at h2; cases h2.1
    have hop : SInv b perm { s with phase := .open } B r L := h.stay h.nxt h.ch fun _ => ⟨l1, Or.inl hA⟩
    split
    · obtain ⟨r', p1, p2, p3, p4, p5, p6, p7, p8⟩ := present_cov (b := b) { s with phase := .open } r h.nxt h.ch
      refine ⟨r', L, hop.stay p1 p4 fun _ => ⟨fun p hp => ⟨?_, fun y h1 h2 => ?_⟩, Or.inr ⟨p5, p8 rfl, fun p hp => ?_⟩⟩⟩
      · have := (l1 p hp).1; omega
      · exact p6 y (by have := (l1 p hp).1; omega) ((l1 p hp).2 y h1 h2)
      · have := hA p hp; omega
    · exact dodata_sack c perm _ B r L seq tlen thfin hfin zone m hop hf hx
  · exact dodata_sack c perm s B r L seq tlen thfin hfin zone m h hf hx

theorem trimRight_sack (c : Cfg) (perm : Bool) (s : Rcv) (B : List Blk) (r : Nat) (L : List NBlk) (x tlen wnd : Nat)
    (thfin hfin ack zone : Bool) (m : Pkt) (h : SInv b perm s B r L) (hf : thfin = true → hfin = true)
    (hw : wnd ≤ W) (hrx : r ≤ x) (hx2 : x + tlen < r + 2 ^ 31) :
    ∃ r' L', SInv b perm (trimRight c s (seqOf b x) tlen thfin hfin m wnd ack zone)
      (trimRightS c perm s B (seqOf b x) tlen thfin hfin m wnd ack zone) r' L' := by
  have hW : W = 2 ^ 30 := rfl
  unfold trimRight trimRightS
  have ho : diff (seqOf b x + BitVec.ofNat 32 tlen) (s.nxt + BitVec.ofNat 32 wnd) = (x + tlen : Int) - (r + wnd) := by
    rw [h.nxt, seqOf_add, seqOf_add, diff_eq b (x + tlen) (r + wnd) (by omega) (by omega)]
    omega
  simp only [ho]
  split
  · next hov =>
    split
    · exact ⟨r, L, h.of_eq rfl rfl rfl⟩
    · refine afterTrim_sack c perm s B r L _ _ _ _ _ _ _ h (by intro h; cases h) ?_
      intro hne
      simp only [Bool.false_eq_true, or_false] at hne
      exact ⟨x, rfl, hrx, by omega⟩
  · exact afterTrim_sack c perm s B r L _ _ _ _ _ _ _ h hf fun _ => ⟨x, rfl, hrx, by omega⟩

theorem trimRight_sack_empty (c : Cfg) (perm : Bool) (s : Rcv) (B : List Blk) (r : Nat) (L : List NBlk) (seq : BitVec 32)
    (wnd : Nat) (hfin ack zone : Bool) (m : Pkt) (h : SInv b perm s B r L) :
    ∃ r' L', SInv b perm (trimRight c s seq 0 false hfin m wnd ack zone)
      (trimRightS c perm s B seq 0 false hfin m wnd ack zone) r' L' := by
  unfold trimRight trimRightS
  simp only
  split
  · split
    · exact ⟨r, L, h.of_eq rfl rfl rfl⟩
    · refine afterTrim_sack c perm s B r L _ _ _ _ _ _ _ h (by intro h; cases h) ?_
      rintro (h | h)
      · exact absurd (Nat.zero_sub _) h
      · cases h
  · refine afterTrim_sack c perm s B r L _ _ _ _ _ _ _ h (by intro h; cases h) ?_
    rintro (h | h)
    · exact absurd rfl h
    · cases h

theorem segment_sack (c : Cfg) (perm : Bool) (s : Rcv) (B : List Blk) (r : Nat) (L : List NBlk) (g : Seg)
    (h : SInv b perm s B r L) (hw : g.wnd ≤ W)
    (hD : diff g.seq s.nxt + g.payload.length < 2 ^ 31) (hD2 : -2 ^ 31 < diff g.seq s.nxt) :
    ∃ r' L', SInv b perm (segment c s g) (segmentS c perm s B g) r' L' := by
  have hW : W = 2 ^ 30 := rfl
  have hsw := diff_swap g.seq s.nxt (by omega)
  have hn := h.nxt
  unfold segment segmentS
  simp only
  split
  · next hpred =>
    obtain ⟨p1, _, p3, p4, p5, p6, p7⟩ := hpred
    have a := append_segq { s with nxt := s.nxt + BitVec.ofNat 32 g.payload.length } ⟨g.id, g.payload ++ g.pad⟩
    have hB : (if perm = true then [] else B) = [] := by
      cases hp : perm with
      | true => rfl
      | false => rw [if_neg (by simp), h.blks, h.off hp]; rfl
    rw [hB]
    refine ⟨r + g.payload.length, [], ?_, ?_, rfl, fun _ => rfl, by simp, (fun p hp => by cases hp), List.Pairwise.nil,
      fun _ => ⟨(fun p hp => by cases hp), Or.inl (fun p hp => by cases hp)⟩, 0, (fun p hp => by cases hp)⟩
    · rw [a.2.1]; simp only; rw [hn, seqOf_add]
    · rw [a.1]; simp only; rw [p5]; unfold Ch; omega
  · unfold trimLeft trimLeftS
    simp only
    split
    · next htd =>
      split
      · exact trimRight_sack_empty c perm s B r L _ _ _ _ _ _ h
      · next hpart =>
        have hx : g.seq + BitVec.ofNat 32 (diff s.nxt g.seq).toNat = seqOf b r := by
          rw [add_diff g.seq s.nxt (by omega), hn]
        rw [hx]
        exact trimRight_sack c perm s B r L r _ g.wnd g.fin g.fin g.ack g.zone _ h id hw (Nat.le_refl _) (by omega)
    · next htd =>
      have hx : g.seq = seqOf b (r + (diff g.seq s.nxt).toNat) := by
        rw [← seqOf_add, ← hn, add_diff s.nxt g.seq (by omega)]
      have := trimRight_sack c perm s B r L (r + (diff g.seq s.nxt).toNat) g.payload.length g.wnd g.fin g.fin g.ack g.zone
        ⟨g.id, g.payload ++ g.pad⟩ h id hw (by omega) (by omega)
      rw [← hx] at this
      exact this

theorem hist_sack {c : Cfg} {perm : Bool} {s : Rcv} {B : List Blk} (h : RHist c perm s B) :
    ∃ b r L, SInv b perm s B r L := by
  induction h with
  | init ph n =>
    refine ⟨n, 0, [], ?_, ?_, rfl, fun _ => rfl, by simp, (fun p hp => by cases hp), List.Pairwise.nil,
      fun _ => ⟨(fun p hp => by cases hp), Or.inl (fun p hp => by cases hp)⟩, 0, (fun p hp => by cases hp)⟩
    · simp [Rcv.init, seqOf]
    · show Ch n Any 0 [] _
      unfold Ch; omega
  | seg s B g _ h1 h2 h3 ih =>
    obtain ⟨b, r, L, hL⟩ := ih
    obtain ⟨r', L', h'⟩ := segment_sack c perm s B r L g hL h3 h1 h2
    exact ⟨b, r', L', h'⟩
  | read s B n _ ih =>
    obtain ⟨b, r, L, hL⟩ := ih
    exact ⟨b, r, L, hL.of_eq rfl rfl rfl⟩

end
end Verif.Sack

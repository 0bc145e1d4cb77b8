import Verif.Sack.RecvMain
/-! # C32, C61: the theorems -/
namespace Verif.Sack
open Verif.Tcp
open Verif.Sockbuf (Pkt)

theorem off_seqOf (b : BitVec 32) {a y : Nat} (h : a ≤ y) : off (seqOf b a) (seqOf b y) = (y - a) % 2 ^ 32 := by
  obtain ⟨d, rfl⟩ := Nat.exists_eq_add_of_le h
  rw [← seqOf_add]
  unfold off
  rw [Nat.add_sub_cancel_left, BitVec.add_comm, BitVec.add_sub_cancel]
  simp

theorem off_seqOf_lt (b : BitVec 32) {a y : Nat} (h : a ≤ y) (h2 : y - a < 2 ^ 32) :
    off (seqOf b a) (seqOf b y) = y - a := by
  rw [off_seqOf b h, Nat.mod_eq_of_lt h2]

theorem in_seqOf (b : BitVec 32) {a e : Nat} {x : BitVec 32} (h : a < e) (he : e < a + 2 ^ 31) :
    InR (seqOf b a) (seqOf b e) x ↔ ∃ y, a ≤ y ∧ y < e ∧ x = seqOf b y := by
  unfold InR
  rw [off_seqOf_lt b (by omega) (by omega) (a := a) (y := e)]
  constructor
  · intro hx
    refine ⟨a + off (seqOf b a) x, by omega, by omega, ?_⟩
    rw [← seqOf_add]
    exact (seqOf_off (seqOf b a) x).symm
  · rintro ⟨y, h1, h2, rfl⟩
    rw [off_seqOf_lt b h1 (by omega)]
    omega

/-- **C32.** Whatever segments arrive: the receiver reports at most six blocks, each non-empty, no two of
them overlapping or touching, and (until the peer's FIN has been received) every byte reported is one it
holds in the reassembly queue or has already delivered. -/
theorem sack_report {c : Cfg} {perm : Bool} {s : Rcv} {B : List Blk} (h : RHist c perm s B) :
    B.length ≤ 6 ∧ (perm = false → B = []) ∧ (∀ p ∈ B, 0 < off p.start p.stop ∧ off p.start p.stop < 2 ^ 31) ∧
    B.Pairwise (fun p q => Apart p q ∧ Apart q p) ∧
    (s.phase ≠ .finRcvd → ∀ p ∈ B, ∀ x, InR p.start p.stop x → Held s x) := by
  obtain ⟨b, r, L, I⟩ := hist_sack h
  obtain ⟨lo, hnear⟩ := I.near
  have hB := I.blks
  subst hB
  refine ⟨by rw [List.length_map]; exact I.len, fun hp => by rw [I.off hp]; rfl, ?_, ?_, ?_⟩
  · intro p hp
    obtain ⟨q, hq, rfl⟩ := List.mem_map.mp hp
    have h1 := I.ne q hq
    have h2 := hnear q hq
    unfold NearB Near at h2
    unfold toB
    simp only
    rw [off_seqOf_lt b (by omega) (by omega)]
    omega
  · rw [List.pairwise_map]
    refine I.sep.imp_of_mem ?_
    intro p q hp hq hsep
    have key : ∀ p q : NBlk, p.1 < p.2 → q.1 < q.2 → NearB lo p → NearB lo q → p.2 < q.1 →
        Apart (toB b p) (toB b q) ∧ Apart (toB b q) (toB b p) := by
      intro p q h1 h2 h3 h4 h5
      unfold NearB Near at h3 h4
      unfold Apart toB
      simp only
      have e1 := off_seqOf_lt b (a := p.1) (y := p.2) (by omega) (by omega)
      have e2 := off_seqOf_lt b (a := p.1) (y := q.1) (by omega) (by omega)
      have e3 := off_seqOf_lt b (a := p.1) (y := q.2) (by omega) (by omega)
      have e4 := off_seqOf_lt b (a := q.1) (y := q.2) (by omega) (by omega)
      have e5 := off_shift_below (u := seqOf b p.1) (v := seqOf b q.1) (x := seqOf b p.1) (by rw [off_self]; omega)
      have e6 := off_shift_below (u := seqOf b p.1) (v := seqOf b q.1) (x := seqOf b p.2) (by omega)
      rw [off_self] at e5
      omega
    rcases hsep with h1 | h1
    · exact key p q (I.ne p hp) (I.ne q hq) (hnear p hp) (hnear q hq) h1
    · exact (key q p (I.ne q hq) (I.ne p hp) (hnear q hq) (hnear p hp) h1).symm
  · intro hph p hp x hx
    obtain ⟨l1, l2⟩ := I.live hph
    obtain ⟨q, hq, rfl⟩ := List.mem_map.mp hp
    have h1 := I.ne q hq
    have h2 := hnear q hq
    unfold NearB Near at h2
    unfold toB at hx
    simp only at hx
    obtain ⟨y, y1, y2, rfl⟩ := (in_seqOf b h1 (by omega)).mp hx
    have hlow : r < q.1 + W := by
      rcases l2 with h | h
      · have := h q hq; omega
      · exact h.2.2 q hq
    have hW : W = 2 ^ 30 := rfl
    rcases (l1 q hq).2 y y1 y2 with h | ⟨e, he, a, a1, a2, a3⟩
    · right
      rw [I.nxt, off_seqOf_lt b (by omega) (by omega)]
      omega
    · left
      refine ⟨e, he, ?_⟩
      rw [a1, off_seqOf b a2]
      have := Nat.mod_le (y - a) (2 ^ 32)
      omega

/-- **C61 (partial).** An out-of-order segment of an established connection (above the receive sequence
number before and after it is processed) that lies in the window and
brings only bytes not yet queued, and for which there is room: the first block of the new report contains
the whole segment; and every block reported before, if it lies above the receive sequence number, is still
reported, unless six were reported already. -/
theorem sack_first_partial {c : Cfg} {s : Rcv} {B : List Blk} (h : RHist c true s B) (g : Seg)
    (hph : s.phase = .open) (hgt : 0 < diff g.seq s.nxt) (hout : 0 < diff g.seq (segment c s g).nxt) (hne : g.payload ≠ [])
    (hwnd : diff g.seq s.nxt + g.payload.length ≤ g.wnd) (hw : g.wnd ≤ 2 ^ 30)
    (hspace : g.payload.length ≤ s.space c) (hroom : g.zone = true ∧ s.segqlen ≤ c.maxq)
    (hnew : ∀ x, off g.seq x < g.payload.length → ∀ q ∈ s.segq, ¬ off q.seq x < q.len) :
    (∃ p R, segmentS c true s B g = p :: R ∧ ∀ x, off g.seq x < g.payload.length → InR p.start p.stop x) ∧
    (B.length < 6 → ∀ q ∈ B, seqGT q.start (segment c s g).nxt = true → ∀ x, InR q.start q.stop x →
      ∃ p ∈ segmentS c true s B g, InR p.start p.stop x) := by
  have hW : W = 2 ^ 30 := rfl
  obtain ⟨b, r, L, I⟩ := hist_sack h
  obtain ⟨lo, hnear⟩ := I.near
  have hlen : g.payload.length ≠ 0 := fun h => hne (List.length_eq_zero_iff.mp h)
  have hsw := diff_swap g.seq s.nxt (by omega)
  have hx : g.seq = seqOf b (r + (diff g.seq s.nxt).toNat) := by
    rw [← seqOf_add, ← I.nxt, add_diff s.nxt g.seq (by omega)]
  generalize hd : (diff g.seq s.nxt).toNat = d at hx
  have hne' : g.seq ≠ s.nxt := by
    intro h; rw [h] at hgt; unfold diff at hgt; simp at hgt
  -- the route of the segment
  have hroute : segmentS c true s B g =
        report true (reass c s g.seq g.payload.length g.fin ⟨g.id, g.payload ++ g.pad⟩ true).1.nxt B g.seq
          (reassT c s g.seq g.payload.length true) ∧
      ((segment c s g).nxt = (reass c s g.seq g.payload.length g.fin ⟨g.id, g.payload ++ g.pad⟩ true).1.nxt ∨
       (segment c s g).nxt = (reass c s g.seq g.payload.length g.fin ⟨g.id, g.payload ++ g.pad⟩ true).1.nxt + 1) := by
    have ho : diff (g.seq + BitVec.ofNat 32 g.payload.length) (s.nxt + BitVec.ofNat 32 g.wnd) =
        (r + d + g.payload.length : Int) - (r + g.wnd) := by
      rw [I.nxt, hx, seqOf_add, seqOf_add, diff_eq b _ _ (by omega) (by omega)]
      omega
    have hsyn : ¬ (s.phase = .synRcvd ∧ g.ack = true) := by rw [hph]; simp
    have hfr : ¬ (g.payload.length ≠ 0 ∧ s.phase = .finRcvd) := by rw [hph]; simp
    have hfast : ¬ (g.seq = s.nxt ∧ s.segq = [] ∧ s.phase.est = true) := fun h => hne' h.1
    constructor
    · unfold segmentS
      simp only
      rw [if_neg (fun h => hne' h.2.2.1)]
      unfold trimLeftS
      simp only
      rw [if_neg (by omega)]
      unfold trimRightS
      simp only [ho]
      rw [if_neg (by omega)]
      unfold afterTrimS
      rw [if_neg hsyn]
      unfold dodataS
      rw [if_neg hfr, if_pos (Or.inl hlen), if_pos hspace, if_neg hfast, hroom.1]
    · unfold segment
      simp only
      rw [if_neg (fun h => hne' h.2.2.1)]
      unfold trimLeft
      simp only
      rw [if_neg (by omega)]
      unfold trimRight
      simp only [ho]
      rw [if_neg (by omega)]
      unfold afterTrim
      rw [if_neg hsyn]
      unfold dodata
      rw [if_neg hfr, if_pos (Or.inl hlen), if_pos hspace, if_neg hfast, hroom.1]
      simp only
      split
      · exact Or.inr rfl
      · exact Or.inl rfl
  -- nothing is cut off
  have hT : reassT c s g.seq g.payload.length true = g.payload.length := by
    unfold reassT
    simp only
    rw [if_neg (by intro h; omega), if_neg (by simp)]
    split
    · rfl
    · next hn =>
      have : overlap (s.segq.takeWhile fun q => !seqGT q.seq g.seq) g.seq ≤ 0 := by
        by_contra hpos
        obtain ⟨mid, k1, k2, k3, k4, k5, k6, _⟩ := ch_split (r + d) s.segq r (r + W) I.ch (by omega) (by omega) (by omega)
        rw [← hx] at k1 k6
        unfold overlap at hpos
        cases hl : (s.segq.takeWhile fun q => !seqGT q.seq g.seq).getLast? with
        | none => rw [hl] at hpos; simp at hpos
        | some p =>
          rw [hl] at hpos
          simp only at hpos
          obtain ⟨a, a1, a2, a3⟩ := ch_last _ r mid p k1 hl
          have hpm := List.mem_of_getLast? hl
          have hpq : p ∈ s.segq := (List.takeWhile_sublist _).subset hpm
          have hax : a ≤ r + d := by
            have := List.all_takeWhile (p := fun q => !seqGT q.seq g.seq) (l := s.segq)
            rw [List.all_eq_true] at this
            have := this p hpm
            rw [a2, hx, (seq_compare b a (r + d) (by omega) (by omega)).2.2.1] at this
            simpa using this
          rw [a2, hx, seqOf_add, diff_eq b _ _ (by omega) (by omega)] at hpos
          refine hnew g.seq (by rw [off_self]; omega) p hpq ?_
          rw [a2, hx, off_seqOf_lt b hax (by omega)]
          omega
      omega
  rw [hroute.1, hT]
  have hr1 := hroute.2
  rw [hx] at hr1 ⊢
  obtain ⟨r', p1, p2, p3, p4, p5, p6, p7, p8, p9, p10, p11⟩ :=
    reass_cov (b := b) c s r (r + d) g.payload.length g.fin true ⟨g.id, g.payload ++ g.pad⟩ I.nxt I.ch (by omega) (by omega)
  rw [p1] at hr1 ⊢
  unfold report
  rw [if_pos ⟨by omega, rfl⟩, seqOf_add]
  obtain ⟨l1, l2⟩ := I.live (by rw [hph]; simp)
  have hlow : ∀ p ∈ L, r < p.1 + W := by
    rcases l2 with h | h
    · intro p hp; have := h p hp; omega
    · exact h.2.2
  have href := update_ref (b := b) (lo := (r : Int) - W + 1) r' (by unfold Near; omega) L (r + d, r + d + g.payload.length)
    (by
      intro p hp
      have g1 := hlow p hp
      have g2 := (l1 p hp).1
      have g3 := I.ne p hp
      unfold NearB Near
      omega)
    (by unfold NearB Near; simp only; omega)
  rw [I.blks, href]
  have hU := update_ok r' L (r + d, r + d + g.payload.length) I.len I.ne I.sep (by simp only; omega)
  have hin : ∀ p ∈ updateN r' L (r + d, r + d + g.payload.length), ∀ y, p.1 ≤ y → y < p.2 → y < r + W := by
    intro p hp y h1 h2
    rcases hU.sub p hp y h1 h2 with h | ⟨q, hq, _, h3, h4⟩
    · simp only at h; omega
    · have := (l1 q hq).1; omega
  have hbnd : ∀ p ∈ updateN r' L (r + d, r + d + g.payload.length), p.1 < p.2 ∧ p.2 < p.1 + 2 ^ 31 := by
    intro p hp
    have h1 := hU.ne p hp
    have h2 := hU.above p hp
    have := hin p hp (p.2 - 1) (by omega) (by omega)
    omega
  have hone : seqOf b r' + 1 = seqOf b (r' + 1) := seqOf_add b r' 1
  constructor
  · have hr'd : r' < r + d := by
      rw [hx] at hout
      rcases hr1 with e | e
      · rw [e, diff_eq b _ _ (by omega) (by omega)] at hout; omega
      · rw [e, hone, diff_eq b _ _ (by omega) (by omega)] at hout; omega
    obtain ⟨p, R, e, e1, e2⟩ := hU.head hr'd
    simp only at e1 e2
    rw [e]
    refine ⟨toB b p, R.map (toB b), rfl, ?_⟩
    intro x hxx
    have hp := hbnd p (by rw [e]; exact List.mem_cons_self ..)
    refine (in_seqOf b hp.1 hp.2).mpr ⟨r + d + off (seqOf b (r + d)) x, by omega, by omega, ?_⟩
    rw [← seqOf_add b (r + d)]
    exact (seqOf_off _ x).symm
  · intro hlt q hq hqr x hxx
    obtain ⟨n, hn, rfl⟩ := List.mem_map.mp hq
    have hr'd : r' < n.1 := by
      have g1 := hlow n hn
      have g2 := (l1 n hn).1
      have g3 := I.ne n hn
      unfold seqGT toB at hqr
      simp only [decide_eq_true_eq] at hqr
      rcases hr1 with e | e
      · rw [e, diff_eq b _ _ (by omega) (by omega)] at hqr; omega
      · rw [e, hone, diff_eq b _ _ (by omega) (by omega)] at hqr; omega
    have hr'2 : r' < r + d := by
      rw [hx] at hout
      rcases hr1 with e | e
      · rw [e, diff_eq b _ _ (by omega) (by omega)] at hout; omega
      · rw [e, hone, diff_eq b _ _ (by omega) (by omega)] at hout; omega
    rw [List.length_map] at hlt
    obtain ⟨p, hp, e1, e2⟩ := hU.kept hlt hr'2 n hn hr'd
    refine ⟨toB b p, List.mem_map.mpr ⟨p, hp, rfl⟩, ?_⟩
    have hpb := hbnd p hp
    have hnn := I.ne n hn
    have hx2 : InR (seqOf b n.1) (seqOf b n.2) x := hxx
    obtain ⟨y, y1, y2, rfl⟩ := (in_seqOf b hnn (by omega)).mp hx2
    exact (in_seqOf b hpb.1 hpb.2).mpr ⟨y, by omega, by omega, rfl⟩

/-! ## Cases -/

/-- A segment of `n` bytes. -/
def exSeg (id seq n : Nat) : Seg := ⟨id, BitVec.ofNat 32 seq, List.replicate n 7, [], false, 5000, false, false, true⟩

def exCfg : Cfg := ⟨2048, 20⟩

/-- Sequence numbers 100, ..., 199 queued while 0 is expected. -/
def exS1 : Rcv := segment exCfg (Rcv.init .open 0) (exSeg 1 100 100)
def exB1 : List Blk := segmentS exCfg true (Rcv.init .open 0) [] (exSeg 1 100 100)
/-- Then 150, ..., 249. -/
def exS2 : Rcv := segment exCfg exS1 (exSeg 2 150 100)
def exB2 : List Blk := segmentS exCfg true exS1 exB1 (exSeg 2 150 100)

theorem exH1 : RHist exCfg true exS1 exB1 :=
  RHist.seg _ _ _ (RHist.init .open 0) (by decide +kernel) (by decide +kernel) (by decide +kernel)

theorem exH2 : RHist exCfg true exS2 exB2 :=
  RHist.seg _ _ _ exH1 (by decide +kernel) (by decide +kernel) (by decide +kernel)

/-- **C61 violated.** Bytes 100-199 are queued and bytes 150-249 arrive: all of 100-249 is held, but the
report ends at 200; no block mentions the new bytes. -/
theorem sack_first_violated :
    ∃ (c : Cfg) (s : Rcv) (B : List Blk) (g : Seg), RHist c true s B ∧ s.phase = .open ∧ 0 < diff g.seq s.nxt ∧
      diff g.seq s.nxt + g.payload.length ≤ g.wnd ∧ g.payload.length ≤ s.space c ∧ g.zone = true ∧ s.segqlen ≤ c.maxq ∧
      ∃ x, off g.seq x < g.payload.length ∧ Held (segment c s g) x ∧
        ∀ p ∈ segmentS c true s B g, ¬ InR p.start p.stop x := by
  refine ⟨exCfg, exS1, exB1, exSeg 2 150 100, exH1, by decide +kernel, by decide +kernel, by decide +kernel,
    by decide +kernel, rfl, by decide +kernel, 220#32, by decide +kernel, Or.inl ?_, ?_⟩
  · have : ∃ q ∈ (segment exCfg exS1 (exSeg 2 150 100)).segq, decide (off q.seq 220#32 < q.len) = true := by
      rw [← List.any_eq_true]; decide +kernel
    obtain ⟨q, h1, h2⟩ := this
    exact ⟨q, h1, by simpa using h2⟩
  · unfold InR; decide +kernel

/-- Two separate blocks, the newer one first. -/
example : segmentS exCfg true exS1 exB1 (exSeg 2 300 100) = [⟨300#32, 400#32⟩, ⟨100#32, 200#32⟩] := by decide +kernel

/-- The gap is filled: one block. -/
example : segmentS exCfg true (segment exCfg exS1 (exSeg 2 300 100)) [⟨300#32, 400#32⟩, ⟨100#32, 200#32⟩] (exSeg 3 200 100) =
    [⟨100#32, 400#32⟩] := by decide +kernel

/-- The missing head arrives: nothing left to report. -/
example : segmentS exCfg true exS1 exB1 (exSeg 2 0 100) = [] := by decide +kernel

/-- The hypotheses of `sack_first_partial` are met. -/
example : ∃ p R, segmentS exCfg true exS1 exB1 (exSeg 2 300 100) = p :: R ∧
    ∀ x, off 300#32 x < 100 → InR p.start p.stop x :=
  (sack_first_partial exH1 (exSeg 2 300 100) (by decide +kernel) (by decide +kernel) (by decide +kernel)
    (by intro h; have := congrArg List.length h; simp [exSeg] at this) (by decide +kernel) (by decide +kernel)
    (by decide +kernel) (by decide +kernel) (by
      intro x hx q hq
      have hq1 : q.seq = 100#32 ∧ q.len = 100 := by
        have : ∀ q ∈ exS1.segq, q.seq = 100#32 ∧ q.len = 100 := by decide +kernel
        exact this q hq
      rw [hq1.1, hq1.2]
      have hl : (exSeg 2 300 100).payload.length = 100 := by decide +kernel
      rw [hl] at hx
      have hs : (exSeg 2 300 100).seq = 300#32 := rfl
      rw [hs] at hx
      unfold off at *
      simp only [BitVec.toNat_sub, BitVec.toNat_ofNat] at *
      omega)).1

end Verif.Sack

import Verif.Cksum.Props

/-!
# Properties C03, C04, C41: packet checksum, forwarding, transport checksum
-/
namespace Verif.Cksum

/-! ## C03 -/

theorem segTmp (a2 a4 : Bool) (bs : List UInt8) (len : Nat) (h : len ≤ bs.length)
    (hl : len ≤ 262143) :
    ∃ c, cksumBuffer a2 a4 len bs = some c ∧ not16 c = norm (leSum (bs.take len)) := by
  obtain ⟨s, e, b, r⟩ := cksumBuffer_val a2 a4 len bs h (by omega)
  refine ⟨_, e, ?_⟩
  rw [fold_eq_norm (small_sum hl b), norm_congr r, not16_not16 (norm_le _)]

theorem R_mul256 {a b} (h : R a b) : R (256 * a) (256 * b) := by
  unfold R at *; omega

/-- The sum of a byte string that starts at offset `done` of the whole range. -/
def parSum (done : Nat) (bs : List UInt8) : Nat :=
  if done % 2 = 1 then beSum bs else leSum bs

theorem parSum_append (d : Nat) (a b : List UInt8) :
    parSum d (a ++ b) = parSum d a + parSum (d + a.length) b := by
  have be : ∀ x : List UInt8, beSum x = leSum (0 :: x) := fun x => by simp [leSum_cons]
  unfold parSum
  by_cases hd : d % 2 = 1 <;> by_cases ha : a.length % 2 = 1
  · rw [if_pos hd, if_pos hd, if_neg (by omega), be, be, ← List.cons_append,
      leSum_append_even _ _ (by simp; omega)]
  · rw [if_pos hd, if_pos hd, if_pos (by omega), be, be a, ← List.cons_append,
      leSum_append_odd _ _ (by simp; omega)]
  · rw [if_neg hd, if_neg hd, if_pos (by omega), leSum_append_odd _ _ (by omega)]
  · rw [if_neg hd, if_neg hd, if_neg (by omega), leSum_append_even _ _ (by omega)]

theorem parTmp (d : Nat) (bs : List UInt8) :
    (if d % 2 = 1 then swap16 (norm (leSum bs)) else norm (leSum bs)) = norm (parSum d bs) := by
  unfold parSum
  split
  · rw [norm_congr (beSum_R bs), norm_swap]
  · rfl

theorem segLoop_spec (al : Nat → Bool × Bool) (len : Nat) :
    ∀ (mid tail : List (List UInt8)) (done sum v : Nat), (∀ s ∈ mid, s ≠ [] ∧ s.length ≤ 262143) →
    done < len →
    (done + mid.flatten.length = len ∨ (tail = [] ∧ done + mid.flatten.length < len)) →
    sum + mid.length * 65535 < 2 ^ 31 → R sum v →
    segLoop al (mid ++ tail) 0 len done sum =
      .ok (65535 - norm (v + parSum done mid.flatten)) := by
  intro mid
  induction mid with
  | nil =>
    intro tail done sum v hm hd hb hs hR
    rcases hb with hb | ⟨rfl, hb⟩
    · simp at hb; omega
    · simp only [List.length_nil, Nat.zero_mul, Nat.add_zero] at hs
      simp only [List.append_nil, segLoop, List.flatten_nil]
      have e : parSum done [] = 0 := by unfold parSum; split <;> simp [beSum, leSum]
      rw [reduce_eq_norm hs, norm_congr hR, not16_le (norm_le _), e, Nat.add_zero]
  | cons g mid ih =>
    intro tail done sum v hm hd hb hs hR
    have ⟨hg0, hgl⟩ := hm g (by simp)
    have hgp : 0 < g.length := List.length_pos_iff.mpr hg0
    have hfl : (g :: mid).flatten.length = g.length + mid.flatten.length := by simp
    rw [hfl] at hb
    have hs' : sum + 65535 + mid.length * 65535 < 2 ^ 31 := by
      simp only [List.length_cons, Nat.add_mul, Nat.one_mul] at hs; omega
    rw [List.cons_append, segLoop.eq_2, if_neg (by omega)]
    have hcl : (if g.length - 0 > len then len else g.length - 0) = g.length := by
      rw [if_neg (by omega)]; omega
    simp only [hcl, List.drop_zero]
    obtain ⟨c, ec, et⟩ := segTmp (al (mid ++ tail).length).1 (al (mid ++ tail).length).2 g g.length
      (Nat.le_refl _) hgl
    rw [List.take_length] at et
    rw [ec]
    simp only [et, parTmp]
    have hn := norm_le (parSum done g)
    rw [if_neg (by omega)]
    have hR' : R (sum + norm (parSum done g)) (v + parSum done g) := hR.add (R_norm _)
    have hflat : (g :: mid).flatten = g ++ mid.flatten := by simp
    by_cases hfin : done + g.length = len
    · rw [if_pos hfin]
      have hm0 : mid.flatten = [] := by
        rcases hb with hb | hb
        · exact List.length_eq_zero_iff.mp (by omega)
        · exact List.length_eq_zero_iff.mp (by omega)
      rw [reduce_eq_norm (by omega), norm_congr hR', not16_le (norm_le _), hflat, hm0,
        List.append_nil]
    · rw [if_neg hfin]
      rw [ih tail (done + g.length) _ _ (fun s hs => hm s (by simp [hs])) (by omega)
        (by rcases hb with hb | ⟨h1, h2⟩
            · left; omega
            · right; exact ⟨h1, by omega⟩) (by omega) hR', hflat, parSum_append, Nat.add_assoc]

theorem cksum_val (al : Nat → Bool × Bool) (s0 : List UInt8) (mid tail : List (List UInt8))
    (off len : Nat) (hoff : off < s0.length) (h0 : s0.length ≤ 262143)
    (hm : ∀ s ∈ mid, s ≠ [] ∧ s.length ≤ 262143) (hn : mid.length < 32767)
    (hb : (mid = [] ∧ off + len ≤ s0.length) ∨ s0.length + mid.flatten.length = off + len ∨
      (tail = [] ∧ s0.length + mid.flatten.length < off + len)) :
    cksum al (s0 :: (mid ++ tail)) off len =
      .ok (65535 - norm (leSum ((((s0 ++ mid.flatten).drop off)).take len))) := by
  unfold cksum
  rw [segLoop.eq_2, if_neg (by omega)]
  by_cases hin : off + len ≤ s0.length
  · -- the whole range is in the first segment
    have hcl : (if s0.length - off > len then len else s0.length - off) = len := by
      split <;> omega
    simp only [hcl]
    obtain ⟨c, ec, et⟩ := segTmp (al (mid ++ tail).length).1 (al (mid ++ tail).length).2
      (s0.drop off) len (by rw [List.length_drop]; omega) (by omega)
    rw [ec]
    have hn := norm_le (leSum ((s0.drop off).take len))
    simp only [et, Nat.zero_mod, if_neg (show ¬ (0 : Nat) = 1 by omega), Nat.zero_add]
    rw [if_neg (by omega), if_pos trivial, reduce_eq_norm (by omega), norm_congr (R_norm _),
      not16_le (norm_le _)]
    rw [List.drop_append_of_le_length (by omega), List.take_append_of_le_length
      (by rw [List.length_drop]; omega)]
  · have hcl : (if s0.length - off > len then len else s0.length - off) = s0.length - off := by
      rw [if_neg (by omega)]
    simp only [hcl]
    obtain ⟨c, ec, et⟩ := segTmp (al (mid ++ tail).length).1 (al (mid ++ tail).length).2
      (s0.drop off) (s0.length - off) (by rw [List.length_drop]; omega) (by omega)
    rw [ec]
    have ht : (s0.drop off).take (s0.length - off) = s0.drop off := by
      apply List.take_of_length_le; rw [List.length_drop]; omega
    rw [ht] at et
    have hn' := norm_le (leSum (s0.drop off))
    simp only [et, Nat.zero_mod, if_neg (show ¬ (0 : Nat) = 1 by omega), Nat.zero_add]
    have hb' : s0.length + mid.flatten.length = off + len ∨
      (tail = [] ∧ s0.length + mid.flatten.length < off + len) := by
      rcases hb with ⟨h1, h2⟩ | h
      · omega
      · exact h
    rw [if_neg (by omega), if_neg (by omega)]
    rw [segLoop_spec al len mid tail (s0.length - off) _ _ hm (by omega)
      (by rcases hb' with h | ⟨h1, h2⟩
          · left; omega
          · right; exact ⟨h1, by omega⟩) (by omega) (R_norm _)]
    have hall : ((s0 ++ mid.flatten).drop off).take len = s0.drop off ++ mid.flatten := by
      rw [List.drop_append_of_le_length (by omega)]
      apply List.take_of_length_le; rw [List.length_append, List.length_drop]
      rcases hb' with h | ⟨h1, h2⟩ <;> omega
    have hp := parSum_append 0 (s0.drop off) mid.flatten
    rw [List.length_drop, Nat.zero_add] at hp
    have hz : ∀ x, parSum 0 x = leSum x := fun x => rfl
    rw [hz, hz] at hp
    rw [hall, hp]

/-- **C03 (partial).** For every packet cut into segments in any way, every alignment of the segments,
and every range `off, len` that starts inside the first segment and either stays inside it, or ends
exactly at a segment boundary, or reaches the end of the packet, `ofp_cksum` terminates and returns the
RFC 1071 checksum of exactly these bytes, as if the packet were contiguous.
Missing for the full property: ranges starting in a later segment and ranges ending inside a later
segment; for those it is false (`ofp_cksum_offset_violated`, `ofp_cksum_trailer_violated`,
`ofp_cksum_loop_violated`).  (Bounds: each segment at most 262143 bytes, fewer than 32768 segments.) -/
theorem ofp_cksum_partial (al : Nat → Bool × Bool) (s0 : List UInt8)
    (mid tail : List (List UInt8)) (off len : Nat) (hoff : off < s0.length)
    (h0 : s0.length ≤ 262143) (hm : ∀ s ∈ mid, s ≠ [] ∧ s.length ≤ 262143)
    (hn : mid.length < 32767)
    (hb : (mid = [] ∧ off + len ≤ s0.length) ∨ s0.length + mid.flatten.length = off + len ∨
      (tail = [] ∧ s0.length + mid.flatten.length < off + len)) :
    ∃ r, cksum al (s0 :: (mid ++ tail)) off len = .ok r ∧
      stored r = Spec.wireBytes
        (Spec.checksum ((((s0 :: (mid ++ tail)).flatten).drop off).take len)) := by
  refine ⟨_, cksum_val al s0 mid tail off len hoff h0 hm hn hb, ?_⟩
  rw [stored_swap (by omega), host_net]
  have e : (((s0 :: (mid ++ tail)).flatten).drop off).take len =
      ((s0 ++ mid.flatten).drop off).take len := by
    rw [List.flatten_cons, List.flatten_append, ← List.append_assoc,
      List.drop_append_of_le_length (by rw [List.length_append]; omega)]
    rcases hb with ⟨rfl, h⟩ | h | ⟨rfl, h⟩
    · rw [List.take_append_of_le_length]
      rw [List.length_drop, List.length_append]; omega
    · rw [List.take_append_of_le_length]
      rw [List.length_drop, List.length_append]; omega
    · simp
  rw [e]

example : ∃ r, cksum (fun _ => (false, false)) ([1, 2, 3] :: ([[4, 5], [6]] ++ [[7]])) 1 5 = .ok r ∧
    stored r = Spec.wireBytes (Spec.checksum [2, 3, 4, 5, 6]) :=
  ofp_cksum_partial _ [1, 2, 3] [[4, 5], [6]] [[7]] 1 5 (by decide) (by decide)
    (by decide) (by decide) (by decide)

/-- **C03 violated (offset).** When the offset lies in the second segment, the loop subtracts the
length of the first one but does not advance, so it sums the first segment instead. -/
theorem ofp_cksum_offset_violated :
    ∃ (segs : List (List UInt8)) (off len r : Nat), (∀ s ∈ segs, s ≠ []) ∧
      off + len ≤ segs.flatten.length ∧
      cksum (fun _ => (false, false)) segs off len = .ok r ∧
      stored r ≠ Spec.wireBytes (Spec.checksum ((segs.flatten.drop off).take len)) := by
  refine ⟨[[1, 2], [3, 4]], 2, 2, 65022, by decide, by decide, ?_, by decide⟩
  have h := cksum_val (fun _ => (false, false)) [1, 2] [] [[3, 4]] 0 2 (by decide) (by decide)
    (by decide) (by decide) (by decide)
  unfold cksum at h ⊢
  rw [segLoop.eq_2, if_pos (by decide), if_neg (by decide)]
  exact h

/-- **C03 violated (trailing bytes).** When the range ends inside the second segment, the bytes after
its end are summed too. -/
theorem ofp_cksum_trailer_violated :
    ∃ (segs : List (List UInt8)) (off len r : Nat), (∀ s ∈ segs, s ≠ []) ∧
      off + len ≤ segs.flatten.length ∧
      cksum (fun _ => (false, false)) segs off len = .ok r ∧
      stored r ≠ Spec.wireBytes (Spec.checksum ((segs.flatten.drop off).take len)) := by
  refine ⟨[[1, 2], [3, 4, 5, 6]], 0, 4, 62454, by decide, by decide, ?_, by decide⟩
  obtain ⟨c, ec, et⟩ := segTmp false false [1, 2] 2 (by decide) (by decide)
  obtain ⟨d, ed, et'⟩ := segTmp false false [3, 4, 5, 6] 4 (by decide) (by decide)
  unfold cksum
  rw [segLoop.eq_2, if_neg (by decide)]
  simp only [List.length_cons, List.length_nil, List.drop_zero, Nat.reduceAdd, Nat.sub_zero,
    gt_iff_lt, Nat.reduceLT, if_false, ec, et]
  rw [segLoop.eq_2, if_neg (by decide)]
  simp only [List.length_cons, List.length_nil, List.drop_zero, Nat.reduceAdd, Nat.sub_zero,
    gt_iff_lt, Nat.lt_irrefl, if_false, ed, et', segLoop.eq_1]
  decide

/-- **C03 violated (termination).** With an empty segment in the packet the loop never terminates. -/
theorem ofp_cksum_loop_violated :
    ∃ (segs : List (List UInt8)) (off len : Nat), off + len ≤ segs.flatten.length ∧
      cksum (fun _ => (false, false)) segs off len = .diverge := by
  refine ⟨[[], [3, 4]], 0, 2, by decide, ?_⟩
  simp [cksum, segLoop]

/-! ## C04 -/

/-- **C04.** For every IPv4 header (any length, options included) that passes the checksum test, the
forwarding step either drops it (TTL ≤ 1) or yields a header that differs only in TTL (one less) and
checksum, and that again passes the test. -/
theorem forward_keeps_checksum_valid (hdr : List UInt8) (hlen : 20 ≤ hdr.length)
    (hv : Spec.checksum hdr = 0) :
    ((hdr[8]'(by omega)).toNat ≤ 1 ∧ fwdHeader hdr = none) ∨
    (∃ hdr' : List UInt8, fwdHeader hdr = some hdr' ∧ 2 ≤ (hdr[8]'(by omega)).toNat ∧
      hdr'.length = hdr.length ∧
      (hdr'.getD 8 0).toNat + 1 = (hdr[8]'(by omega)).toNat ∧
      (∀ i, i ≠ 8 → i ≠ 10 → i ≠ 11 → hdr'[i]? = hdr[i]?) ∧
      Spec.checksum hdr' = 0) := by
  match hdr, hlen with
  | b0 :: b1 :: b2 :: b3 :: b4 :: b5 :: b6 :: b7 :: ttl :: pr :: c0 :: c1 :: r, _ =>
    simp only [List.getElem_cons_succ, List.getElem_cons_zero, fwdHeader]
    by_cases ht : ttl.toNat ≤ 1
    · left; exact ⟨ht, if_pos ht⟩
    · right
      rw [if_neg ht]
      have httl : (ttl - 1).toNat = ttl.toNat - 1 := by
        rw [UInt8.toNat_sub_of_le _ _ (by rw [UInt8.le_iff_toNat_le]; exact Nat.le_of_lt (by
          have : (1 : UInt8).toNat = 1 := rfl
          omega))]; rfl
      refine ⟨_, rfl, by omega, by simp, ?_, ?_, ?_⟩
      · simp only [List.getD_cons_succ, List.getD_cons_zero, httl]; omega
      · intro i h8 h10 h11
        match i with
        | 0 | 1 | 2 | 3 | 4 | 5 | 6 | 7 | 9 => rfl
        | n + 12 => rfl
        | 8 => exact absurd rfl h8
        | 10 => exact absurd rfl h10
        | 11 => exact absurd rfl h11
      · rw [spec_closed] at hv ⊢
        have hn := norm_le (beSum (b0 :: b1 :: b2 :: b3 :: b4 :: b5 :: b6 :: b7 :: ttl :: pr :: c0 ::
          c1 :: r))
        have hR := R_norm (beSum (b0 :: b1 :: b2 :: b3 :: b4 :: b5 :: b6 :: b7 :: ttl :: pr :: c0 ::
          c1 :: r))
        have hc0 := c0.toNat_lt
        have hc1 := c1.toNat_lt
        generalize hs' : (if c0.toNat + 256 * c1.toNat ≥ 65534 then c0.toNat + 256 * c1.toNat - 65534
          else c0.toNat + 256 * c1.toNat + 1) = s'
        have hs'b : s' ≤ 65535 := by rw [← hs']; split <;> omega
        have key : norm (beSum (b0 :: b1 :: b2 :: b3 :: b4 :: b5 :: b6 :: b7 :: (ttl - 1) :: pr ::
            UInt8.ofNat (s' % 256) :: UInt8.ofNat (s' / 256) :: r)) = 65535 := by
          symm
          apply eq_norm (Nat.le_refl _)
          simp only [beSum, httl, UInt8.toNat_ofNat'] at hR hn hv ⊢
          have e1 : s' % 256 % 2 ^ 8 = s' % 256 := by omega
          have e2 : s' / 256 % 2 ^ 8 = s' / 256 := by omega
          rw [e1, e2]
          generalize norm _ = u at hR hn hv
          unfold R at hR ⊢
          obtain ⟨hR1, hR2⟩ := hR
          -- the new checksum word, byte swapped, is the old one plus 0x0100 modulo 65535
          have hw : ∃ q : Int, (s' % 256 * 256 + s' / 256 : Nat) =
              ((c0.toNat * 256 + c1.toNat : Nat) : Int) + 256 + 65535 * q := by
            rcases Nat.lt_or_ge (c0.toNat + 256 * c1.toNat) 65534 with hlt | hge
            · rw [if_neg (by omega)] at hs'
              by_cases hcc : c0.toNat = 255
              · exact ⟨-1, by omega⟩
              · exact ⟨0, by omega⟩
            · rw [if_pos hge] at hs'
              by_cases hcc : c0.toNat = 255
              · exact ⟨-1, by omega⟩
              · exact ⟨-1, by omega⟩
          obtain ⟨q, hq⟩ := hw
          obtain ⟨w', hw'⟩ : ∃ w', w' = s' % 256 * 256 + s' / 256 := ⟨_, rfl⟩
          rw [← hw'] at hq ⊢
          clear hs' hs'b e1 e2 hw'
          constructor
          · omega
          · constructor
            · intro h; omega
            · intro h; omega
        rw [key]

example : Spec.checksum [0x45, 0, 0, 20, 0, 0, 0, 0, 64, 17, 0x66, 0xd7, 10, 0, 0, 1, 10, 0, 0, 2] = 0 := by
  decide

/-- **C04, together with C02.** What the next router computes with `ofp_cksum_iph` on the forwarded
header is 0 whenever this router accepted the header. -/
theorem forward_then_verify (odd odd' : Bool) (hl : Nat) (h5 : 5 ≤ hl) (h15 : hl ≤ 15)
    (hdr hdr' : List UInt8) (hlen : hdr.length = 4 * hl)
    (hv : cksumIph odd hl hdr = some 0) (hf : fwdHeader hdr = some hdr') :
    cksumIph odd' hl hdr' = some 0 := by
  obtain ⟨r, e1, _, e3⟩ := ofp_cksum_iph_correct odd hl h5 h15 hdr [] hlen
  rw [List.append_nil, hv] at e1
  have h0 : Spec.checksum hdr = 0 := e3.mp (by injection e1 with h; exact h.symm)
  rcases forward_keeps_checksum_valid hdr (by omega) h0 with ⟨_, h⟩ | ⟨g, h1, _, h3, _, _, h5'⟩
  · rw [h] at hf; cases hf
  · rw [h1] at hf; injection hf with hf; subst hf
    obtain ⟨r', e1', _, e3'⟩ := ofp_cksum_iph_correct odd' hl h5 h15 g [] (by omega)
    rw [List.append_nil] at e1'
    rw [e1', e3'.mpr h5']

/-! ## C41: transport checksum -/

/-- **C41 (partial, same restriction on segment boundaries as C03).** For a packet whose IP header
(20 bytes or more, in the first segment) announces a datagram of `ipLen` bytes, `ofp_in4_cksum` returns
the RFC 1071 checksum of the pseudo header followed by the transport segment, i.e. the TCP/UDP checksum:
the value to store in a segment whose checksum field is zero, and 0 exactly for a valid one. -/
theorem ofp_in4_cksum_partial (al : Nat → Bool × Bool)
    (pre seg0 : List UInt8) (mid tail : List (List UInt8))
    (b0 b1 l0 l1 b4 b5 b6 b7 ttl proto c0 c1 s0 s1 s2 s3 d0 d1 d2 d3 : UInt8) (hl ipLen : Nat)
    (hhl : b0.toNat % 16 = hl) (hip : l0.toNat * 256 + l1.toNat = ipLen) (h5 : 5 ≤ hl)
    (first : List UInt8)
    (hfirst : first = pre ++ ([b0, b1, l0, l1, b4, b5, b6, b7, ttl, proto, c0, c1,
      s0, s1, s2, s3, d0, d1, d2, d3] ++ seg0))
    (hoff : 4 * hl ≤ ipLen) (hin : pre.length + 4 * hl < first.length)
    (h0 : first.length ≤ 262143)
    (hm : ∀ s ∈ mid, s ≠ [] ∧ s.length ≤ 262143) (hn : mid.length < 32767)
    (hb : (mid = [] ∧ pre.length + ipLen ≤ first.length) ∨
      first.length + mid.flatten.length = pre.length + ipLen) :
    ∃ r, in4Cksum al (first :: (mid ++ tail)) pre.length = .ok r ∧
      stored r = Spec.wireBytes (Spec.checksum
        (Spec.pseudoHeader [s0, s1, s2, s3] [d0, d1, d2, d3] proto (ipLen - 4 * hl) ++
          (((first :: (mid ++ tail)).flatten.drop (pre.length + 4 * hl)).take (ipLen - 4 * hl)))) := by
  have hl0 := l0.toNat_lt
  have hl1 := l1.toNat_lt
  have hv := cksum_val al first mid tail (pre.length + 4 * hl) (ipLen - 4 * hl) hin h0 hm hn
    (by rcases hb with ⟨h1, h2⟩ | h
        · left; exact ⟨h1, by omega⟩
        · right; left; omega)
  have hdrop : first.drop pre.length = [b0, b1, l0, l1, b4, b5, b6, b7, ttl, proto, c0, c1,
      s0, s1, s2, s3, d0, d1, d2, d3] ++ seg0 := by rw [hfirst]; simp
  unfold in4Cksum
  rw [List.headD_cons, hdrop]
  simp only [List.cons_append, hhl, hip]
  rw [show (ipLen + 2 ^ 32 - hl * 4) % 2 ^ 32 = ipLen - 4 * hl by omega,
    show (ipLen + 65536 - hl * 4) % 65536 = ipLen - 4 * hl by omega, Nat.mul_comm hl 4, hv]
  have hdata : ((first :: (mid ++ tail)).flatten.drop (pre.length + 4 * hl)).take (ipLen - 4 * hl) =
      ((first ++ mid.flatten).drop (pre.length + 4 * hl)).take (ipLen - 4 * hl) := by
    rw [List.flatten_cons, List.flatten_append, ← List.append_assoc,
      List.drop_append_of_le_length (by rw [List.length_append]; omega)]
    rw [List.take_append_of_le_length]
    rw [List.length_drop, List.length_append]
    rcases hb with ⟨rfl, h⟩ | h
    · omega
    · omega
  rw [hdata]
  generalize (((first ++ mid.flatten).drop (pre.length + 4 * hl)).take (ipLen - 4 * hl)) = data
  have hlen16 : ipLen - 4 * hl < 65536 := by omega
  generalize ipLen - 4 * hl = n at hlen16
  have hnl := norm_le (leSum data)
  refine ⟨_, rfl, ?_⟩
  have hp := proto.toNat_lt
  have g0 := s0.toNat_lt; have g1 := s1.toNat_lt; have g2 := s2.toNat_lt; have g3 := s3.toNat_lt
  have f0 := d0.toNat_lt; have f1 := d1.toNat_lt; have f2 := d2.toNat_lt; have f3 := d3.toNat_lt
  have hnot : not16 (65535 - norm (leSum data)) = norm (leSum data) := by unfold not16; omega
  have hps : leSum (Spec.pseudoHeader [s0, s1, s2, s3] [d0, d1, d2, d3] proto n ++ data) =
      proto.toNat * 256 + (n / 256 + n % 256 * 256) +
      (s0.toNat + s1.toNat * 256) + (s2.toNat + s3.toNat * 256) +
      (d0.toNat + d1.toNat * 256) + (d2.toNat + d3.toNat * 256) + leSum data := by
    simp only [Spec.pseudoHeader, Spec.be16, List.cons_append, List.nil_append, leSum,
      UInt8.toNat_ofNat']
    rw [show n / 256 % 2 ^ 8 = n / 256 by omega, show n % 256 % 2 ^ 8 = n % 256 by omega]
    have : (0 : UInt8).toNat = 0 := rfl
    omega
  have hR : R (proto.toNat * 256 + (n / 256 + n % 256 * 256) +
      (s0.toNat + s1.toNat * 256) + (s2.toNat + s3.toNat * 256) +
      (d0.toNat + d1.toNat * 256) + (d2.toNat + d3.toNat * 256) + norm (leSum data))
      (leSum (Spec.pseudoHeader [s0, s1, s2, s3] [d0, d1, d2, d3] proto n ++ data)) := by
    rw [hps]; exact (R.refl _).add (R_norm _)
  rw [hnot, reduce_eq_norm (by omega), norm_congr hR, not16_le (norm_le _), ← host_net,
    stored_swap (by omega)]

/-- Hypotheses are met by a UDP packet behind an Ethernet header, split in two segments. -/
example : ∃ r, in4Cksum (fun _ => (false, true))
    (([1, 2, 3, 4, 5, 6, 7, 8, 9, 10, 11, 12, 8, 0] ++ ([0x45, 0, 0, 30, 0, 0, 0, 0, 64, 17, 0, 0,
      10, 0, 0, 1, 10, 0, 0, 2] ++ [0, 53, 0, 54, 0, 10])) :: ([[0, 0, 0xab, 0xcd]] ++ [])) 14 = .ok r := by
  obtain ⟨r, h, _⟩ := ofp_in4_cksum_partial (fun _ => (false, true))
    [1, 2, 3, 4, 5, 6, 7, 8, 9, 10, 11, 12, 8, 0] [0, 53, 0, 54, 0, 10] [[0, 0, 0xab, 0xcd]] []
    0x45 0 0 30 0 0 0 0 64 17 0 0 10 0 0 1 10 0 0 2 5 30 (by decide) (by decide) (by decide) _ rfl
    (by decide) (by decide) (by decide) (by decide) (by decide) (by decide)
  exact ⟨r, h⟩

end Verif.Cksum

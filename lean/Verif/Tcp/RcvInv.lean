import Verif.Tcp.RcvProps
/-! # The receive path: invariants -/
namespace Verif.Tcp
open Verif.Sockbuf (Pkt)

/-- The largest receive window, `65535 << 14` rounded up. -/
abbrev W : Nat := 2 ^ 30

section
variable {b : BitVec 32} {P : Nat → QEnt → Prop}

/-- What processing one segment may do: present a gapless run of entries `pres` from `r` to `r1`, and take a FIN
after the last of them. -/
structure Out (b : BitVec 32) (P : Nat → QEnt → Prop) (s : Rcv) (r : Nat) (s' : Rcv) (r' : Nat) (pres : List QEnt)
    (fin : Bool) : Prop where
  nxt : s'.nxt = seqOf b r'
  le : r ≤ r'
  ch : Ch b P r' s'.segq (r' + W)
  buf : s'.buf = (pres.foldl (fun s q => s.append q.pkt) s).buf
  read : s'.readBytes = s.readBytes
  len : pres.length ≤ s.segq.length + 1
  contig : Contig b P r pres (if fin then r' - 1 else r')
  cant : s'.cantrcv = (s.cantrcv || fin)
  phase : if fin then s'.phase = .finRcvd else s'.phase = s.phase ∨ (s.phase = .synRcvd ∧ s'.phase = .open)
  last : fin = true → r < r' ∧ ∃ p e, pres = p ++ [e] ∧ e.fin = true

theorem buf_fold (l : List QEnt) : ∀ (s t : Rcv), s.buf = t.buf → s.cantrcv = t.cantrcv →
    (l.foldl (fun s q => s.append q.pkt) s).buf = (l.foldl (fun s q => s.append q.pkt) t).buf := by
  induction l with
  | nil => intro s t h _; exact h
  | cons q l ih =>
    intro s t h hc
    rw [List.foldl_cons, List.foldl_cons]
    apply ih
    · unfold Rcv.append Rcv.free
      rw [h, hc]
      split
      · rfl
      · split
        · rfl
        · rfl
    · rw [(append_segq s q.pkt).2.2.2.2.1, (append_segq t q.pkt).2.2.2.2.1, hc]

/-- Nothing presented. -/
theorem out_idle (s s' : Rcv) (r : Nat) (hn : s.nxt = seqOf b r) (hc : Ch b P r s.segq (r + W))
    (h1 : s'.nxt = s.nxt) (h2 : s'.segq = s.segq) (h3 : s'.buf = s.buf) (h4 : s'.readBytes = s.readBytes)
    (h5 : s'.cantrcv = s.cantrcv) (h6 : s'.phase = s.phase ∨ (s.phase = .synRcvd ∧ s'.phase = .open)) :
    Out b P s r s' r [] false :=
  ⟨h1.trans hn, Nat.le_refl _, h2 ▸ hc, h3, h4, by simp, rfl, by rw [h5]; simp, h6, by intro h; cases h⟩

theorem contig_le : ∀ {l : List QEnt} {r m : Nat}, Contig b P r l m → r ≤ m
  | [], r, m, h => by unfold Contig at h; omega
  | x :: xs, r, m, h => by
    unfold Contig at h
    have := contig_le h.2.2
    omega

/-- `present`. -/
theorem present_out (s : Rcv) (r hi : Nat) (hn : s.nxt = seqOf b r) (hc : Ch b P r s.segq hi) (hw : hi ≤ r + W) :
    ∃ r' pres, (present s).1.nxt = seqOf b r' ∧ r ≤ r' ∧ Ch b P r' (present s).1.segq hi ∧
      (present s).1.buf = (pres.foldl (fun s q => s.append q.pkt) s).buf ∧ (present s).1.readBytes = s.readBytes ∧
      pres.length ≤ s.segq.length ∧ Contig b P r pres r' ∧ (present s).1.cantrcv = s.cantrcv ∧
      (present s).1.phase = s.phase ∧
      ((present s).2 = true → Ch b P (r' + 1) (present s).1.segq (hi + 1) ∧ ∃ p e, pres = p ++ [e] ∧ e.fin = true) ∧
      (s.phase.est = true → ∀ p l m, s.segq = p ++ l → Contig b P r p m → m ≤ r') := by
  unfold present
  split
  · next hest =>
    exact ⟨r, [], hn, Nat.le_refl _, hc, rfl, rfl, Nat.zero_le _, rfl, rfl, rfl, (by intro h; cases h),
      fun h => by rw [hest] at h; cases h⟩
  · simp only
    have hw' : hi < r + 2 ^ 31 := by unfold W at hw; omega
    obtain ⟨r', k1, k2, k3, k4, k5⟩ := presentLoop_ch (P := P) false s.segq r hi hc hw'
    rw [← hn] at k1 k3 k4 k5
    obtain ⟨f1, f2, f3, _, f5, f6⟩ := fold_segq (presentLoop s.nxt false s.segq).2.2.1
      { s with nxt := (presentLoop s.nxt false s.segq).1, segq := (presentLoop s.nxt false s.segq).2.2.2,
               segqlen := s.segqlen - (presentLoop s.nxt false s.segq).2.2.1.length }
    refine ⟨r', (presentLoop s.nxt false s.segq).2.2.1, by rw [f2]; exact k1, k2, by rw [f1]; exact k4,
      buf_fold _ _ _ rfl rfl, f6, ?_, k3, f5, f3, ?_, ?_⟩
    rotate_left 2
    · intro _ p l m hpl hct
      have hcl := contig_ch p l r m hi hct (hpl ▸ hc) hw'
      obtain ⟨f', hf'⟩ := (presentLoop_contig p l false r m hct).2
      have hrm := contig_le hct
      obtain ⟨r2, j1, j2, _, j4, _⟩ := presentLoop_ch (P := P) f' l m hi hcl (by omega)
      rw [← hpl, ← hn, j1, k1] at hf'
      have := seqOf_inj b r' r2 (by have := k4.le; omega) (by have := j4.le; omega) hf'
      omega
    · have := congrArg List.length (presentLoop_split s.nxt false s.segq)
      rw [List.length_append] at this
      omega
    · intro hf
      refine ⟨?_, presentLoop_fin _ _ hf⟩
      rw [f1]
      simp only
      cases hl : (presentLoop s.nxt false s.segq).2.2.2 with
      | nil =>
        rw [hl] at k4
        unfold Ch at k4 ⊢
        omega
      | cons e es => exact (k5 e es hl).mono_hi (by omega)

/-- Shape of `ofp_tcp_reass`: the segment is dropped, or `present` runs on a queue that contains it. -/
theorem reass_shape (hP : Closed P) (c : Cfg) (s : Rcv) (r x tlen : Nat) (fin zone : Bool) (m : Pkt)
    (hn : s.nxt = seqOf b r) (hc : Ch b P r s.segq (r + W)) (hx : r ≤ x) (hx2 : x + tlen ≤ r + W)
    (hp : P x ⟨seqOf b x, tlen, fin, m, !zone⟩) :
    (reass c s (seqOf b x) tlen fin m zone = (s.free m, false) ∧ ¬ (x = r ∧ s.phase.est = true)) ∨
    ∃ t, reass c s (seqOf b x) tlen fin m zone = present t ∧ Ch b P r t.segq (r + W) ∧ t.nxt = s.nxt ∧
      t.phase = s.phase ∧ t.buf = s.buf ∧ t.cantrcv = s.cantrcv ∧ t.readBytes = s.readBytes ∧
      t.segq.length ≤ s.segq.length + 1 ∧ t.segqlen - t.segq.length = s.segqlen - s.segq.length ∧
      (x = r → ∃ p l m', t.segq = p ++ l ∧ Contig b P r p m' ∧ r + tlen ≤ m') ∧
      ((t.segq = s.segq) ∨
       ((zone = true ∨ (x = r ∧ s.phase.est = true)) ∧
        ((x = r ∧ s.phase.est = true) ∨ s.segqlen < (c.maxq : Int) + 1) ∧
        ∃ pre te post m', t.segq = pre ++ te :: post ∧ te.stack = !zone ∧ (∀ e ∈ pre, e ∈ s.segq) ∧
          post.length ≤ s.segq.length ∧
          ((∀ e ∈ s.segq, e.stack = false) → ∀ e ∈ post, e.stack = false) ∧
          (x = r → Contig b P r (pre ++ [te]) m'))) := by
  have hW : W = 2 ^ 30 := rfl
  unfold reass
  simp only
  have hmiss : (seqOf b x = s.nxt ∧ s.phase.est = true) ↔ (x = r ∧ s.phase.est = true) := by
    constructor
    · rintro ⟨h1, h2⟩
      rw [hn] at h1
      exact ⟨seqOf_inj b x r (by omega) (by omega) h1, h2⟩
    · rintro ⟨h1, h2⟩
      exact ⟨by rw [hn, h1], h2⟩
  split
  · next hh => rw [hmiss] at hh; exact Or.inl ⟨rfl, hh.1⟩
  next hlim =>
  split
  · next hh => rw [hmiss] at hh; exact Or.inl ⟨rfl, hh.2⟩
  next hzone =>
  right
  rw [hmiss] at hlim hzone
  obtain ⟨mid, k1, k2, k3, k4, k5, k6, k7⟩ := ch_split x s.segq r (r + W) hc hx (by omega) (by omega)
  have hov : overlap (s.segq.takeWhile fun e => !seqGT e.seq (seqOf b x)) (seqOf b x) =
      if (s.segq.takeWhile fun e => !seqGT e.seq (seqOf b x)) = [] then 0 else (mid : Int) - x := by
    unfold overlap
    cases hl : (s.segq.takeWhile fun e => !seqGT e.seq (seqOf b x)).getLast? with
    | none => rw [if_pos (List.getLast?_eq_none_iff.1 hl)]
    | some p =>
      rw [if_neg (by intro hh; rw [hh] at hl; cases hl)]
      simp only
      rw [k6 p hl, diff_eq b mid x (by omega) (by omega)]
  split
  · next hd =>
    rw [hov] at hd
    refine ⟨_, rfl, hc, rfl, rfl, rfl, rfl, rfl, by simp [Rcv.free], by simp only [Rcv.free]; rw [Int.add_sub_cancel], fun hxr => ?_, Or.inl rfl⟩
    refine ⟨s.segq.takeWhile fun e => !seqGT e.seq (seqOf b x), s.segq.dropWhile fun e => !seqGT e.seq (seqOf b x), mid,
      ?_, k7 hxr, ?_⟩
    · show s.segq = _
      exact List.takeWhile_append_dropWhile.symm
    · split at hd
      · omega
      · omega
  · next hdup =>
    rw [hov] at hdup ⊢
    have hk : ∀ kk : Int, kk = (if (s.segq.takeWhile fun e => !seqGT e.seq (seqOf b x)) = [] then 0 else (mid : Int) - x) →
        mid ≤ x + kk.toNat ∧ kk.toNat ≤ tlen ∧ (kk.toNat < tlen ∨ kk.toNat = 0) ∧ (x = r → x + kk.toNat = mid) := by
      intro kk hkk
      rw [← hkk] at hdup
      by_cases he : (s.segq.takeWhile fun e => !seqGT e.seq (seqOf b x)) = []
      · rw [if_pos he] at hkk
        have := k5 he
        omega
      · rw [if_neg he] at hkk
        omega
    generalize (if (s.segq.takeWhile fun e => !seqGT e.seq (seqOf b x)) = [] then 0 else (mid : Int) - x) = kk at hdup hk ⊢
    obtain ⟨q1, q2, q3, q4⟩ := hk kk rfl
    generalize kk.toNat = k at q1 q2 q3 q4 ⊢
    rw [seqOf_add, seqOf_add]
    have htr := trimSucc_ch (b := b) hP (x + k + (tlen - k)) _ mid (r + W) k2 (by omega) (by omega) (by omega) (by omega)
    have hte : P (x + k) ⟨seqOf b (x + k), tlen - k, fin, pull m k, !zone⟩ := by
      rcases q3 with h | h
      · have := hP x _ k hp h
        simp only [seqOf_add] at this
        exact this
      · subst h; simpa [pull] using hp
    have hlenpd := congrArg List.length (List.takeWhile_append_dropWhile (p := fun e => !seqGT e.seq (seqOf b x)) (l := s.segq))
    rw [List.length_append] at hlenpd
    have hlt := trimSucc_length (seqOf b (x + k + (tlen - k))) (s.segq.dropWhile fun e => !seqGT e.seq (seqOf b x))
    have hcontig : x = r → Contig b P r ((s.segq.takeWhile fun e => !seqGT e.seq (seqOf b x)) ++ [⟨seqOf b (x + k), tlen - k, fin, pull m k, !zone⟩]) (mid + (tlen - k)) := by
      intro hxr
      have hcg := k7 hxr
      have hmid := q4 hxr
      have app : ∀ (l : List QEnt) (lo : Nat), Contig b P lo l mid →
          Contig b P lo (l ++ [⟨seqOf b (x + k), tlen - k, fin, pull m k, !zone⟩]) (mid + (tlen - k)) := by
        intro l
        induction l with
        | nil =>
          intro lo h
          unfold Contig at h
          subst h
          rw [List.nil_append]
          unfold Contig Contig
          rw [hmid] at hte ⊢
          exact ⟨rfl, hte, rfl⟩
        | cons e es ih =>
          intro lo h
          unfold Contig at h
          rw [List.cons_append]
          unfold Contig
          exact ⟨h.1, h.2.1, ih _ h.2.2⟩
      exact app _ _ hcg
    refine ⟨_, rfl, ?_, rfl, rfl, rfl, rfl, rfl, ?_, ?_, fun hxr => ?_, Or.inr ⟨?_, ?_, _, _, _, mid + (tlen - k), rfl, rfl, ?_,
      by omega, ?_, ?_⟩⟩
    · refine k1.append ?_
      unfold Ch
      exact ⟨x + k, q1, rfl, hte, htr⟩
    · simp only [List.length_append, List.length_cons]; omega
    · simp only [List.length_append, List.length_cons]; omega
    · refine ⟨(s.segq.takeWhile fun e => !seqGT e.seq (seqOf b x)) ++ [⟨seqOf b (x + k), tlen - k, fin, pull m k, !zone⟩], _, _,
        (List.append_assoc _ [_] _).symm, hcontig hxr, ?_⟩
      have := q4 hxr
      omega
    · cases zone with
      | true => exact Or.inl rfl
      | false =>
        right
        exact Classical.byContradiction fun h => hzone ⟨rfl, h⟩
    · exact Classical.byContradiction fun h =>
        hlim ⟨fun hh => h (Or.inl hh), by have : ¬ s.segqlen < (c.maxq : Int) + 1 := fun hh => h (Or.inr hh); omega⟩
    · intro e he; exact (List.takeWhile_sublist _).subset he
    · intro hall e he
      exact trimSucc_stack _ _ (fun y hy => hall y ((List.dropWhile_sublist _).subset hy)) e he
    · exact hcontig

theorem finStep_out (s s1 : Rcv) (r r' : Nat) (pres : List QEnt) (h : Out b P s r s1 r' pres false)
    (hl : ∃ p e, pres = p ++ [e] ∧ e.fin = true) (hch : Ch b P (r' + 1) s1.segq (r' + 1 + W)) :
    Out b P s r (finStep s1) (r' + 1) pres true := by
  refine ⟨?_, by have := h.le; omega, hch, h.buf, h.read, h.len, ?_, by simp [finStep], rfl, fun _ => ⟨by have := h.le; omega, hl⟩⟩
  · show s1.nxt + 1 = _
    rw [h.nxt]; exact seqOf_add b r' 1
  · simpa using h.contig

/-- `dodata`: what it may do; data at `rcv_nxt` for which there is room are always presented. -/
theorem dodata_out (hP : Closed P) (c : Cfg) (s : Rcv) (r : Nat) (seq : BitVec 32) (tlen : Nat) (thfin hfin zone : Bool)
    (m : Pkt) (hn : s.nxt = seqOf b r) (hc : Ch b P r s.segq (r + W))
    (hx : tlen ≠ 0 ∨ thfin = true → ∃ x, seq = seqOf b x ∧ r ≤ x ∧ x + tlen ≤ r + W ∧
      ∀ st, P x ⟨seq, tlen, hfin, m, st⟩) :
    ∃ r' pres fin, Out b P s r (dodata c s seq tlen thfin hfin m zone) r' pres fin ∧
      (seq = s.nxt → tlen ≠ 0 → s.phase = .open → tlen ≤ s.space c → r + tlen ≤ if fin then r' - 1 else r') := by
  have hW : W = 2 ^ 30 := rfl
  have idle : ¬ (seq = s.nxt ∧ tlen ≠ 0 ∧ s.phase = .open ∧ tlen ≤ s.space c) →
      ∃ r' pres fin, Out b P s r (s.free m) r' pres fin ∧
      (seq = s.nxt → tlen ≠ 0 → s.phase = .open → tlen ≤ s.space c → r + tlen ≤ if fin then r' - 1 else r') :=
    fun hne => ⟨r, [], false, out_idle s _ r hn hc rfl rfl rfl rfl rfl (Or.inl rfl),
      fun h1 h2 h3 h4 => absurd ⟨h1, h2, h3, h4⟩ hne⟩
  unfold dodata
  split
  · next hf => exact idle (fun hh => by rw [hf.2] at hh; cases hh.2.2.1)
  split
  · next hne =>
    obtain ⟨x, rfl, hx1, hx2, hx3⟩ := hx hne
    split
    · split
      · next hfast =>
        have hxr : x = r := seqOf_inj b x r (by omega) (by omega) (hfast.1.trans hn)
        subst hxr
        simp only
        have a := append_segq { s with nxt := s.nxt + BitVec.ofNat 32 tlen } m
        have base : Out b P s x ({ s with nxt := s.nxt + BitVec.ofNat 32 tlen }.append m) (x + tlen)
            [⟨seqOf b x, tlen, hfin, m, false⟩] false := by
          refine ⟨?_, by omega, ?_, ?_, a.2.2.2.2.2, by simp, ?_, by rw [a.2.2.2.2.1]; simp, Or.inl a.2.2.1, by intro h; cases h⟩
          · rw [a.2.1]; simp only; rw [hn, seqOf_add]
          · rw [a.1]; simp only; rw [hfast.2.1]; unfold Ch; omega
          · rw [List.foldl_cons, List.foldl_nil]
            unfold Rcv.append Rcv.free
            split
            · rfl
            · split <;> rfl
          · simp only [Contig, if_neg Bool.false_ne_true, and_true, true_and]
            exact hx3 false
        split
        · next hf =>
          refine ⟨x + tlen + 1, _, true, finStep_out s _ x (x + tlen) _ base ⟨[], _, rfl, hf⟩ ?_, fun _ _ _ _ => by simp⟩
          rw [a.1]; simp only; rw [hfast.2.1]; unfold Ch; omega
        · exact ⟨x + tlen, _, false, base, fun _ _ _ _ => by simp⟩
      · simp only
        rcases reass_shape hP c s r x tlen hfin zone m hn hc hx1 hx2 (hx3 _) with ⟨he, hno⟩ | ⟨t, he, t1, t2, t3, t4, t5, t6, t7, _, t9, _⟩
        · rw [he]; simp only [Bool.false_eq_true, if_false]
          refine idle (fun hh => hno ⟨seqOf_inj b x r (by omega) (by omega) (hh.1.trans hn), by rw [hh.2.2.1]; rfl⟩)
        · rw [he]
          obtain ⟨r', pres, p1, p2, p3, p4, p5, p6, p7, p8, p9, p10, p11⟩ := present_out t r (r + W) (t2.trans hn) t1 (Nat.le_refl _)
          have base : Out b P s r (present t).1 r' pres false :=
            ⟨p1, p2, p3.mono_hi (by omega), by rw [p4]; exact buf_fold _ _ _ t4 t5, p5.trans t6, by omega, p7,
              by rw [p8, t5]; simp, Or.inl (p9.trans t3), by intro h; cases h⟩
          have prog : seqOf b x = s.nxt → s.phase = .open → r + tlen ≤ r' := by
            intro h1 h2
            obtain ⟨p, l, m', e1, e2, e3⟩ := t9 (seqOf_inj b x r (by omega) (by omega) (h1.trans hn))
            have := p11 (by rw [t3, h2]; rfl) p l m' e1 e2
            omega
          split
          · next hf =>
            obtain ⟨g1, g2⟩ := p10 hf
            exact ⟨r' + 1, pres, true, finStep_out s _ r r' pres base g2 (g1.mono_hi (by omega)),
              fun h1 _ h2 _ => by simpa using prog h1 h2⟩
          · exact ⟨r', pres, false, base, fun h1 _ h2 _ => by simpa using prog h1 h2⟩
    · next hsp => exact idle (fun hh => hsp hh.2.2.2)
  · next hz => exact idle (fun hh => hz (Or.inl hh.2.1))

theorem Out.of_open {s s' : Rcv} {r r' : Nat} {pres : List QEnt} {fin : Bool} (hph : s.phase = .synRcvd)
    (h : Out b P { s with phase := .open } r s' r' pres fin) : Out b P s r s' r' pres fin := by
  refine ⟨h.nxt, h.le, h.ch, h.buf.trans (buf_fold _ _ _ rfl rfl), h.read, h.len, h.contig, h.cant, ?_, h.last⟩
  have := h.phase
  cases fin with
  | true => exact this
  | false =>
    simp only [Bool.false_eq_true, if_false] at this ⊢
    rcases this with h1 | ⟨h1, _⟩
    · exact Or.inr ⟨hph, h1⟩
    · cases h1

theorem afterTrim_out (hP : Closed P) (c : Cfg) (s : Rcv) (r : Nat) (seq : BitVec 32) (tlen : Nat) (thfin hfin ack zone : Bool)
    (m : Pkt) (hn : s.nxt = seqOf b r) (hc : Ch b P r s.segq (r + W))
    (hx : tlen ≠ 0 ∨ thfin = true → ∃ x, seq = seqOf b x ∧ r ≤ x ∧ x + tlen ≤ r + W ∧
      ∀ st, P x ⟨seq, tlen, hfin, m, st⟩) :
    ∃ r' pres fin, Out b P s r (afterTrim c s seq tlen thfin hfin m ack zone) r' pres fin ∧
      (seq = s.nxt → tlen ≠ 0 → s.phase = .open → tlen ≤ s.space c → r + tlen ≤ if fin then r' - 1 else r') := by
  unfold afterTrim
  split
  · next hsy =>
    simp only
    have nop : ∀ {q : Prop}, s.phase = .open → q := fun h => by rw [hsy.1] at h; cases h
    split
    · obtain ⟨r', pres, p1, p2, p3, p4, p5, p6, p7, p8, p9, p10, _⟩ := present_out { s with phase := .open } r (r + W) hn hc (Nat.le_refl _)
      refine ⟨r', pres, false, Out.of_open hsy.1 ⟨p1, p2, p3.mono_hi (by omega), p4, p5, ?_, p7, by
        show (present { s with phase := .open }).1.cantrcv = _; rw [p8]; simp, Or.inl p9, by intro h; cases h⟩,
        fun _ _ h _ => nop h⟩
      simp only at p6 ⊢; omega
    · obtain ⟨r', pres, fin, h, _⟩ := dodata_out hP c { s with phase := .open } r seq tlen thfin hfin zone m hn hc hx
      exact ⟨r', pres, fin, h.of_open hsy.1, fun _ _ h _ => nop h⟩
  · exact dodata_out hP c s r seq tlen thfin hfin zone m hn hc hx

end

end Verif.Tcp

import Verif.Reass.Complete
/-!
# C20: the disjoint case
-/
namespace Verif.Reass

/-- `a` lies entirely before `b`. -/
def Before (a b : Frag) : Prop := a.end' ≤ b.off
def NonEmpty (f : Frag) : Prop := f.data ≠ []
/-- Fragments in order without overlap. -/
def Sorted (l : List Frag) : Prop := l.Pairwise Before
def Disj (a b : Frag) : Prop := Before a b ∨ Before b a

theorem len_pos {f : Frag} (h : NonEmpty f) : 0 < f.data.length := List.length_pos_iff.2 h

theorem trimAfter_sorted : ∀ (l : List Frag) (p : Frag), Sorted (p :: l) → trimAfter p l = (l, 0) := by
  intro l
  induction l with
  | nil => intro p _; rfl
  | cons f l ih =>
    intro p h
    have h' := List.pairwise_cons.1 h
    have hpf : p.end' ≤ f.off := h'.1 f (List.mem_cons_self ..)
    unfold trimAfter
    rw [if_neg (by omega)]
    simp only [ih f h'.2]

theorem split_spec {p : Frag} : ∀ {l : List Frag}, Sorted l → (∀ f ∈ l, NonEmpty f) → NonEmpty p →
    (∀ f ∈ l, Disj p f) → (∀ f ∈ (split p.off l).1, Before f p) ∧ (∀ f ∈ (split p.off l).2, Before p f) := by
  intro l
  induction l with
  | nil => intros; simp [split]
  | cons a l ih =>
    intro hs hne hp hd
    have hs' := List.pairwise_cons.1 hs
    have hda := hd a (List.mem_cons_self ..)
    have hpl := len_pos hp
    have hal := len_pos (hne a (List.mem_cons_self ..))
    unfold split
    by_cases h : p.off ≤ a.off
    · rw [if_pos h]
      refine ⟨by simp, fun f hf => ?_⟩
      have hpa : Before p a := by
        rcases hda with h1 | h1
        · exact h1
        · exfalso; unfold Before Frag.end' at h1; omega
      rcases List.mem_cons.1 hf with rfl | hf
      · exact hpa
      · have := hs'.1 f hf
        unfold Before Frag.end' at *
        omega
    · rw [if_neg h]
      obtain ⟨i1, i2⟩ := ih hs'.2 (fun f hf => hne f (List.mem_cons_of_mem _ hf)) hp
        (fun f hf => hd f (List.mem_cons_of_mem _ hf))
      refine ⟨fun f hf => ?_, i2⟩
      rcases List.mem_cons.1 hf with rfl | hf
      · rcases hda with h1 | h1
        · exfalso; unfold Before Frag.end' at h1; omega
        · exact h1
      · exact i1 f hf

/-- Inserting a fragment that overlaps nothing. -/
theorem insert_disjoint {c : Chain} {p : Frag} {t j : UInt8} (hs : Sorted c.frags) (hne : ∀ f ∈ c.frags, NonEmpty f)
    (hp : NonEmpty p) (hd : ∀ f ∈ c.frags, Disj p f) :
    ∃ c', insert c p t j = some c' ∧ Sorted c'.frags ∧ c'.frags.Perm (p :: c.frags) ∧ c'.nfrags = c.nfrags + 1 ∧
      (c'.qttl = j ∨ (c.qttl ≤ c'.qttl)) := by
  obtain ⟨h1, h2⟩ := split_spec hs hne hp hd
  have happ := split_append p.off c.frags
  have hsort : Sorted ((split p.off c.frags).1 ++ p :: (split p.off c.frags).2) := by
    rw [← happ] at hs
    obtain ⟨s1, s2, s3⟩ := List.pairwise_append.1 hs
    refine List.pairwise_append.2 ⟨s1, List.pairwise_cons.2 ⟨h2, s2⟩, fun a ha b hb => ?_⟩
    rcases List.mem_cons.1 hb with rfl | hb
    · exact h1 a ha
    · exact s3 a ha b hb
  have hperm : ((split p.off c.frags).1 ++ p :: (split p.off c.frags).2).Perm (p :: c.frags) := by
    conv => rhs; rw [← happ]
    exact List.perm_middle
  have hq : c.qttl ≤ (if t > c.qttl then t else c.qttl) := by
    split
    · next h => exact UInt8.le_of_lt h
    · exact UInt8.le_refl _
  unfold insert
  simp only
  cases he : (split p.off c.frags).2 with
  | nil =>
    rw [he] at hsort hperm
    exact ⟨_, rfl, hsort, hperm, rfl, Or.inr hq⟩
  | cons f l =>
    rw [he] at hsort hperm
    have htrim : trimAfter p (f :: l) = (f :: l, 0) :=
      trimAfter_sorted _ _ (List.pairwise_append.1 hsort).2.1
    simp only [htrim]
    cases hg : (split p.off c.frags).1.getLast? with
    | none =>
      have h0 : (split p.off c.frags).1 = [] := List.getLast?_eq_none_iff.1 hg
      rw [h0] at hsort hperm
      exact ⟨_, rfl, hsort, hperm, by simp, Or.inl rfl⟩
    | some prev =>
      have hb : Before prev p := h1 prev (List.mem_of_getLast? hg)
      simp only
      rw [if_neg (by unfold Before at hb; omega)]
      exact ⟨_, rfl, hsort, hperm, by simp, Or.inr hq⟩

theorem sorted_unique : ∀ {l l' : List Frag}, Sorted l → Sorted l' → (∀ f ∈ l, NonEmpty f) → l.Perm l' → l = l' := by
  intro l
  induction l with
  | nil => intro l' _ _ _ hp; exact (List.nil_perm.1 hp).symm
  | cons a l ih =>
    intro l' hs hs' hne hp
    cases l' with
    | nil => exact absurd hp.length_eq (by simp)
    | cons b l' =>
      have h1 := List.pairwise_cons.1 hs
      have h2 := List.pairwise_cons.1 hs'
      have hab : a = b := by
        have ha : a ∈ b :: l' := hp.subset (List.mem_cons_self ..)
        have hb : b ∈ a :: l := hp.symm.subset (List.mem_cons_self ..)
        rcases List.mem_cons.1 ha with h | ha
        · exact h
        rcases List.mem_cons.1 hb with h | hb
        · exact h.symm
        have x := h1.1 b hb
        have y := h2.1 a ha
        have z := len_pos (hne a (List.mem_cons_self ..))
        unfold Before Frag.end' at x y
        omega
      subst hab
      congr 1
      exact ih h1.2 h2.2 (fun f hf => hne f (List.mem_cons_of_mem _ hf)) (List.perm_cons a |>.1 hp)

/-! ## A cut -/

theorem cut_ne {k : Key} {o : Nat} {D : List UInt8} {ps : List Pkt} (h : CutFrom k o D ps) : ps ≠ [] := by
  intro h0; subst h0; exact h

/-- Facts about the pieces of a cut. -/
theorem cut_facts {k : Key} : ∀ {ps : List Pkt} {o : Nat} {D : List UInt8}, CutFrom k o D ps →
    (∀ p ∈ ps, p.key = k ∧ p.data ≠ [] ∧ malformed p = false ∧ o ≤ p.off * 8) ∧
    Sorted (ps.map Pkt.frag) ∧ contig o (ps.map Pkt.frag) = some (o + D.length) ∧
    lastMf (ps.map Pkt.frag) = false ∧ payload (ps.map Pkt.frag) = D ∧
    (∀ E : List UInt8, E.length = o → ∀ p ∈ ps, IsFragOf (E ++ D) p) := by
  intro ps
  induction ps with
  | nil => intro o D h; exact absurd rfl (cut_ne h)
  | cons p ps ih =>
    intro o D h
    cases ps with
    | nil =>
      obtain ⟨h1, h2, h3, h4, h5⟩ := h
      refine ⟨?_, ?_, ?_, ?_, ?_, ?_⟩
      · intro q hq
        simp only [List.mem_singleton] at hq
        subst hq
        refine ⟨h1, by rw [h4]; exact h5, ?_, by omega⟩
        unfold malformed; rw [h3]; rfl
      · simp [Sorted]
      · simp [contig, Pkt.frag, h2, h4]
      · simp [lastMf, Pkt.frag, h3]
      · simp [payload, Pkt.frag, h4]
      · intro E hE q hq
        simp only [List.mem_singleton] at hq
        subst hq
        unfold IsFragOf Slice
        rw [h2, h4, ← hE]
        refine ⟨by simp, by simp, fun _ => by simp⟩
    | cons q ps =>
      obtain ⟨h1, h2, h3, h4, h5, D', h6, h7⟩ := h
      obtain ⟨i1, i2, i3, i4, i5, i6⟩ := ih h7
      refine ⟨?_, ?_, ?_, ?_, ?_, ?_⟩
      · intro x hx
        rcases List.mem_cons.1 hx with rfl | hx
        · refine ⟨h1, h5, ?_, by omega⟩
          unfold malformed
          rw [h3, h4]
          simpa using h5
        · obtain ⟨a, b, c, d⟩ := i1 x hx
          exact ⟨a, b, c, by omega⟩
      · refine List.pairwise_cons.2 ⟨fun f hf => ?_, i2⟩
        obtain ⟨x, hx, rfl⟩ := List.mem_map.1 hf
        have := (i1 x hx).2.2.2
        show p.off * 8 + p.data.length ≤ x.off * 8
        omega
      · show contig o (p.frag :: (q :: ps).map Pkt.frag) = _
        unfold contig
        rw [if_neg (by simpa [Pkt.frag] using h2)]
        show contig (o + p.data.length) _ = _
        rw [i3, h6]
        simp [Nat.add_assoc]
      · show lastMf (p.frag :: q.frag :: ps.map Pkt.frag) = false
        simpa [lastMf, List.getLast?_cons] using i4
      · show p.data ++ payload ((q :: ps).map Pkt.frag) = D
        rw [i5, h6]
      · intro E hE x hx
        rcases List.mem_cons.1 hx with rfl | hx
        · unfold IsFragOf Slice
          rw [h2, h6, h3, ← hE]
          refine ⟨by simp, by simp, by simp⟩
        · have := i6 (E ++ p.data) (by simp [hE]) x hx
          rw [h6, ← List.append_assoc]
          exact this

theorem payload_length (l : List Frag) : (payload l).length = (l.map (fun f => f.data.length)).sum := by
  induction l with
  | nil => rfl
  | cons f l ih => simp [payload] at ih ⊢

theorem sum_perm {l l' : List Frag} (h : l.Perm l') :
    (l.map (fun f => f.data.length)).sum = (l'.map (fun f => f.data.length)).sum :=
  (h.map _).sum_nat

/-! ## The main invariant -/

/-- Number of timer ticks in a history. -/
def ticks : List Op → Nat
  | [] => 0
  | .tick :: l => ticks l + 1
  | .recv _ :: l => ticks l

/-- The packets of key `k`. -/
def ofKey (k : Key) (l : List Pkt) : List Pkt := l.filter (fun p => p.key = k)

/-- The queue of `k` holds exactly the fragments of `R`, in order. -/
def Holds (oc : Option Chain) (R : List Pkt) (t : Nat) : Prop :=
  match R with
  | [] => oc = none
  | R => ∃ c, oc = some c ∧ Sorted c.frags ∧ c.frags.Perm (R.map Pkt.frag) ∧ c.nfrags.toNat = R.length ∧
      t < c.qttl.toNat

theorem holds_cons {oc : Option Chain} {r : Pkt} {R : List Pkt} {t : Nat} : Holds oc (r :: R) t ↔
    ∃ c, oc = some c ∧ Sorted c.frags ∧ c.frags.Perm ((r :: R).map Pkt.frag) ∧ c.nfrags.toNat = (r :: R).length ∧
      t < c.qttl.toNat := Iff.rfl

structure Setting (k : Key) (D : List UInt8) (ps : List Pkt) : Prop where
  cut : CutFrom k 0 D ps
  few : ps.length ≤ 17
  fits : ∀ p ∈ ps, 20 + p.opts.length + D.length ≤ 65535

theorem disj_of_cut {k : Key} {o : Nat} {D : List UInt8} {ps : List Pkt} (h : CutFrom k o D ps) {l : List Pkt}
    (hl : l.Perm ps) : (l.map Pkt.frag).Pairwise Disj := by
  have h2 : (ps.map Pkt.frag).Pairwise Disj := (cut_facts h).2.1.imp (fun hab => Or.inl hab)
  exact ((hl.map Pkt.frag).pairwise_iff (fun {a b} hab => hab.symm)).2 h2

theorem malformed_congr {p q : Pkt} (h : p.frag = q.frag) : malformed p = malformed q := by
  unfold malformed
  rw [show p.mf = q.mf from congrArg Frag.mf h, show p.data = q.data from congrArg Frag.data h]

theorem local_arrival {k : Key} {D : List UInt8} {ps : List Pkt} (S : Setting k D ps) {R rest : List Pkt} {p p0 : Pkt}
    (h0 : p.frag = p0.frag) (hperm : (p0 :: R ++ rest).Perm ps) {oc : Option Chain} {t : Nat} (ht : t < 15) (hj : t < p.junk.toNat)
    (h : Holds oc R t) :
    (rest ≠ [] → Holds (localStep oc p).1 (p0 :: R) t ∧ (localStep oc p).2 = .nothing) ∧
    (rest = [] → R ≠ [] → (localStep oc p).1 = none ∧
      ∃ f0 ∈ ps, f0.off = 0 ∧ (localStep oc p).2 = .pkt ⟨k, f0.opts, f0.ttl, 20 + f0.opts.length + D.length, D⟩) := by
  obtain ⟨F1, F2, F3, F4, F5, F6⟩ := cut_facts S.cut
  have F6 : ∀ p ∈ ps, IsFragOf D p := fun p hp => by simpa using F6 [] rfl p hp
  have hpin : p0 ∈ ps := hperm.subset (by simp)
  have hopts : p.opts = p0.opts := congrArg Frag.opts h0
  have hRin : ∀ x ∈ R, x ∈ ps := fun x hx => hperm.subset (by simp [hx])
  have hm : malformed p = false := (malformed_congr h0).trans (F1 p0 hpin).2.2.1
  have hlen : R.length + 1 + rest.length = ps.length := by
    have := hperm.length_eq; simp at this; omega
  have hdis := disj_of_cut S.cut hperm
  cases R with
  | nil =>
    have h : oc = none := h
    subst h
    refine ⟨fun _ => ?_, fun _ h0 => absurd rfl h0⟩
    unfold localStep
    simp only [hm]
    refine ⟨⟨_, rfl, ?_, ?_, ?_, ?_⟩, rfl⟩
    · simp [Sorted]
    · simp [h0]
    · rfl
    · show t < (if p.ttl < 15 then (15 : UInt8) else p.ttl).toNat
      split
      · show t < 15
        exact ht
      · next h15 =>
        have : ¬ p.ttl.toNat < 15 := by
          intro h; exact h15 (UInt8.lt_iff_toNat_lt.2 h)
        omega
  | cons r R =>
    obtain ⟨c, rfl, hso, hpe, hnf, hq⟩ := holds_cons.1 h
    have hne : ∀ f ∈ c.frags, NonEmpty f := by
      intro f hf
      obtain ⟨x, hx, rfl⟩ := List.mem_map.1 (hpe.subset hf)
      exact (F1 x (hRin x hx)).2.1
    have hdp : ∀ f ∈ c.frags, Disj p.frag f := by
      intro f hf
      rw [h0]
      have hdis' : ((p0 :: (r :: R ++ rest)).map Pkt.frag).Pairwise Disj := hdis
      rw [List.map_cons, List.pairwise_cons] at hdis'
      refine hdis'.1 f ?_
      rw [List.map_append]
      exact List.mem_append_left _ (hpe.subset hf)
    obtain ⟨c', hi, s', pe', nf', q'⟩ := insert_disjoint (p := p.frag) (t := p.ttl) (j := p.junk) hso hne
      (by rw [h0]; exact (F1 p0 hpin).2.1) hdp
    have pe2 : c'.frags.Perm ((p0 :: r :: R).map Pkt.frag) := by
      rw [h0] at pe'; exact pe'.trans (hpe.cons _)
    have nf2 : c'.nfrags.toNat = (p0 :: r :: R).length := by
      rw [nf', UInt8.toNat_add, hnf]
      have := S.few
      simp only [List.length_cons] at hlen ⊢
      show (_ + 1) % 256 = _
      omega
    have q2 : t < c'.qttl.toNat := by
      rcases q' with h | h
      · rw [h]; exact hj
      · have := UInt8.le_iff_toNat_le.1 h; omega
    have hsl : ∀ f ∈ c'.frags, Slice D f.off f.data f.mf := by
      intro f hf
      obtain ⟨x, hx, rfl⟩ := List.mem_map.1 (pe2.subset hf)
      exact F6 x (hperm.subset (List.mem_append_left _ hx))
    have hsum : (payload c'.frags).length + ((rest.map Pkt.frag).map (fun f => f.data.length)).sum = D.length := by
      rw [payload_length, sum_perm pe2, ← List.sum_append, ← List.map_append, ← List.map_append]
      rw [sum_perm (hperm.map Pkt.frag), ← payload_length, F5]
    unfold localStep
    simp only [hm, hi]
    constructor
    · intro hrest
      have hsumpos : 0 < ((rest.map Pkt.frag).map (fun f => f.data.length)).sum := by
        cases rest with
        | nil => exact absurd rfl hrest
        | cons x rest =>
          have := List.length_pos_iff.2 (F1 x (hperm.subset (by simp))).2.1
          simp [Pkt.frag]
          omega
      have hck : check c' (20 + p.opts.length) = .keep := by
        have hlim : ¬ c'.nfrags.toNat > maxfrags := by
          rw [nf2]
          have := S.few
          have := List.length_pos_iff.2 hrest
          simp only [List.length_cons] at hlen ⊢
          unfold maxfrags
          omega
        unfold check
        simp only [if_neg hlim]
        split
        · rfl
        · rfl
        · next n f l hcg hfr =>
          obtain ⟨_, hle, hpay, hend⟩ := contig_payload D c'.frags 0 n (by omega) hsl hcg
          split
          · rfl
          · next hmf =>
            have hn := hend (by rw [hfr]; simp) (by simpa using hmf)
            rw [hpay, hn, Nat.sub_zero, List.drop_zero, List.take_length] at hsum
            omega
      rw [hck]
      exact ⟨holds_cons.2 ⟨c', rfl, s', pe2, nf2, q2⟩, rfl⟩
    · intro hrest _
      subst hrest
      have heq : c'.frags = ps.map Pkt.frag := by
        refine sorted_unique s' F2 ?_ ?_
        · intro f hf
          obtain ⟨x, hx, rfl⟩ := List.mem_map.1 (pe2.subset hf)
          exact (F1 x (hperm.subset (List.mem_append_left _ hx))).2.1
        · refine pe2.trans ?_
          have := hperm.map Pkt.frag
          simpa using this
      obtain ⟨f0, ps', rfl⟩ := List.exists_cons_of_ne_nil (cut_ne S.cut)
      have hf0 : f0.off = 0 := by
        have hc := F3
        rw [List.map_cons] at hc
        unfold contig at hc
        split at hc
        · cases hc
        · next h =>
          have h : f0.off * 8 = 0 := by simpa [Pkt.frag] using h
          omega
      have hck : check c' (20 + p.opts.length) =
          .done ⟨k, f0.opts, f0.ttl, 20 + f0.opts.length + D.length, D⟩ := by
        unfold check
        simp only [heq, F3, F4, F5]
        have hfit := S.fits p0 hpin
        rw [← hopts] at hfit
        have hfit0 := S.fits f0 (by simp)
        rw [List.map_cons]
        simp only [Nat.zero_add]
        rw [if_neg (by simp), if_neg (by omega)]
        show Verdict.done ⟨f0.key, f0.opts, f0.ttl, (20 + f0.opts.length + D.length) % 65536, D⟩ = _
        rw [Nat.mod_eq_of_lt (by omega), (F1 f0 (by simp)).1]
      rw [hck]
      exact ⟨rfl, f0, by simp, hf0, rfl⟩

/-- The queue of `k` while part of the fragments has arrived. -/
theorem run_partial {k : Key} {D : List UInt8} {ps : List Pkt} (S : Setting k D ps) (B : Nat) (hB : B ≤ 15)
    (hj : ∀ p ∈ ps, B ≤ p.junk.toNat) :
    ∀ (ops : List Op) (s : St) (R rest : List Pkt), WF s → (R ++ ofKey k (pkts ops) ++ rest).Perm ps → rest ≠ [] →
    (∀ p ∈ pkts ops, p.room = true) → s.nipq + (pkts ops).length ≤ maxnipq + 1 → (T : Nat) → ticks ops + T < B →
    Holds (chainOf s k) R (ticks ops + T) →
    Holds (chainOf (run s ops).1 k) ((ofKey k (pkts ops)).reverse ++ R) T ∧
    (∀ d ∈ delivered (run s ops).2, d.key ≠ k) ∧ (run s ops).1.nipq ≤ s.nipq + (pkts ops).length := by
  intro ops
  induction ops with
  | nil =>
    intro s R rest w _ _ _ _ T _ h
    simp only [ticks, Nat.zero_add] at h
    exact ⟨by simpa [pkts, ofKey, run] using h, by simp [run, delivered], by simp [run, pkts]⟩
  | cons o ops ih =>
    intro s R rest w hperm hrest hroom hnip T hT h
    cases o with
    | tick =>
      obtain ⟨w', hage⟩ := tick_wf w
      refine ih (tick s) R rest w' hperm hrest hroom hnip T (by simp only [ticks] at hT; omega) ?_
      rw [hage]
      cases R with
      | nil =>
        have h : chainOf s k = none := h
        rw [h]; rfl
      | cons r R =>
        obtain ⟨c, hc, h1, h2, h3, h4⟩ := holds_cons.1 h
        rw [hc]
        have e : (c.qttl - 1).toNat = c.qttl.toNat - 1 :=
          UInt8.toNat_sub_of_le _ _ (UInt8.le_iff_toNat_le.2 (by show 1 ≤ _; omega))
        simp only [ticks] at h4
        have hne : c.qttl - 1 ≠ 0 := by
          intro h0
          have h0 := congrArg UInt8.toNat h0
          rw [e] at h0
          have : c.qttl.toNat - 1 = 0 := h0
          omega
        refine holds_cons.2 ⟨{ c with qttl := c.qttl - 1 }, ?_, h1, h2, h3, ?_⟩
        · show ageChain c = _
          unfold ageChain
          rw [if_neg hne]
        · show _ < (c.qttl - 1).toNat
          rw [e]; omega
    | recv p =>
      have hn : s.nipq ≤ maxnipq := by simp only [pkts, List.length_cons] at hnip; omega
      have hr : p.room = true := hroom p (List.mem_cons_self ..)
      obtain ⟨w', e1, e2, e3, e4⟩ := reass_local w hn hr
      have hnip' : (reass s p).1.nipq + (pkts ops).length ≤ maxnipq + 1 := by
        simp only [pkts, List.length_cons] at hnip; omega
      have hroom' : ∀ p ∈ pkts ops, p.room = true := fun q hq => hroom q (List.mem_cons_of_mem _ hq)
      have hd : delivered (run s (.recv p :: ops)).2 = delivered ((reass s p).2 :: (run (reass s p).1 ops).2) := rfl
      have hnn : ∀ x : Int, x ≤ (reass s p).1.nipq + (pkts ops).length → x ≤ s.nipq + (pkts (.recv p :: ops)).length := by
        intro x hx
        simp only [pkts, List.length_cons]
        omega
      by_cases hpk : p.key = k
      · have hof : ofKey k (pkts (.recv p :: ops)) = p :: ofKey k (pkts ops) := by
          simp [ofKey, pkts, hpk]
        rw [hof] at hperm ⊢
        have hperm' : ((p :: R) ++ (ofKey k (pkts ops) ++ rest)).Perm ps := by
          refine List.Perm.trans ?_ hperm
          rw [List.append_assoc]
          exact (List.perm_middle).symm
        have hpin : p ∈ ps := hperm'.subset (by simp)
        simp only [ticks] at hT h
        have hla := (local_arrival S rfl hperm' (t := ticks ops + T) (by omega)
          (by have := hj p hpin; omega) h).1 (by simp [hrest])
        rw [hpk] at e1 e2
        rw [← e1] at hla
        obtain ⟨i1, i2, i3⟩ := ih (reass s p).1 (p :: R) rest w' (by
          refine List.Perm.trans ?_ hperm'; simp) hrest hroom' hnip' T (by omega) hla.1
        refine ⟨?_, ?_, hnn _ i3⟩
        · rw [List.reverse_cons, List.append_assoc]
          exact i1
        · rw [hd, e2, hla.2]
          exact i2
      · have hof : ofKey k (pkts (.recv p :: ops)) = ofKey k (pkts ops) := by
          simp [ofKey, pkts, hpk]
        rw [hof] at hperm ⊢
        have h' : Holds (chainOf (reass s p).1 k) R (ticks ops + T) := by
          rw [e3 k (Ne.symm hpk)]; exact h
        obtain ⟨i1, i2, i3⟩ := ih (reass s p).1 R rest w' hperm hrest hroom' hnip' T hT h'
        refine ⟨i1, ?_, hnn _ i3⟩
        rw [hd]
        cases ho : (reass s p).2 with
        | nothing => exact i2
        | unlockUnheld => exact i2
        | pkt d =>
          intro d' hd'
          rcases List.mem_cons.1 hd' with rfl | hd'
          · obtain ⟨c, hc, c', hck, hci, hdone⟩ := reass_out ho
            obtain ⟨f, l, n, hfr, _, _, _, rfl⟩ := check_done hdone
            obtain ⟨w2, k2⟩ := insert_key ((w _).1 c hc) hck hci
            have : f.key = p.key := by
              unfold Chain.key? at k2
              rw [hfr] at k2
              simpa [Pkt.frag] using k2
            show f.key ≠ k
            rw [this]; exact hpk
          · exact i2 d' hd'

/-! ## Duplicates -/

/-- Inserting a second copy of a stored fragment changes nothing. -/
theorem insert_dup {c : Chain} {p : Frag} {t j : UInt8} (hs : Sorted c.frags) (hne : ∀ f ∈ c.frags, NonEmpty f)
    (hp : p ∈ c.frags) : ∃ c', insert c p t j = some c' ∧ c'.frags = c.frags ∧ c'.nfrags = c.nfrags ∧
      (c'.qttl = j ∨ c.qttl ≤ c'.qttl) := by
  have hq : c.qttl ≤ (if t > c.qttl then t else c.qttl) := by
    split
    · next h => exact UInt8.le_of_lt h
    · exact UInt8.le_refl _
  obtain ⟨a, b, hab⟩ := List.append_of_mem hp
  have hpl := len_pos (hne p hp)
  have hs' := hs
  rw [hab] at hs'
  have s2 := (List.pairwise_append.1 hs').2.1
  have s3 := (List.pairwise_append.1 hs').2.2
  have hsplit : split p.off c.frags = (a, p :: b) := by
    rw [hab]
    have ha : ∀ f ∈ a, f.off < p.off := by
      intro f hf
      have h1 := s3 f hf p (List.mem_cons_self ..)
      have h2 := len_pos (hne f (by rw [hab]; exact List.mem_append_left _ hf))
      unfold Before Frag.end' at h1
      omega
    clear hab hs' s2 s3
    induction a with
    | nil => simp [split]
    | cons f a ih =>
      rw [List.cons_append]
      unfold split
      rw [if_neg (by have := ha f (List.mem_cons_self ..); omega), ih (fun f hf => ha f (List.mem_cons_of_mem _ hf))]
  have htrim : trimAfter p (p :: b) = (b, 1) := by
    unfold trimAfter
    rw [if_pos (by unfold Frag.end'; omega), if_pos (by unfold Frag.end'; omega)]
    simp only [trimAfter_sorted b p s2]
  have hn : c.nfrags + 1 - UInt8.ofNat 1 = c.nfrags := UInt8.add_sub_cancel _ _
  unfold insert
  simp only [hsplit, htrim]
  cases hg : a.getLast? with
  | none =>
    have h0 : a = [] := List.getLast?_eq_none_iff.1 hg
    subst h0
    exact ⟨_, rfl, by rw [hab]; rfl, hn, Or.inl rfl⟩
  | some prev =>
    have hb : Before prev p := s3 prev (List.mem_of_getLast? hg) p (List.mem_cons_self ..)
    simp only
    rw [if_neg (by unfold Before at hb; omega)]
    exact ⟨_, rfl, by rw [hab], hn, Or.inr hq⟩

theorem local_dup {k : Key} {D : List UInt8} {ps : List Pkt} (S : Setting k D ps) {R rest : List Pkt} {p p0 : Pkt}
    (h0 : p.frag = p0.frag) (hp0 : p0 ∈ R) (hperm : (R ++ rest).Perm ps) (hrest : rest ≠ []) {oc : Option Chain}
    {t : Nat} (hj : t < p.junk.toNat) (h : Holds oc R t) :
    Holds (localStep oc p).1 R t ∧ (localStep oc p).2 = .nothing := by
  obtain ⟨F1, F2, F3, F4, F5, F6⟩ := cut_facts S.cut
  have F6 : ∀ p ∈ ps, IsFragOf D p := fun p hp => by simpa using F6 [] rfl p hp
  have hRin : ∀ x ∈ R, x ∈ ps := fun x hx => hperm.subset (by simp [hx])
  have hm : malformed p = false := (malformed_congr h0).trans (F1 p0 (hRin p0 hp0)).2.2.1
  cases R with
  | nil => cases hp0
  | cons r R =>
    obtain ⟨c, rfl, hso, hpe, hnf, hq⟩ := holds_cons.1 h
    have hne : ∀ f ∈ c.frags, NonEmpty f := by
      intro f hf
      obtain ⟨x, hx, rfl⟩ := List.mem_map.1 (hpe.subset hf)
      exact (F1 x (hRin x hx)).2.1
    have hpc : p.frag ∈ c.frags := by
      rw [h0]
      exact hpe.symm.subset (List.mem_map_of_mem hp0)
    obtain ⟨c', hi, e1, e2, e3⟩ := insert_dup (t := p.ttl) (j := p.junk) hso hne hpc
    have hlen : (r :: R).length + rest.length = ps.length := by
      have := hperm.length_eq; simp only [List.length_append] at this; exact this
    have hck : check c' (20 + p.opts.length) = .keep := by
      have hlim : ¬ c'.nfrags.toNat > maxfrags := by
        rw [e2, hnf]
        have := S.few
        have := List.length_pos_iff.2 hrest
        unfold maxfrags
        omega
      have hsumpos : 0 < ((rest.map Pkt.frag).map (fun f => f.data.length)).sum := by
        cases rest with
        | nil => exact absurd rfl hrest
        | cons x rest =>
          have := List.length_pos_iff.2 (F1 x (hperm.subset (by simp))).2.1
          simp [Pkt.frag]
          omega
      have hsum : (payload c'.frags).length + ((rest.map Pkt.frag).map (fun f => f.data.length)).sum = D.length := by
        rw [e1, payload_length, sum_perm hpe, ← List.sum_append, ← List.map_append, ← List.map_append]
        rw [sum_perm (hperm.map Pkt.frag), ← payload_length, F5]
      have hsl : ∀ f ∈ c'.frags, Slice D f.off f.data f.mf := by
        intro f hf
        rw [e1] at hf
        obtain ⟨x, hx, rfl⟩ := List.mem_map.1 (hpe.subset hf)
        exact F6 x (hRin x hx)
      unfold check
      simp only [if_neg hlim]
      split
      · rfl
      · rfl
      · next n f l hcg hfr =>
        obtain ⟨_, hle, hpay, hend⟩ := contig_payload D c'.frags 0 n (by omega) hsl hcg
        split
        · rfl
        · next hmf =>
          have hn := hend (by rw [hfr]; simp) (by simpa using hmf)
          rw [hpay, hn, Nat.sub_zero, List.drop_zero, List.take_length] at hsum
          omega
    unfold localStep
    simp only [hm, hi]
    rw [if_neg (by simp), hck]
    refine ⟨holds_cons.2 ⟨c', rfl, by rw [e1]; exact hso, by rw [e1]; exact hpe, by rw [e2]; exact hnf, ?_⟩, rfl⟩
    rcases e3 with h | h
    · rw [h]; exact hj
    · have := UInt8.le_iff_toNat_le.1 h; omega

/-- The queue of `k` while pieces arrive, possibly repeatedly, one of them (`l0`) still missing. -/
theorem run_dups {k : Key} {D : List UInt8} {ps : List Pkt} (S : Setting k D ps) (B : Nat) (hB : B ≤ 15) (l0 : Pkt) :
    ∀ (ops : List Op) (s : St) (R rest : List Pkt), WF s → (R ++ rest).Perm ps → l0 ∈ rest →
    (∀ q ∈ ofKey k (pkts ops), B ≤ q.junk.toNat ∧ q.frag ∈ ps.map Pkt.frag ∧ q.frag ≠ l0.frag) →
    (∀ p ∈ pkts ops, p.room = true) → s.nipq + (pkts ops).length ≤ maxnipq + 1 → (T : Nat) → ticks ops + T < B →
    Holds (chainOf s k) R (ticks ops + T) →
    (∃ R' rest', (R' ++ rest').Perm ps ∧ l0 ∈ rest' ∧ Holds (chainOf (run s ops).1 k) R' T ∧
      (∀ f ∈ R.map Pkt.frag, f ∈ R'.map Pkt.frag) ∧ (∀ q ∈ ofKey k (pkts ops), q.frag ∈ R'.map Pkt.frag)) ∧
    (∀ d ∈ delivered (run s ops).2, d.key ≠ k) ∧ (run s ops).1.nipq ≤ s.nipq + (pkts ops).length := by
  intro ops
  induction ops with
  | nil =>
    intro s R rest w hperm hl _ _ _ T _ h
    simp only [ticks, Nat.zero_add] at h
    exact ⟨⟨R, rest, hperm, hl, h, fun f hf => hf, by simp [pkts, ofKey]⟩, by simp [run, delivered], by simp [run, pkts]⟩
  | cons o ops ih =>
    intro s R rest w hperm hl hq hroom hnip T hT h
    cases o with
    | tick =>
      obtain ⟨w', hage⟩ := tick_wf w
      refine ih (tick s) R rest w' hperm hl hq hroom hnip T (by simp only [ticks] at hT; omega) ?_
      rw [hage]
      cases R with
      | nil =>
        have h : chainOf s k = none := h
        rw [h]; rfl
      | cons r R =>
        obtain ⟨c, hc, h1, h2, h3, h4⟩ := holds_cons.1 h
        rw [hc]
        have e : (c.qttl - 1).toNat = c.qttl.toNat - 1 :=
          UInt8.toNat_sub_of_le _ _ (UInt8.le_iff_toNat_le.2 (by show 1 ≤ _; omega))
        simp only [ticks] at h4
        have hne : c.qttl - 1 ≠ 0 := by
          intro h0
          have h0 := congrArg UInt8.toNat h0
          rw [e] at h0
          have : c.qttl.toNat - 1 = 0 := h0
          omega
        refine holds_cons.2 ⟨{ c with qttl := c.qttl - 1 }, ?_, h1, h2, h3, ?_⟩
        · show ageChain c = _
          unfold ageChain
          rw [if_neg hne]
        · show _ < (c.qttl - 1).toNat
          rw [e]; omega
    | recv p =>
      have hn : s.nipq ≤ maxnipq := by simp only [pkts, List.length_cons] at hnip; omega
      have hr : p.room = true := hroom p (List.mem_cons_self ..)
      obtain ⟨w', e1, e2, e3, e4⟩ := reass_local w hn hr
      have hnip' : (reass s p).1.nipq + (pkts ops).length ≤ maxnipq + 1 := by
        simp only [pkts, List.length_cons] at hnip; omega
      have hroom' : ∀ p ∈ pkts ops, p.room = true := fun q hq => hroom q (List.mem_cons_of_mem _ hq)
      have hd : delivered (run s (.recv p :: ops)).2 = delivered ((reass s p).2 :: (run (reass s p).1 ops).2) := rfl
      have hnn : ∀ x : Int, x ≤ (reass s p).1.nipq + (pkts ops).length → x ≤ s.nipq + (pkts (.recv p :: ops)).length := by
        intro x hx
        simp only [pkts, List.length_cons]
        omega
      by_cases hpk : p.key = k
      · have hof : ofKey k (pkts (.recv p :: ops)) = p :: ofKey k (pkts ops) := by
          simp [ofKey, pkts, hpk]
        rw [hof] at hq ⊢
        have hq' : ∀ q ∈ ofKey k (pkts ops), B ≤ q.junk.toNat ∧ q.frag ∈ ps.map Pkt.frag ∧ q.frag ≠ l0.frag :=
          fun q h => hq q (List.mem_cons_of_mem _ h)
        obtain ⟨hj, hin, hnl⟩ := hq p (List.mem_cons_self ..)
        obtain ⟨p0, hp0, he0⟩ := List.mem_map.1 hin
        simp only [ticks] at hT h
        rw [hpk] at e1 e2
        rcases List.mem_append.1 (hperm.symm.subset hp0) with hR | hrs
        · have hla := local_dup S he0.symm hR hperm (List.ne_nil_of_mem hl) (t := ticks ops + T) (by omega) h
          rw [← e1] at hla
          obtain ⟨⟨R', rest', a, b, c, d, f⟩, i2, i3⟩ := ih (reass s p).1 R rest w' hperm hl hq' hroom' hnip' T (by omega) hla.1
          refine ⟨⟨R', rest', a, b, c, d, ?_⟩, ?_, hnn _ i3⟩
          · intro q hq
            rcases List.mem_cons.1 hq with rfl | hq
            · rw [← he0]; exact d _ (List.mem_map_of_mem hR)
            · exact f q hq
          · rw [hd, e2, hla.2]; exact i2
        · obtain ⟨x, y, hxy⟩ := List.append_of_mem hrs
          have hl' : l0 ∈ x ++ y := by
            rw [hxy] at hl
            have : l0 ≠ p0 := fun h => hnl (by rw [h, ← he0])
            simpa [this] using hl
          have hperm' : ((p0 :: R) ++ (x ++ y)).Perm ps := by
            refine List.Perm.trans ?_ hperm
            rw [hxy, List.cons_append, ← List.append_assoc, ← List.append_assoc]
            exact List.perm_middle.symm
          have hla := (local_arrival S he0.symm hperm' (t := ticks ops + T) (by omega) (by omega) h).1
            (List.ne_nil_of_mem hl')
          rw [← e1] at hla
          obtain ⟨⟨R', rest', a, b, c, d, f⟩, i2, i3⟩ := ih (reass s p).1 (p0 :: R) (x ++ y) w' hperm' hl' hq' hroom' hnip' T
            (by omega) hla.1
          refine ⟨⟨R', rest', a, b, c, fun g hg => d g (by rw [List.map_cons]; exact List.mem_cons_of_mem _ hg), ?_⟩, ?_, hnn _ i3⟩
          · intro q hq
            rcases List.mem_cons.1 hq with rfl | hq
            · rw [← he0]; exact d _ (by simp)
            · exact f q hq
          · rw [hd, e2, hla.2]; exact i2
      · have hof : ofKey k (pkts (.recv p :: ops)) = ofKey k (pkts ops) := by
          simp [ofKey, pkts, hpk]
        rw [hof] at hq ⊢
        have h' : Holds (chainOf (reass s p).1 k) R (ticks ops + T) := by
          rw [e3 k (Ne.symm hpk)]; exact h
        obtain ⟨i1, i2, i3⟩ := ih (reass s p).1 R rest w' hperm hl hq hroom' hnip' T hT h'
        refine ⟨i1, ?_, hnn _ i3⟩
        rw [hd]
        cases ho : (reass s p).2 with
        | nothing => exact i2
        | unlockUnheld => exact i2
        | pkt d =>
          intro d' hd'
          rcases List.mem_cons.1 hd' with rfl | hd'
          · obtain ⟨c, hc, c', hck, hci, hdone⟩ := reass_out ho
            obtain ⟨f, l, n, hfr, _, _, _, rfl⟩ := check_done hdone
            obtain ⟨w2, k2⟩ := insert_key ((w _).1 c hc) hck hci
            have : f.key = p.key := by
              unfold Chain.key? at k2
              rw [hfr] at k2
              simpa [Pkt.frag] using k2
            show f.key ≠ k
            rw [this]; exact hpk
          · exact i2 d' hd'

end Verif.Reass

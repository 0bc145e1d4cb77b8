import Verif.Ipsec.Steps2
/-!
# IPsec policy database: theorems (C35, C36, C53-C57)
-/
namespace Verif.Ipsec

/-- Every history of calls by all threads, from start-up with room for `n` policies: the state of
the library and what a user knows from the calls and their results. -/
inductive Reach (n : Nat) : St → Abs → Prop
  | start (junk : Nat → Cell) (par : Nat → Param) : Reach n (init junk n) (abs0 par)
  | call {s s' : St} {A : Abs} {op : Op} {r : Ret} :
      Reach n s A → Allowed A op → step s op = some (s', r) → Reach n s' (absStep A op r)

theorem init_num (junk : Nat → Cell) (n : Nat) : (init junk n).num = n :=
  (freeAll_frame _ n).2.2.2.1

theorem reach_inv {n : Nat} {s : St} {A : Abs} (h : Reach n s A) : Inv s A ∧ s.num = n := by
  induction h with
  | start junk par => exact ⟨inv_init junk n par, init_num junk n⟩
  | call _ ha hs ih =>
    obtain ⟨s1, r1, h1, h2, h3, h4⟩ := inv_step ih.1 ha
    rw [h1] at hs
    simp only [Option.some.injEq, Prod.mk.injEq] at hs
    obtain ⟨rfl, rfl⟩ := hs
    exact ⟨h3, h4.trans ih.2⟩

/-- A cell is in the free pool: it is on the list that starts at the free pointer. -/
def InPool (s : St) (h : Nat) : Prop := ∃ fl, Chain s.nx s.free fl ∧ h ∈ fl

theorem chain_unique {nxt : Nat → Option Nat} : ∀ {l l' : List Nat} {h : Option Nat},
    Chain nxt h l → Chain nxt h l' → l = l'
  | [], [], _, _, _ => rfl
  | [], b :: l', h, h1, h2 => by
    have h1' : h = none := h1
    rw [h1'] at h2; exact absurd h2.1 (by simp)
  | a :: l, [], h, h1, h2 => by
    have h2' : h = none := h2
    rw [h2'] at h1; exact absurd h1.1 (by simp)
  | a :: l, b :: l', h, h1, h2 => by
    have e := h1.1.symm.trans h2.1
    simp only [Option.some.injEq] at e
    subst e
    rw [chain_unique h1.2 h2.2]

/-! ## C36: life of policy objects -/

/-- C36 (results).  Every allowed call terminates and returns what the abstract database says:
creation succeeds exactly when the parameters are acceptable, the id is unused and some object is
neither in the database nor referenced, and then yields such an object; searches and iteration
yield the right policy; destruction reports success. -/
theorem policy_calls_exact {n : Nat} {s : St} {A : Abs} (h : Reach n s A) {op : Op}
    (ha : Allowed A op) : ∃ s' r, step s op = some (s', r) ∧ RetOk n A op r ∧
      Reach n s' (absStep A op r) := by
  obtain ⟨I, hn⟩ := reach_inv h
  obtain ⟨s1, r1, h1, h2, h3, h4⟩ := inv_step I ha
  exact ⟨s1, r1, h1, hn ▸ h2, .call h ha h1⟩

/-- C36 (life).  At any time a policy object is in the free pool exactly when it is not in the
database and nobody holds a reference to it. -/
theorem policy_lifetime_partial {n : Nat} {s : St} {A : Abs} (h : Reach n s A) (a : Nat) :
    InPool s a ↔ a < n ∧ (∀ q ∈ A.db, q.h ≠ a) ∧ A.held a = 0 := by
  obtain ⟨I, hn⟩ := reach_inv h
  obtain ⟨fl, h1, h2, h3⟩ := I.fr
  have hx : (∀ q ∈ A.db, q.h ≠ a) ↔ a ∉ dbh A := by
    rw [mem_dbh]
    constructor
    · rintro hh ⟨q, hq, e⟩; exact hh q hq e
    · intro hh q hq e; exact hh ⟨q, hq, e⟩
  rw [hx, ← hn, ← h3]
  constructor
  · rintro ⟨l, hl, ha⟩
    rw [chain_unique h1 hl]; exact ha
  · intro ha; exact ⟨fl, h1, ha⟩

/-- C36 (no sharing).  No two policies of the database have the same object or the same id, and the
policies of the database are objects of the table. -/
theorem policy_distinct_partial {n : Nat} {s : St} {A : Abs} (h : Reach n s A) :
    (∀ q ∈ A.db, ∀ r ∈ A.db, q.h = r.h ∨ q.p.id = r.p.id → q = r) ∧ ∀ q ∈ A.db, q.h < n := by
  obtain ⟨I, hn⟩ := reach_inv h
  constructor
  · intro q hq r hr he
    rcases he with he | he
    · exact uniq I hq hr he
    · exact List.inj_on_of_nodup_map I.ids hq hr he
  · intro q hq; rw [← hn]; exact (I.cl q hq).1

/-- C36 (handles stay valid).  A held handle, also of a destroyed policy, keeps telling the
parameters the policy was created with, and whether it was destroyed. -/
theorem policy_info_partial {n : Nat} {s : St} {A : Abs} (h : Reach n s A) {a : Nat} (ha : 0 < A.held a) :
    (getInfo s a).2 = A.par a ∧ ((getInfo s a).1 = true ↔ ∀ q ∈ A.db, q.h ≠ a) := by
  obtain ⟨I, hn⟩ := reach_inv h
  obtain ⟨h1, h2⟩ := I.inf a ha
  refine ⟨h1, h2.trans ?_⟩
  rw [mem_dbh]
  constructor
  · intro hh q hq e; exact hh ⟨q, hq, e⟩
  · rintro hh ⟨q, hq, e⟩; exact hh q hq e

/-! ## C35: the decision about a packet -/

theorem selMatch_iff (s : Sel) (v : Vals) : selMatch s v = true ↔ Covers s v := by
  unfold selMatch Covers
  cases s.v4
  · simp
  · by_cases h1 : v.src < s.srcLo ∨ v.src > s.srcHi
    · have : ¬ (s.srcLo ≤ v.src ∧ v.src ≤ s.srcHi) := by omega
      simp [h1]
      omega
    · by_cases h2 : v.dst < s.dstLo ∨ v.dst > s.dstHi
      · simp [h1, h2]; omega
      · by_cases h3 : s.proto ≠ 0 ∧ v.proto ≠ s.proto
        · simp [h1, h2, h3]
        · simp [h1, h2]
          by_cases h4 : s.proto = 0
          · simp [h4]; omega
          · simp [h4]
            constructor
            · intro h; refine ⟨?_, ?_, ?_, ?_, h⟩ <;> omega
            · intro h; exact h.2.2.2.2

theorem be32_eq (a b c d : Nat) :
    ((a * 256 + b) * 256 + c) * 256 + d = a * 2 ^ 24 + b * 2 ^ 16 + c * 2 ^ 8 + d := by
  have h1 : (2 : Nat) ^ 24 = 256 * 256 * 256 := by decide
  have h2 : (2 : Nat) ^ 16 = 256 * 256 := by decide
  have h3 : (2 : Nat) ^ 8 = 256 := by decide
  rw [h1, h2, h3, Nat.add_mul, Nat.add_mul, Nat.add_mul]
  simp only [Nat.mul_assoc]

theorem selVals_header (b : List Nat) (h : 20 ≤ b.length) : selVals (some b) = header b := by
  have : ¬ b.length < 20 := by omega
  simp only [selVals, this, if_false, be32, header, be32_eq]

/-- The policy found by a lookup. -/
def Found (s : St) (A : Abs) (d : Dir) (vrf : Nat) (v : Vals) : Option Nat → Prop
  | none => NoneApplies A d vrf v
  | some a => ∃ q, q.h = a ∧ Decides A d vrf v q ∧ (s.cell a).param = q.p ∧ (s.cell a).sa = q.sa

theorem pairwise_head {L1 L2 : List Pol} {c : Pol} (h : (L1 ++ c :: L2).Pairwise before) {r : Pol}
    (hr : r ∈ L2) : before c r :=
  (List.pairwise_cons.mp (List.pairwise_append.mp h).2.1).1 r hr

theorem lookup_found {n : Nat} {s : St} {A : Abs} (h : Reach n s A) (d : Dir) (vrf : Nat)
    (pkt : Pkt) {fuel : Nat} (hf : n < fuel) :
    ∃ r, spLookup s fuel d vrf pkt = some r ∧ Found s A d vrf (selVals pkt) r := by
  obtain ⟨I, hn⟩ := reach_inv h
  obtain ⟨L, c1, c2, c3⟩ := I.lk d
  have hlen : (L.map Pol.h).length < fuel := by
    have := lk_len I c2 c3
    unfold St.fuel at this; omega
  obtain ⟨l1, l2, e, p1, p2, p3⟩ := walk_split (prev := none)
    (p := fun a => (s.cell a).param.vrf == vrf && selMatch (s.cell a).param.sel (selVals pkt)) c1 hlen
  refine ⟨l2.head?, by unfold spLookup; rw [p3]; rfl, ?_⟩
  obtain ⟨L1, L2, eL, e1, e2⟩ := List.map_eq_append_iff.mp e
  have hL1 : ∀ r ∈ L1, ¬ (r.p.vrf = vrf ∧ Covers r.p.sel (selVals pkt)) := by
    intro r hr hc
    have hrL : r ∈ L := by rw [eL]; simp [hr]
    have := p1 r.h (by rw [← e1]; exact List.mem_map_of_mem hr)
    rw [(I.cl r ((c3 r).mp hrL).1).2.1, (selMatch_iff _ _).mpr hc.2, hc.1] at this
    simp at this
  cases L2 with
  | nil =>
    rw [← e2]
    intro r hr h1 h2 h3 h4
    have hrL := (c3 r).mpr ⟨hr, h1, h2⟩
    rw [eL, List.append_nil] at hrL
    exact hL1 r hrL ⟨h3, h4⟩
  | cons c L2 =>
    rw [← e2]
    have hcL : c ∈ L := by rw [eL]; simp
    obtain ⟨m1, m2, m3⟩ := (c3 c).mp hcL
    obtain ⟨k1, k2, k3, _, _⟩ := I.cl c m1
    have hp := p2 c.h (by rw [← e2]; rfl)
    rw [k2, Bool.and_eq_true] at hp
    refine ⟨c, rfl, ⟨m1, m2, m3, by simpa using hp.1, (selMatch_iff _ _).mp hp.2, ?_⟩, k2, k3⟩
    intro r hr h1 h2 h3 h4
    have hrL := (c3 r).mpr ⟨hr, h1, h2⟩
    rw [eL] at hrL c2
    rcases List.mem_append.mp hrL with hr' | hr'
    · exact absurd ⟨h3, h4⟩ (hL1 r hr')
    · rcases List.mem_cons.mp hr' with rfl | hr'
      · exact Or.inr ⟨rfl, Nat.le_refl _⟩
      · have := pairwise_head c2 hr'
        unfold before at this; omega

/-- C35 (choice).  For every set of policies and every packet with a complete IPv4 header, the
lookup of either direction ends and applies the action of the matching policy of smallest priority
value (the latest among equals), BYPASS when no policy matches.  The order of creation among
different priorities plays no role: `Decides` and `NoneApplies` do not mention it. -/
theorem lookup_decides {n : Nat} {s : St} {A : Abs} (h : Reach n s A) (d : Dir) (vrf : Nat)
    (b : List Nat) (hb : 20 ≤ b.length) {fuel : Nat} (hf : n < fuel) :
    ∃ r, spLookup s fuel d vrf (some b) = some r ∧
      ((NoneApplies A d vrf (header b) ∧ actionOf s r = .bypass) ∨
       ∃ q, Decides A d vrf (header b) q ∧ actionOf s r = q.p.act) := by
  obtain ⟨r, h1, h2⟩ := lookup_found h d vrf (some b) hf
  rw [selVals_header b hb] at h2
  refine ⟨r, h1, ?_⟩
  cases r with
  | none => exact Or.inl ⟨h2, rfl⟩
  | some a =>
    obtain ⟨q, rfl, hq, e1, e2⟩ := h2
    exact Or.inr ⟨q, hq, by simp [actionOf, e1]⟩

/-- The deciding policy is unique. -/
theorem decides_unique {n : Nat} {s : St} {A : Abs} (h : Reach n s A) {d : Dir} {vrf : Nat}
    {v : Vals} {q r : Pol} (hq : Decides A d vrf v q) (hr : Decides A d vrf v r) : q = r := by
  obtain ⟨I, hn⟩ := reach_inv h
  obtain ⟨L, c1, c2, c3⟩ := I.lk d
  have hqL := (c3 q).mpr ⟨hq.1, hq.2.1, hq.2.2.1⟩
  have hrL := (c3 r).mpr ⟨hr.1, hr.2.1, hr.2.2.1⟩
  have h1 := hq.2.2.2.2.2 r hr.1 hr.2.1 hr.2.2.1 hr.2.2.2.1 hr.2.2.2.2.1
  have h2 := hr.2.2.2.2.2 q hq.1 hq.2.1 hq.2.2.1 hq.2.2.2.1 hq.2.2.2.2.1
  by_contra hne
  have : before q r ∨ before r q := by
    obtain ⟨i, hi, rfl⟩ := List.mem_iff_getElem.mp hqL
    obtain ⟨j, hj, rfl⟩ := List.mem_iff_getElem.mp hrL
    rcases Nat.lt_trichotomy i j with hij | hij | hij
    · exact Or.inl (List.pairwise_iff_getElem.mp c2 i j hi hj hij)
    · subst hij; exact absurd rfl hne
    · exact Or.inr (List.pairwise_iff_getElem.mp c2 j i hj hi hij)
  unfold before at this
  omega

theorem inactive_none {n : Nat} {s : St} {A : Abs} (h : Reach n s A) (ha : s.active = false)
    (d : Dir) (vrf : Nat) (v : Vals) : NoneApplies A d vrf v := by
  obtain ⟨I, hn⟩ := reach_inv h
  intro r hr h1 h2 _ _
  obtain ⟨L, c1, c2, c3⟩ := I.lk d
  have hrL := (c3 r).mpr ⟨hr, h1, h2⟩
  have hh : (s.head d).isSome = true := by
    rw [chain_head c1]
    cases L with
    | nil => simp at hrL
    | cons _ _ => rfl
  have := (head_cases s).mpr ⟨d, hh⟩
  rw [← I.ac, ha] at this
  exact absurd this (by simp)

/-- C35 (inbound).  A packet passes the inbound check exactly when it is IPsec traffic for this
host, was already decapsulated, concerns no policy, or its policy says BYPASS. -/
theorem inbound_decision {n : Nat} {s : St} {A : Abs} (h : Reach n s A) (vrf : Nat)
    (b : List Nat) (hb : 20 ≤ b.length) (isOurs espAh done : Bool) {fuel : Nat} (hf : n < fuel) :
    ∃ c, inboundCheck s fuel vrf (some b) isOurs espAh done = some c ∧
      (c = true ↔ (isOurs = true ∧ espAh = true) ∨ done = true ∨
        NoneApplies A .inb vrf (header b) ∨
        ∃ q, Decides A .inb vrf (header b) q ∧ q.p.act = .bypass) := by
  unfold inboundCheck
  by_cases ha : s.active = true
  · by_cases h1 : (isOurs && espAh) = true
    · refine ⟨true, by simp [ha, h1], ?_⟩
      have := Bool.and_eq_true_iff.mp h1
      simp [this]
    · by_cases h2 : done = true
      · refine ⟨true, by simp [ha, h2], by simp [h2]⟩
      · obtain ⟨r, e, hr⟩ := lookup_decides h .inb vrf b hb hf
        have h1' : ¬ (isOurs = true ∧ espAh = true) := by simpa [Bool.and_eq_true_iff] using h1
        refine ⟨_, by simp only [ha, h1, h2, e]; rfl, ?_⟩
        rw [decide_eq_true_iff]
        constructor
        · intro hact
          rcases hr with hr | ⟨q, hq, he⟩
          · exact Or.inr (Or.inr (Or.inl hr.1))
          · exact Or.inr (Or.inr (Or.inr ⟨q, hq, he ▸ hact⟩))
        · rintro (hc | hc | hc | ⟨q, hq, hc⟩)
          · exact absurd hc h1'
          · exact absurd hc h2
          · rcases hr with hr | ⟨q, hq, he⟩
            · exact hr.2
            · exact absurd hq.2.2.2.2.1 (hc q hq.1 hq.2.1 hq.2.2.1 hq.2.2.2.1)
          · rcases hr with hr | ⟨q', hq', he⟩
            · exact hr.2
            · rw [he, decides_unique h hq' hq]; exact hc
  · have ha' : s.active = false := by simpa using ha
    exact ⟨true, by simp [ha'], by
      simp only [true_iff]
      exact Or.inr (Or.inr (Or.inl (inactive_none h ha' _ _ _)))⟩

/-- C56, restricted: as long as SAs are only bound to PROTECT policies, the outbound verdict is
the right one for every packet; in particular a dropped packet leaves no lock behind. -/
theorem outbound_decision_partial {n : Nat} {s : St} {A : Abs} (h : Reach n s A)
    (hbind : ∀ q ∈ A.db, q.sa ≠ none → q.p.act = .protect) (disabled : Nat → Bool) (vrf : Nat)
    (b : List Nat) (hb : 20 ≤ b.length) {fuel : Nat} (hf : n < fuel) :
    ∃ o, outLookup disabled s fuel vrf (some b) = some o ∧
      OutRight A disabled vrf (header b) o ∧ (o.locked = true → o.cont = true) := by
  unfold outLookup
  by_cases ha : s.active = true
  · obtain ⟨r, e, hr⟩ := lookup_found h .outb vrf (some b) hf
    rw [selVals_header b hb] at hr
    simp only [ha, Bool.not_true, Bool.false_eq_true, if_false, e, Option.map_some]
    refine ⟨_, rfl, ?_⟩
    cases r with
    | none =>
      have : outOf disabled s none = ⟨true, none, false⟩ := rfl
      rw [this]
      refine ⟨⟨fun _ => rfl, ?_⟩, by simp⟩
      intro q hq
      exact absurd hq.2.2.2.2.1 (hr q hq.1 hq.2.1 hq.2.2.1 hq.2.2.2.1)
    | some a =>
      obtain ⟨q, rfl, hq, e1, e2⟩ := hr
      have hb := hbind q hq.1
      have hnone : ¬ NoneApplies A .outb vrf (header b) := fun hc =>
        hc q hq.1 hq.2.1 hq.2.2.1 hq.2.2.2.1 hq.2.2.2.2.1
      have huniq : ∀ q', Decides A .outb vrf (header b) q' → q' = q :=
        fun q' hq' => decides_unique h hq' hq
      unfold outOf saOf actionOf
      simp only [e1, e2]
      cases hact : q.p.act with
      | bypass =>
        have hsa : q.sa = none := by
          by_contra hc
          rw [hb hc] at hact; exact absurd hact (by simp)
        simp only [hsa]
        refine ⟨⟨fun hc => absurd hc hnone, ?_⟩, by simp⟩
        intro q' hq'
        rw [huniq q' hq', hact]; rfl
      | discard =>
        have hsa : q.sa = none := by
          by_contra hc
          rw [hb hc] at hact; exact absurd hact (by simp)
        simp only [hsa]
        refine ⟨⟨fun hc => absurd hc hnone, ?_⟩, by simp⟩
        intro q' hq'
        rw [huniq q' hq', hact]; exact ⟨rfl, rfl⟩
      | protect =>
        cases hsa : q.sa with
        | none =>
          refine ⟨⟨fun hc => absurd hc hnone, ?_⟩, by simp⟩
          intro q' hq'
          rw [huniq q' hq', hact]
          exact Or.inr ⟨by simp [hsa], rfl⟩
        | some x =>
          cases hd : disabled x with
          | true =>
            simp only [hd]
            refine ⟨⟨fun hc => absurd hc hnone, ?_⟩, by simp⟩
            intro q' hq'
            rw [huniq q' hq', hact]
            refine Or.inr ⟨?_, rfl⟩
            intro y hy
            rw [hsa] at hy
            simp only [Option.some.injEq] at hy
            rw [← hy]; exact hd
          | false =>
            simp only [hd]
            refine ⟨⟨fun hc => absurd hc hnone, ?_⟩, by simp⟩
            intro q' hq'
            rw [huniq q' hq', hact]
            exact Or.inl ⟨x, hsa, hd, rfl⟩
  · have ha' : s.active = false := by simpa using ha
    refine ⟨⟨true, none, false⟩, by simp [ha'], ⟨fun _ => rfl, ?_⟩, by simp⟩
    intro q hq
    exact absurd hq.2.2.2.2.1 (inactive_none h ha' _ _ _ q hq.1 hq.2.1 hq.2.2.1 hq.2.2.2.1)

/-! ## C55: selectors of inbound SAs -/

/-- C55, restricted: a packet that is not ICMP is accepted exactly when the selectors cover it. -/
theorem selector_match_partial (b : List Nat) (hb : 20 ≤ b.length) (hp : b.getD 9 0 ≠ 1) (s : Sel) :
    selectorMatch (some b) s = true ↔ Covers s (header b) := by
  unfold selectorMatch
  rw [selVals_header b hb]
  by_cases h : selMatch s (header b) = true
  · simp [h, (selMatch_iff _ _).mp h]
  · rw [if_neg h]
    have h2 : ¬ b.length < 20 := by omega
    have h1 : icmpMatch (some b) s = false := by
      simp only [icmpMatch, h2, if_false, ne_eq, hp, not_false_iff, if_true]
    rw [h1]
    simp only [Bool.false_eq_true, false_iff]
    exact fun hc => h ((selMatch_iff _ _).mpr hc)

end Verif.Ipsec

import Verif.Syncache.Prov
/-! # Half-open connections: a connection needs the peer's answer -/
namespace Verif.Syncache

variable {cfg : Cfg} {s : S}

theorem leq_iff (a b : W) : leq a b = true ↔ (a - b).toNat = 0 ∨ 2 ^ 31 ≤ (a - b).toNat := by
  unfold leq
  rw [decide_eq_true_eq, BitVec.toInt_eq_toNat_cond]
  have := (a - b).isLt
  generalize (a - b).toNat = d at *
  split <;> omega

theorem window_iff (seq irs : W) {wnd : Nat} (hw : wnd ≤ 65535) :
    (!leq seq irs && leq seq (irs + BitVec.ofNat 32 wnd)) = true ↔ InWindow seq irs wnd := by
  have e : seq - (irs + BitVec.ofNat 32 wnd) = (seq - irs) - BitVec.ofNat 32 wnd := by
    rw [BitVec.sub_eq_add_neg, BitVec.sub_eq_add_neg, BitVec.sub_eq_add_neg, BitVec.neg_add, BitVec.sub_eq_add_neg, BitVec.add_assoc]
  have l := (seq - irs).isLt
  have k : ((seq - irs) - BitVec.ofNat 32 wnd).toNat = (2 ^ 32 - wnd + (seq - irs).toNat) % 2 ^ 32 := by
    rw [BitVec.toNat_sub, BitVec.toNat_ofNat, Nat.mod_eq_of_lt (a := wnd) (by omega)]
  rw [Bool.and_eq_true, leq_iff, e, k]
  have n : (!leq seq irs) = true ↔ ¬ ((seq - irs).toNat = 0 ∨ 2 ^ 31 ≤ (seq - irs).toNat) := by
    rw [← leq_iff]; simp
  rw [n]
  have s : seq = irs + BitVec.ofNat 32 (seq - irs).toNat := by
    rw [BitVec.ofNat_toNat, BitVec.setWidth_eq, BitVec.add_comm, BitVec.sub_add_cancel]
  have j : ∀ j : Nat, j ≤ 65535 → seq = irs + BitVec.ofNat 32 j → (seq - irs).toNat = j := by
    intro j hj h
    rw [h, BitVec.add_comm, BitVec.add_sub_cancel, BitVec.toNat_ofNat, Nat.mod_eq_of_lt (by omega)]
  unfold InWindow
  generalize (seq - irs).toNat = d at *
  constructor
  · rintro ⟨a, b⟩
    exact ⟨d, by omega, by omega, s⟩
  · rintro ⟨i, h1, h2, h3⟩
    have := j i (by omega) h3
    omega

theorem clip_le (w : Int) : clip w ≤ 65535 := by unfold clip; omega

theorem valid_iff {sc : Sc} {x : AckIn} (hw : sc.wnd ≤ 65535) : valid sc x = true ↔
    x.ack = sc.iss + 1 ∧ InWindow x.seq sc.irs sc.wnd ∧ (∀ v ecr, x.o.ts = some (v, ecr) → sc.tsF = true ∧ ecr = sc.ts) := by
  unfold valid
  rw [Bool.and_eq_true, Bool.and_eq_true, Bool.and_eq_true, decide_eq_true_eq, and_assoc, and_assoc, ← and_assoc (a := (!leq x.seq sc.irs) = true)]
  rw [← Bool.and_eq_true, window_iff _ _ hw]
  refine and_congr Iff.rfl (and_congr Iff.rfl ?_)
  cases x.o.ts with
  | none => simp
  | some p =>
    obtain ⟨a, b⟩ := p
    simp only [Bool.and_eq_true, decide_eq_true_eq, Option.some.injEq, Prod.mk.injEq]
    constructor
    · rintro h v e ⟨_, rfl⟩; exact h
    · intro h; exact h a b ⟨rfl, rfl⟩

theorem answer_conn {sc : Sc} {x : AckIn} {c : Conn} : answer sc x = .conn c ↔ valid sc x = true ∧ x.sockOk = true ∧ c = connOf x.inc.fib sc := by
  unfold answer
  by_cases h : valid sc x = true
  · rw [if_pos h]
    by_cases k : x.sockOk = true
    · rw [if_pos k]; simp [h, k, eq_comm]
    · rw [if_neg k]; simp [k]
  · rw [if_neg h]; simp [h]

theorem core_fields {e f : Sc} (h : core e = core f) : e.inc = f.inc ∧ e.irs = f.irs ∧ e.iss = f.iss ∧ e.wnd = f.wnd ∧ e.ts = f.ts ∧ e.tsoff = f.tsoff ∧ e.scaleF = f.scaleF ∧
    e.sScale = f.sScale ∧ e.rScale = f.rScale ∧ e.sack = f.sack ∧ e.ecn = f.ecn ∧ e.noopt = f.noopt ∧ e.peerMss = f.peerMss ∧ e.id = f.id := by
  unfold core at h
  simp only [Sc.mk.injEq] at h
  obtain ⟨h1, h2, h3, h4, h5, -, -, -, h6, h7, h8, h9, h10, h11, h12, h13, -, h14⟩ := h
  exact ⟨h2, h3, h4, h5, h6, h7, h8, h9, h10, h11, h12, h13, h14, h1⟩

/-- What a SYN puts into an entry. -/
theorem made_fields (b : Bucket) (x : SynIn) (id : Option Nat) : (made cfg b x id).inc = x.inc ∧ (made cfg b x id).irs = x.seq ∧ (made cfg b x id).wnd = clip x.win ∧
    (made cfg b x id).tsF = (cfg.rfc1323 && x.o.ts.isSome) ∧ (made cfg b x id).scaleF = (cfg.rfc1323 && x.o.scale.isSome) ∧
    (made cfg b x id).sScale = (if cfg.rfc1323 then x.o.scale.getD 0 % 16 else 0) ∧
    (made cfg b x id).rScale = (if cfg.rfc1323 && x.o.scale.isSome then wscale cfg.sbMax 14 0 else 0) ∧
    (made cfg b x id).sack = x.o.sack ∧ (made cfg b x id).ecn = (x.ecn && cfg.doEcn) ∧ (made cfg b x id).noopt = x.noopt ∧ (made cfg b x id).peerMss = x.o.mss.getD 0 := by
  unfold made
  split
  · rw [generate_rest]; exact ⟨rfl, rfl, rfl, rfl, rfl, rfl, rfl, rfl, rfl, rfl, rfl⟩
  · exact ⟨rfl, rfl, rfl, rfl, rfl, rfl, rfl, rfl, rfl, rfl, rfl⟩

theorem Inc.same_symm {a b : Inc} : a.same b = b.same a := by
  unfold Inc.same; simp only [eq_comm]

/-- A word is its seven low bits and the rest. -/
theorem split7 (x : W) : x = (x &&& 0x7f) ||| (x &&& ~~~(0x7f : W)) := by
  rw [← BitVec.and_or_distrib_left]
  have : ((0x7f : W) ||| ~~~(0x7f : W)) = BitVec.allOnes 32 := by decide
  rw [this, BitVec.and_allOnes]

theorem low7 (x : W) : ((x &&& 0x7f) : W).toNat < 128 := by
  have := and_mask 7 x (by omega)
  have e7 : BitVec.ofNat 32 (2 ^ 7 - 1) = (0x7f : W) := by decide
  rw [e7] at this; rw [this]; exact Nat.mod_lt _ (by decide)

theorem low_off (x : W) : ((x >>> 1) &&& 7).toNat = (((x &&& 0x7f) >>> 1) &&& 7).toNat := by
  have e3 : BitVec.ofNat 32 (2 ^ 3 - 1) = (7 : W) := by decide
  have e7 : BitVec.ofNat 32 (2 ^ 7 - 1) = (0x7f : W) := by decide
  have a := and_mask 3 (x >>> 1) (by omega)
  have b := and_mask 3 ((x &&& 0x7f) >>> 1) (by omega)
  have c := and_mask 7 x (by omega)
  rw [e3, BitVec.toNat_ushiftRight, Nat.shiftRight_eq_div_pow] at a b
  rw [e7] at c
  rw [a, b, c]
  omega

/-- What an accepted cookie is. -/
theorem cookie_sound {b : Bucket} {inc : Inc} {a q : W} {o : Opts} {win : Int} {now : Nat} {tick : W} {sc : Sc}
    (h : cookieLookup cfg b inc a q o win now tick = some sc) :
    now ≤ b.reseed + 16 ∧ sc.inc = inc ∧ sc.irs = q - 1 ∧ sc.iss = a - 1 ∧ sc.wnd = clip win ∧
    ∃ flags : W, flags.toNat < 128 ∧ a - 1 = cookieOf cfg (b.sec (flags &&& 1 ≠ 0)) inc (q - 1) flags := by
  unfold cookieLookup at h
  simp only at h
  split at h
  · cases h
  · rename_i h1
    split at h
    · cases h
    · rename_i h2
      simp only [ne_eq, Decidable.not_not] at h2
      have r : sc.inc = inc ∧ sc.irs = q - 1 ∧ sc.iss = a - 1 ∧ sc.wnd = clip win := by
        cases ho : o.ts with
        | none =>
          rw [ho] at h
          simp only [Option.isSome_none, Bool.false_and, Bool.false_eq_true, if_false] at h
          cases h; exact ⟨rfl, rfl, rfl, rfl⟩
        | some p =>
          rw [ho] at h
          obtain ⟨v, e⟩ := p
          simp only at h
          split at h
          · cases h
          · split at h
            · cases h; exact ⟨rfl, rfl, rfl, rfl⟩
            · cases h; exact ⟨rfl, rfl, rfl, rfl⟩
      refine ⟨by omega, r.1, r.2.1, r.2.2.1, r.2.2.2, (a - 1) &&& 0x7f, low7 _, ?_⟩
      unfold cookieOf
      rw [← low_off]
      have := split7 (a - 1)
      rw [h2] at this
      exact this

/-- **C104** (the cookies' secrets aside): a connection comes about only by an ACK whose acknowledgement number is one above our initial
sequence number and whose sequence number is in the window we offered; and either there was a SYN with that connection's addresses and
initial sequence number, and the SYN|ACK that answered it was sent, or cookies are on and our initial sequence number is the cookie
of just this connection and the peer's initial sequence number under one of the two secrets. -/
theorem conn_needs_answer_partial {l : Log} (h : Hist cfg l s) (x : AckIn) {c : Conn} (hc : (step cfg s (.ack x)).1 = .conn c) :
    c.inc.same x.inc = true ∧ x.ack = c.iss + 1 ∧ InWindow x.seq c.irs c.wnd ∧
    ((∃ y p, Synned l y ∧ Sent l p ∧ y.inc.same c.inc = true ∧ y.seq = c.irs ∧ p.inc.same c.inc = true ∧ p.seq = c.iss ∧ p.ack = c.irs + 1 ∧ p.wnd = c.wnd) ∨
     (cfg.cookies = true ∧ c.inc = x.inc ∧ c.irs = x.seq - 1 ∧ x.now ≤ (s.b (bucketOf x.inc)).reseed + 16 ∧
      ∃ flags : W, flags.toNat < 128 ∧ c.iss = cookieOf cfg ((s.b (bucketOf x.inc)).sec (flags &&& 1 ≠ 0)) x.inc c.irs flags)) := by
  unfold step at hc
  simp only at hc
  cases hl : lookup (s.b (bucketOf x.inc)) x.inc with
  | some sc =>
    rw [hl] at hc
    obtain ⟨v, _, rfl⟩ := answer_conn.1 hc
    obtain ⟨m, sm⟩ := lookup_mem hl
    obtain ⟨⟨y, b, id, p1, p2⟩, ⟨f, mo, q1, q2⟩⟩ := h.prov.2 _ sc m
    have a := core_fields p2.1
    have d := core_fields q1.1
    have g := made_fields (cfg := cfg) b y id
    have w : sc.wnd ≤ 65535 := by rw [a.2.2.2.1, g.2.2.1]; exact clip_le _
    obtain ⟨v1, v2, _⟩ := (valid_iff w).1 v
    refine ⟨by rw [Inc.same_symm]; simpa [Inc.same, connOf] using sm, v1, v2, .inl ⟨y, _, p1, q2, ?_, ?_, ?_, ?_, ?_, ?_⟩⟩
    · show Inc.same y.inc { sc.inc with fib := _ } = true; rw [a.1, g.1]; simp [Inc.same]
    · exact g.2.1.symm.trans a.2.1.symm
    · show Inc.same f.inc { sc.inc with fib := _ } = true; rw [d.1]; simp [Inc.same]
    · exact d.2.2.1.symm
    · show f.irs + 1 = _; rw [← d.2.1]; rfl
    · exact d.2.2.2.1.symm
  | none =>
    rw [hl] at hc
    simp only at hc
    by_cases k : cfg.cookies = true
    · rw [if_pos k] at hc
      cases hk : cookieLookup cfg (s.b (bucketOf x.inc)) x.inc x.ack x.seq x.o x.win x.now x.tick with
      | none => rw [hk] at hc; cases hc
      | some sc =>
        rw [hk] at hc
        obtain ⟨v, _, rfl⟩ := answer_conn.1 hc
        obtain ⟨c1, c2, c3, c4, c5, flags, c6, c7⟩ := cookie_sound hk
        obtain ⟨v1, v2, _⟩ := (valid_iff (by rw [c5]; exact clip_le _)).1 v
        refine ⟨?_, v1, v2, .inr ⟨k, by show { sc.inc with fib := x.inc.fib } = x.inc; rw [c2], c3, c1, flags, c6, ?_⟩⟩
        · show Inc.same { sc.inc with fib := x.inc.fib } x.inc = true
          rw [c2]; simp [Inc.same]
        · show sc.iss = cookieOf cfg _ x.inc sc.irs flags
          rw [c4, c3]; exact c7
    · rw [if_neg k] at hc; cases hc

/-- **C106** for connections in the cache: what the new connection uses is what SYN and SYN|ACK agreed on.  Window scaling is on if and
only if both carried it, with the two factors they carried; SACK and ECN are on if and only if the SYN|ACK said so, and then the SYN
had offered it; timestamps are on only if both carried them. -/
theorem options_agree {l : Log} (h : Hist cfg l s) (x : AckIn) {c : Conn} (hc : (step cfg s (.ack x)).1 = .conn c)
    (hl : (lookup (s.b (bucketOf x.inc)) x.inc).isSome = true) :
    ∃ y p, Synned l y ∧ Sent l p ∧ y.inc.same c.inc = true ∧ p.inc.same c.inc = true ∧ y.seq = c.irs ∧ p.seq = c.iss ∧
      c.scale = (match y.o.scale, p.scale with | some a, some b => some (a % 16, b) | _, _ => none) ∧ (p.scale.isSome = true → y.o.scale.isSome = true) ∧
      c.sack = p.sack ∧ (p.sack = true → y.o.sack = true) ∧ c.ecn = p.ece ∧ (p.ece = true → y.ecn = true) ∧
      (c.ts.isSome = true → p.ts.isSome = true ∧ y.o.ts.isSome = true) ∧ c.peerMss = y.o.mss.getD 0 := by
  unfold step at hc
  simp only at hc
  cases hl' : lookup (s.b (bucketOf x.inc)) x.inc with
  | none => rw [hl'] at hl; cases hl
  | some sc =>
    rw [hl'] at hc
    obtain ⟨v, _, rfl⟩ := answer_conn.1 hc
    obtain ⟨m, sm⟩ := lookup_mem hl'
    obtain ⟨⟨y, b, id, p1, p2⟩, ⟨f, mo, q1, q2⟩⟩ := h.prov.2 _ sc m
    obtain ⟨a1, a2, a3, a4, a5, a6, a7, a8, a9, a10, a11, a12, a13, _⟩ := core_fields p2.1
    obtain ⟨d1, d2, d3, d4, d5, d6, d7, d8, d9, d10, d11, d12, d13, _⟩ := core_fields q1.1
    obtain ⟨g1, g2, g3, g4, g5, g6, g7, g8, g9, g10, g11⟩ := made_fields (cfg := cfg) b y id
    have sc1 : sc.scaleF = true → ∃ a, y.o.scale = some a ∧ sc.sScale = a % 16 := by
      intro k
      rw [a7, g5, Bool.and_eq_true] at k
      rw [a8, g6, if_pos k.1]
      cases ho : y.o.scale with
      | none => rw [ho] at k; simp at k
      | some a => exact ⟨a, rfl, rfl⟩
    refine ⟨y, _, p1, q2, by show Inc.same y.inc { sc.inc with fib := _ } = true; rw [a1, g1]; simp [Inc.same],
      by show Inc.same f.inc { sc.inc with fib := _ } = true; rw [d1]; simp [Inc.same], g2.symm.trans a2.symm, d3.symm, ?_, ?_, ?_, ?_, ?_, ?_, ?_, ?_⟩
    · show (if !sc.noopt && sc.scaleF then some (sc.sScale, sc.rScale) else none) =
        (match y.o.scale, (if !f.noopt && f.scaleF then some f.rScale else none) with | some a, some b => some (a % 16, b) | _, _ => none)
      rw [← d12, ← d7, ← d9]
      by_cases k : (!sc.noopt && sc.scaleF) = true
      · rw [if_pos k, if_pos k]
        obtain ⟨a, k1, k2⟩ := sc1 (Bool.and_eq_true _ _ ▸ k).2
        rw [k1, k2]
      · rw [if_neg k, if_neg k]
        cases y.o.scale <;> rfl
    · show (if !f.noopt && f.scaleF then some f.rScale else none).isSome = true → _
      rw [← d12, ← d7]
      intro k
      by_cases k' : (!sc.noopt && sc.scaleF) = true
      · obtain ⟨a, k1, k2⟩ := sc1 (Bool.and_eq_true _ _ ▸ k').2
        rw [k1]; rfl
      · rw [if_neg k'] at k; cases k
    · show (!sc.noopt && sc.sack) = (!f.noopt && f.sack)
      rw [d12, d10]
    · show (!f.noopt && f.sack) = true → _
      rw [Bool.and_eq_true, ← d10, a10, g8]; exact And.right
    · exact d11
    · show f.ecn = true → _
      rw [← d11, a11, g9, Bool.and_eq_true]; exact And.left
    · show (if !sc.noopt && sc.tsF then some (sc.tsreflect, sc.tsoff) else none).isSome = true →
        (if !f.noopt && f.tsF then some (f.ts, f.tsreflect) else none).isSome = true ∧ _
      by_cases k : (!sc.noopt && sc.tsF) = true
      · intro _
        rw [Bool.and_eq_true] at k
        rw [if_pos (by rw [Bool.and_eq_true, ← d12]; exact ⟨k.1, q1.2 k.2⟩)]
        have := p2.2 k.2
        rw [g4, Bool.and_eq_true] at this
        exact ⟨rfl, this.2⟩
      · rw [if_neg k]; intro k; cases k
    · show sc.peerMss = _
      rw [a13, g11]

end Verif.Syncache

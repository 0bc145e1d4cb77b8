import Verif.Syncache.Keep
/-! # Half-open connections: the remaining properties -/
namespace Verif.Syncache

variable {cfg : Cfg} {s : S}

/-! ## C105: how long a cookie is honoured -/

/-- **C105**: when no SYN of the bucket replaced a secret for 32 seconds (`reseed` is 16 seconds after the last replacement), no cookie
of the bucket is accepted. -/
theorem cookie_expires_partial (x : AckIn) (hl : lookup (s.b (bucketOf x.inc)) x.inc = none) (ht : (s.b (bucketOf x.inc)).reseed + 16 < x.now) :
    step cfg s (.ack x) = (.reset, s) := by
  unfold step
  simp only [hl]
  by_cases c : cfg.cookies = true
  · rw [if_pos c]
    unfold cookieLookup
    simp only [ht, if_true]
  · rw [if_neg c]

theorem only_send (hck : cfg.cookies = true) (ho : cfg.only = true) {f : Sc} (hf : s.flight = [f]) (mo : Nat) :
    step cfg s (.send 0 mo true) = (.synack (respond cfg mo f), ({ s with flight := [] } : S).zfree f.id) := by
  unfold step
  simp only [hf, List.getElem?_cons_zero, hck, ho, Bool.and_self, if_true, List.eraseIdx_cons_zero]

theorem init_list (k : Nat) : ((init cfg).b k).list = [] := rfl

theorem syn_list {y : SynIn} {k : Nat} (h : (s.b k).list = []) : ((step cfg s (.syn y)).2.b k).list = [] := by
  apply List.eq_nil_iff_forall_not_mem.2
  intro e he
  rcases step_buckets (.syn y) he with ⟨e0, m, _⟩ | ⟨i, mo, f, m, _⟩
  · rw [h] at m; cases m
  · cases m

theorem lookup_nil {b : Bucket} {inc : Inc} (h : b.list = []) : lookup b inc = none := by unfold lookup; rw [h]; rfl

/-- **C105 fails: old cookies come back to life.**  However long ago a SYN|ACK was sent, the next SYN for the bucket, of anyone, makes
its cookie acceptable again: it only replaces the other of the two secrets, and the age is taken from that replacement. -/
theorem stale_cookie_violated (hck : cfg.cookies = true) (ho : cfg.only = true) (x y : SynIn) (hx : 0 < x.now) (hb : bucketOf y.inc = bucketOf x.inc)
    (hy : x.now + 16 < y.now) (mo : Nat) :
    ∃ p s, Hist cfg [(.syn y, .none), (.send 0 mo true, .synack p), (.syn x, .none)] s ∧ p.inc = x.inc ∧ p.ack = x.seq + 1 ∧
      ∃ c, (step cfg s (.ack ⟨x.inc, p.seq + 1, p.ack, ⟨none, none, none, false⟩, 1, true, y.now, 0⟩)).1 = .conn c ∧ c.irs = x.seq := by
  have nout : ∀ (s : S) (z : SynIn), lookup (s.b (bucketOf z.inc)) z.inc = none → (step cfg s (.syn z)).1 = .none := by
    intro s z h
    unfold step
    simp only [h]
    cases s.free with
    | cons i r => rfl
    | nil =>
      simp only
      cases (dropLast s (bucketOf z.inc)).free with
      | cons i r => rfl
      | nil => simp only [hck, if_true]
  obtain ⟨id, b, h1, h2, h3⟩ := syn_launched (s := init cfg) hck x rfl
  have h1 : (step cfg (init cfg) (.syn x)).2.flight = [generate cfg (reseed b x.now x.rnd) x.mo x.tick (fill cfg x id)] := h1
  have H1 := Hist.cons (.syn x) (Hist.nil (cfg := cfg))
  rw [nout _ x rfl] at H1
  have l1 : ∀ k, ((step cfg (init cfg) (.syn x)).2.b k).list = [] := fun k => syn_list rfl
  generalize (step cfg (init cfg) (.syn x)).2 = s1 at *
  have H2 := Hist.cons (.send 0 mo true) H1
  have e2 := only_send hck ho h1 mo
  rw [e2] at H2
  simp only at H2
  have b2 : (({ s1 with flight := [] } : S).zfree (generate cfg (reseed b x.now x.rnd) x.mo x.tick (fill cfg x id)).id).b = s1.b := zfree_b _
  generalize ({ s1 with flight := [] } : S).zfree (generate cfg (reseed b x.now x.rnd) x.mo x.tick (fill cfg x id)).id = s2 at *
  have l2 : ∀ k, (s2.b k).list = [] := by rw [b2]; exact l1
  have H3 := Hist.cons (.syn y) H2
  rw [nout s2 y (lookup_nil (l2 _))] at H3
  obtain ⟨_, b', _, k2, k3⟩ := syn_launched (s := s2) hck y (lookup_nil (l2 _))
  have l3 : ∀ k, ((step cfg s2 (.syn y)).2.b k).list = [] := fun k => syn_list (l2 k)
  refine ⟨_, _, H3, ?_, ?_, ?_⟩
  · show (generate _ _ _ _ _).inc = _; rw [generate_rest]; rfl
  · show (generate _ _ _ _ _).irs + 1 = _; rw [generate_rest]; rfl
  generalize (step cfg s2 (.syn y)).2 = s3 at *
  have r1 : reseed b x.now x.rnd = { b with oddeven := true, odd := x.rnd, reseed := x.now + 16 } := by
    unfold reseed
    rw [if_pos (by rw [h3.2.2.2]; exact hx), if_neg (by rw [h3.1]; simp [init])]
  have r2 : reseed b' y.now y.rnd = { b' with oddeven := false, even := y.rnd, reseed := y.now + 16 } := by
    unfold reseed
    rw [b2, hb, h2, r1] at k3
    rw [if_pos (by rw [k3.2.2.2]; exact hy), if_pos k3.1]
  have odd : b'.odd = x.rnd := by rw [b2, hb, h2, r1] at k3; exact k3.2.1
  have ck := cookie_plain cfg (b := reseed b x.now x.rnd) (b' := s3.b (bucketOf x.inc)) (mo := x.mo) (tick := x.tick) (tick' := 0) (sc := fill cfg x id) (o := ⟨none, none, none, false⟩) (win := 1) (now := y.now)
    rfl (by rw [← hb, k2, r1, r2]; exact odd) (by rw [← hb, k2, r2]; show y.now ≤ y.now + 16 + 16; omega) rfl
  have eirs : (respond cfg mo (generate cfg (reseed b x.now x.rnd) x.mo x.tick (fill cfg x id))).ack = x.seq + 1 := by
    show (generate _ _ _ _ _).irs + 1 = _; rw [generate_rest]; rfl
  refine ⟨connOf x.inc.fib { restored (fill cfg x id) (generate cfg (reseed b x.now x.rnd) x.mo x.tick (fill cfg x id)).iss 1 (mssIdx cfg x.mo (fill cfg x id)) with noopt := true }, ?_, rfl⟩
  unfold step
  simp only [lookup_nil (l3 _), hck, if_true, eirs]
  have : cookieLookup cfg (s3.b (bucketOf x.inc)) x.inc ((respond cfg mo (generate cfg (reseed b x.now x.rnd) x.mo x.tick (fill cfg x id))).seq + 1) (x.seq + 1) ⟨none, none, none, false⟩ 1 y.now 0 = _ := ck
  rw [this]
  refine answer_conn.2 ⟨(valid_iff (clip_le 1)).2 ⟨rfl, ⟨1, by omega, by show 1 ≤ clip 1; decide, rfl⟩, fun v e h => by cases h⟩, rfl, rfl⟩

/-! ## C106: what is agreed on -/

/-- **C106**: the window scale offered is the least that lets the receive buffer be advertised, or 14. -/
theorem scale_least (sb : Nat) : wscale sb 14 0 ≤ 14 ∧ (wscale sb 14 0 < 14 → sb ≤ 65535 * 2 ^ wscale sb 14 0) ∧ ∀ w < wscale sb 14 0, 65535 * 2 ^ w < sb := by
  have key : ∀ k w, w + k = 14 → (∀ v < w, 65535 * 2 ^ v < sb) → wscale sb k w ≤ 14 ∧ (wscale sb k w < 14 → sb ≤ 65535 * 2 ^ wscale sb k w) ∧ ∀ v < wscale sb k w, 65535 * 2 ^ v < sb := by
    intro k
    induction k with
    | zero => intro w h1 h2; exact ⟨by unfold wscale; omega, by unfold wscale; omega, h2⟩
    | succ k ih =>
      intro w h1 h2
      unfold wscale
      by_cases c : (decide (w < 14) && decide (65535 * 2 ^ w < sb)) = true
      · rw [if_pos c]
        simp only [Bool.and_eq_true, decide_eq_true_eq] at c
        refine ih (w + 1) (by omega) ?_
        intro v hv
        by_cases e : v = w
        · rw [e]; exact c.2
        · exact h2 v (by omega)
      · rw [if_neg c]
        simp only [Bool.and_eq_true, decide_eq_true_eq, not_and] at c
        exact ⟨by omega, fun h => by have := c h; omega, h2⟩
  exact key 14 0 rfl (fun v hv => by omega)

/-- A handshake by cookie, without timestamps. -/
theorem only_plain (hck : cfg.cookies = true) (ho : cfg.only = true) (y : SynIn) (mo : Nat) :
    ∃ l s p c id b, Hist cfg l s ∧ Synned l y ∧ Sent l p ∧ p = respond cfg mo (generate cfg b y.mo y.tick (fill cfg y id)) ∧
      (step cfg s (.ack ⟨y.inc, p.seq + 1, p.ack, ⟨none, none, none, false⟩, 1, true, y.now, 0⟩)).1 = .conn c ∧ c.inc = y.inc ∧ c.scale = none ∧
      BestMss c.peerMss (max (min (y.o.mss.getD 0) y.mo) cfg.minMss) := by
  obtain ⟨f, h1, h2⟩ := cookie_honoured_partial (s := init cfg) hck y rfl
  obtain ⟨id, b, h3, _⟩ := syn_launched (s := init cfg) hck y rfl
  rw [h1] at h3
  have ef : f = generate cfg (reseed b y.now y.rnd) y.mo y.tick (fill cfg y id) := by
    have := List.append_cancel_left h3
    injection this
  have h1 : (step cfg (init cfg) (.syn y)).2.flight = [f] := h1
  have H1 := Hist.cons (.syn y) (Hist.nil (cfg := cfg))
  have H2 := Hist.cons (.send 0 mo true) H1
  have e := only_send hck ho h1 mo
  have l1 : ∀ k, ((step cfg (init cfg) (.syn y)).2.b k).list = [] := fun k => syn_list rfl
  have l2 : ∀ k, ((step cfg (step cfg (init cfg) (.syn y)).2 (.send 0 mo true)).2.b k).list = [] := by
    intro k; rw [e]; simp only; rw [zfree_b]; exact l1 k
  have R : TRun cfg y.now (step cfg (init cfg) (.syn y)).2 y.now (step cfg (step cfg (init cfg) (.syn y)).2 (.send 0 mo true)).2 :=
    .step _ _ .refl (Nat.le_refl _) (fun u h => by cases h)
  obtain ⟨c, c1, c3, _, _, c4, c2, _⟩ := (h2 mo y.now _ ⟨y.inc, (respond cfg mo f).seq + 1, (respond cfg mo f).ack, ⟨none, none, none, false⟩, 1, true, y.now, 0⟩ R (Nat.le_refl _) (Nat.le_add_right _ _)
    (lookup_nil (l2 _)) rfl rfl rfl (Int.le_refl 1) rfl).1 rfl
  refine ⟨_, _, respond cfg mo f, c, id, _, H2, ⟨_, List.mem_cons_of_mem _ List.mem_cons_self⟩, ⟨.send 0 mo true, ?_⟩, by rw [ef], c1, c3, c2, c4⟩
  rw [e]; exact List.mem_cons_self

/-- **C106 fails: a cookie forgets the window scale.**  The SYN|ACK offered window scaling, the peer scales its windows from then on,
and if its ACK has no timestamp the connection opened by the cookie does not. -/
theorem lost_scale_violated (hck : cfg.cookies = true) (ho : cfg.only = true) (hr : cfg.rfc1323 = true) (y : SynIn) (hn : y.noopt = false) (hs : y.o.scale.isSome = true) (mo : Nat) :
    ∃ l s p c, Hist cfg l s ∧ Synned l y ∧ Sent l p ∧ p.scale = some (wscale cfg.sbMax 14 0) ∧
      (step cfg s (.ack ⟨y.inc, p.seq + 1, p.ack, ⟨none, none, none, false⟩, 1, true, y.now, 0⟩)).1 = .conn c ∧ c.inc = y.inc ∧ c.scale = none := by
  obtain ⟨l, s, p, c, id, b, h1, h2, h3, h4, h5, h6, h7, _⟩ := only_plain hck ho y mo
  refine ⟨l, s, p, c, h1, h2, h3, ?_, h5, h6, h7⟩
  have g := generate_rest cfg b y.mo y.tick (fill cfg y id)
  rw [h4]
  unfold respond
  simp only
  rw [g]
  unfold fill
  simp only [hn, hr, hs, Bool.not_false, Bool.true_and, if_true]

/-- **C106 fails: a cookie loses a small MSS.**  If the peer's MSS is below 256 (and the lower limit allows it), the connection opened by
the cookie has none, as if the peer had not sent the option, and so uses the default. -/
theorem small_mss_violated (hck : cfg.cookies = true) (ho : cfg.only = true) (hm : cfg.minMss < 256) (y : SynIn) {m : Nat} (hy : y.o.mss = some m) (h256 : m < 256) (mo : Nat) :
    ∃ l s p c, Hist cfg l s ∧ Synned l y ∧ Sent l p ∧
      (step cfg s (.ack ⟨y.inc, p.seq + 1, p.ack, ⟨none, none, none, false⟩, 1, true, y.now, 0⟩)).1 = .conn c ∧ c.inc = y.inc ∧ c.peerMss = 0 := by
  obtain ⟨l, s, p, c, id, b, h1, h2, h3, h4, h5, h6, _, h8, h9, _⟩ := only_plain hck ho y mo
  refine ⟨l, s, p, c, h1, h2, h3, h5, h6, ?_⟩
  rw [hy] at h9
  simp only [Option.getD_some] at h9
  simp only [List.mem_cons, List.not_mem_nil, or_false] at h8
  omega

/-! ## C107: nothing is lost, nothing overflows -/

/-- How often a record is named in a list of entries. -/
def named (i : Nat) (l : List Sc) : Nat := l.countP fun e => e.id = some i

theorem named_eq (i : Nat) (l : List Sc) : named i l = cntL i l := by
  unfold named cntL; rw [List.countP_eq_length_filter]

/-- **C107**: in every history each bucket has at most 30 entries and counts them right; the entries of a connection are in its bucket; and each record of
the zone is in exactly one place: free, in the hands of a thread, or in one bucket. -/
theorem cache_in_order {l : Log} (h : Hist cfg l s) :
    (∀ k, (s.b k).len = (s.b k).list.length ∧ (s.b k).list.length ≤ 30) ∧ (∀ k, ∀ e ∈ (s.b k).list, bucketOf e.inc = k) ∧
    ∀ i < cfg.n, s.free.count i + named i s.flight + ((List.range 1024).map fun k => named i (s.b k).list).sum = 1 := by
  have I := h.inv
  refine ⟨fun k => ⟨(I.ok k).len, (I.ok k).lim⟩, fun k e he => ((I.ok k).home e he).1, ?_⟩
  intro i hi
  have := I.cnt i
  rw [if_pos hi] at this
  unfold cnt tot at this
  simp only [named_eq]
  exact this

/-- **C107**: a new SYN is always taken up if a record is free or can be freed in its bucket, and with cookies even if none can. -/
theorem syn_taken (y : SynIn) (hl : lookup (s.b (bucketOf y.inc)) y.inc = none) (h : s.free ≠ [] ∨ (∃ e, (s.b (bucketOf y.inc)).list.getLast? = some e ∧ e.id.isSome = true) ∨ cfg.cookies = true) :
    ∃ f, (step cfg s (.syn y)).2.flight = s.flight ++ [f] ∧ f.inc = y.inc ∧ f.irs = y.seq := by
  have la : ∀ (s' : S) (id : Option Nat), s'.flight = s.flight → ∃ f, (launch cfg s' y id).flight = s.flight ++ [f] ∧ f.inc = y.inc ∧ f.irs = y.seq := by
    intro s' id e
    have g := made_fields (cfg := cfg) (s'.b (bucketOf y.inc)) y id
    exact ⟨_, by rw [launch_flight, e], g.1, g.2.1⟩
  unfold step
  simp only [hl]
  cases hf : s.free with
  | cons i r => exact la { s with free := r } _ rfl
  | nil =>
    simp only
    cases hf1 : (dropLast s (bucketOf y.inc)).free with
    | cons i r => exact la { dropLast s (bucketOf y.inc) with free := r } _ (dropLast_flight _ _)
    | nil =>
      simp only
      rcases h with h | ⟨e, h1, h2⟩ | h
      · exact absurd hf h
      · exfalso
        unfold dropLast at hf1
        rw [h1] at hf1
        simp only at hf1
        obtain ⟨i, hi⟩ := Option.isSome_iff_exists.1 h2
        rw [hi] at hf1
        cases hf1
      · simp only [h, if_true]; exact la _ _ (dropLast_flight _ _)

end Verif.Syncache

import Verif.Syncache.Hand
/-! # Half-open connections: cookies under a known secret, and known initial sequence numbers -/
namespace Verif.Syncache

variable {cfg : Cfg} {s : S}

/-- What the receiver reads in a cookie. -/
theorem cookieOf_read (sec : List Nat) (inc : Inc) (irs flags : W) (hf : flags.toNat < 128) :
    cookieOf cfg sec inc irs flags &&& 0x7f = flags ∧
    cookieOf cfg sec inc irs flags &&& ~~~(0x7f : W) = cfg.md5 (hashed cfg sec ((cookieOf cfg sec inc irs flags >>> 1) &&& 7).toNat inc irs flags) 0 <<< 7 := by
  have e7 : BitVec.ofNat 32 (2 ^ 7 - 1) = (0x7f : W) := by decide
  have lt : flags.toNat < 2 ^ 7 := hf
  have x := or_shl_toNat 7 (by omega) flags (cfg.md5 (hashed cfg sec ((flags >>> 1) &&& 7).toNat inc irs flags) 0) lt
  have l : cookieOf cfg sec inc irs flags &&& 0x7f = flags := by
    have m := and_mask 7 (cookieOf cfg sec inc irs flags) (by omega)
    rw [e7] at m
    apply BitVec.eq_of_toNat_eq
    rw [m]; unfold cookieOf; rw [x]; omega
  refine ⟨l, ?_⟩
  rw [low_off, l]
  have := and_not_mask 7 (by omega) flags (cfg.md5 (hashed cfg sec ((flags >>> 1) &&& 7).toNat inc irs flags) 0) lt
  rw [e7] at this; exact this

/-- Whoever knows a secret can open a connection without any SYN. -/
theorem forge (hck : cfg.cookies = true) (x : AckIn) (irs flags : W) (hl : lookup (s.b (bucketOf x.inc)) x.inc = none)
    (hn : x.now ≤ (s.b (bucketOf x.inc)).reseed + 16) (hf : flags.toNat < 128)
    (ha : x.ack = cookieOf cfg ((s.b (bucketOf x.inc)).sec (flags &&& 1 ≠ 0)) x.inc irs flags + 1) (hs : x.seq = irs + 1)
    (ho : x.o.ts = none) (hw : 1 ≤ x.win) (hk : x.sockOk = true) :
    ∃ c, step cfg s (.ack x) = (.conn c, s) ∧ c.inc = x.inc ∧ c.irs = irs := by
  obtain ⟨r1, r2⟩ := cookieOf_read (cfg := cfg) ((s.b (bucketOf x.inc)).sec (flags &&& 1 ≠ 0)) x.inc irs flags hf
  have key : ∃ sc, cookieLookup cfg (s.b (bucketOf x.inc)) x.inc x.ack x.seq x.o x.win x.now x.tick = some sc ∧ sc.inc = x.inc ∧ sc.irs = irs ∧ sc.iss + 1 = x.ack ∧ sc.wnd = clip x.win := by
    unfold cookieLookup
    simp only [ha, hs, BitVec.add_sub_cancel, ho]
    rw [if_neg (by omega), r1, if_neg (by rw [r2]; simp)]
    simp only [Option.isSome_none, Bool.false_and, Bool.false_eq_true, if_false]
    exact ⟨_, rfl, rfl, rfl, rfl, rfl⟩
  obtain ⟨sc, k1, k2, k3, k4, k5⟩ := key
  have w : 1 ≤ clip x.win := by unfold clip; omega
  have v : valid sc x = true := by
    refine (valid_iff (by rw [k5]; exact clip_le _)).2 ⟨k4.symm, ⟨1, by omega, by rw [k5]; exact w, ?_⟩, ?_⟩
    · rw [hs, k3]; rfl
    · intro a b h; rw [ho] at h; cases h
  refine ⟨connOf x.inc.fib sc, ?_, by show { sc.inc with fib := x.inc.fib } = x.inc; rw [k2], k3⟩
  unfold step
  simp only [hl, hck, if_true, k1]
  rw [answer_conn.2 ⟨v, hk, rfl⟩]

/-- **C104 fails: before the first SYN, every connection can be forged.**  The secrets are zero until the first SYN of a bucket, and
for sixteen seconds an ACK made from them opens a connection, whatever the addresses and ports, though no SYN was ever received. -/
theorem forged_violated (hck : cfg.cookies = true) (inc : Inc) (irs : W) (now : Nat) (hn : now ≤ 16) (win : Int) (hw : 1 ≤ win) :
    ∃ c, (step cfg (init cfg) (.ack ⟨inc, cookieOf cfg (List.replicate 32 0) inc irs 0 + 1, irs + 1, ⟨none, none, none, false⟩, win, true, now, 0⟩)).1 = .conn c ∧
      c.inc = inc ∧ Hist cfg [] (init cfg) := by
  obtain ⟨c, h1, h2, _⟩ := forge (s := init cfg) hck ⟨inc, cookieOf cfg (List.replicate 32 0) inc irs 0 + 1, irs + 1, ⟨none, none, none, false⟩, win, true, now, 0⟩ irs 0
    rfl (show now ≤ 0 + 16 by omega) (by decide) (by rfl) rfl rfl hw rfl
  exact ⟨c, by rw [h1], h2, .nil⟩

theorem init_syn (hn : 0 < cfg.n) (x : SynIn) : ∃ i r, (init cfg).free = i :: r ∧ step cfg (init cfg) (.syn x) = (.none, launch cfg { init cfg with free := r } x (some i)) := by
  have : ∃ i r, (init cfg).free = i :: r := by
    unfold init
    simp only
    cases h : List.range cfg.n with
    | nil => rw [List.range_eq_nil] at h; omega
    | cons i r => exact ⟨i, r, rfl⟩
  obtain ⟨i, r, h⟩ := this
  refine ⟨i, r, h, ?_⟩
  unfold step
  simp only
  rw [show lookup ((init cfg).b (bucketOf x.inc)) x.inc = none from rfl, h]

/-- **C104 fails: after the first SYN of a bucket, every connection of the bucket can be forged for 32 seconds**: that SYN sets one of
the two secrets, the other stays zero. -/
theorem forged_later_violated (hck : cfg.cookies = true) (hn : 0 < cfg.n) (x : SynIn) (hx : 0 < x.now) (inc : Inc) (hb : bucketOf inc = bucketOf x.inc)
    (irs : W) (now : Nat) (ht : now ≤ x.now + 32) (win : Int) (hw : 1 ≤ win) :
    ∃ s c, Hist cfg [(.syn x, .none)] s ∧
      (step cfg s (.ack ⟨inc, cookieOf cfg (List.replicate 32 0) inc irs 0 + 1, irs + 1, ⟨none, none, none, false⟩, win, true, now, 0⟩)).1 = .conn c ∧ c.inc = inc := by
  obtain ⟨i, r, h1, h2⟩ := init_syn hn x
  have hh : Hist cfg [(.syn x, .none)] (launch cfg { init cfg with free := r } x (some i)) := by
    have := Hist.cons (.syn x) (Hist.nil (cfg := cfg))
    rw [h2] at this; exact this
  have hb' : ∀ j, j = bucketOf x.inc → ((launch cfg { init cfg with free := r } x (some i)).b j).reseed = x.now + 16 ∧ ((launch cfg { init cfg with free := r } x (some i)).b j).list = [] ∧
      ((launch cfg { init cfg with free := r } x (some i)).b j).even = List.replicate 32 0 := by
    intro j hj
    unfold launch
    simp only [hck, if_true, S.put, hj, if_pos]
    have : reseed ((init cfg).b (bucketOf x.inc)) x.now x.rnd = ⟨[], 0, true, x.rnd, List.replicate 32 0, x.now + 16⟩ := by
      unfold reseed init
      simp only
      rw [if_pos hx]; rfl
    have e : reseed (({ init cfg with free := r } : S).b (bucketOf x.inc)) x.now x.rnd = reseed ((init cfg).b (bucketOf x.inc)) x.now x.rnd := rfl
    rw [e, this]; exact ⟨rfl, rfl, rfl⟩
  obtain ⟨b1, b2, b3⟩ := hb' (bucketOf inc) hb
  obtain ⟨c, k1, k2, _⟩ := forge (s := launch cfg { init cfg with free := r } x (some i)) hck
    ⟨inc, cookieOf cfg (List.replicate 32 0) inc irs 0 + 1, irs + 1, ⟨none, none, none, false⟩, win, true, now, 0⟩ irs 0
    (by show lookup (S.b _ (bucketOf inc)) inc = none; unfold lookup; rw [b2]; rfl) (by show now ≤ (S.b _ (bucketOf inc)).reseed + 16; rw [b1]; omega) (by decide)
    (by show _ = cookieOf cfg ((S.b _ (bucketOf inc)).sec (decide ((0 : W) &&& 1 ≠ 0))) inc irs 0 + 1
        unfold Bucket.sec; rw [b3]; rfl) rfl rfl hw rfl
  exact ⟨_, c, hh, by rw [k1], k2⟩

/-- **C104 fails: without cookies the initial sequence number is always 31415.**  Whoever sends a SYN knows the number the SYN|ACK will
carry, and can answer without having seen it. -/
theorem isn_known_violated (hck : cfg.cookies = false) (hn : 0 < cfg.n) (x : SynIn) (hw : 1 ≤ x.win) (mo : Nat) :
    ∃ l s c, Hist cfg l s ∧ l.map Prod.fst = [.send 0 mo true, .syn x] ∧
      (step cfg s (.ack ⟨x.inc, 31416, x.seq + 1, ⟨none, none, none, false⟩, 0, true, 0, 0⟩)).1 = .conn c ∧ c.inc = x.inc := by
  obtain ⟨i, r, h1, h2⟩ := init_syn hn x
  have hh := Hist.cons (.syn x) (Hist.nil (cfg := cfg))
  rw [h2] at hh
  have hh2 := Hist.cons (.send 0 mo true) hh
  refine ⟨_, _, connOf x.inc.fib { fill cfg x (some i) with rxmits := 1 }, hh2, rfl, ?_, rfl⟩
  have e : launch cfg { init cfg with free := r } x (some i) = { init cfg with free := r, flight := [fill cfg x (some i)] } := by
    unfold launch; simp only [hck]; rfl
  have e2 : ((step cfg (launch cfg { init cfg with free := r } x (some i)) (.send 0 mo true)).2.b (bucketOf x.inc)).list = [{ fill cfg x (some i) with rxmits := 1 }] := by
    rw [e]
    unfold step
    simp only [List.getElem?_cons_zero, hck, if_true, Bool.false_and, Bool.false_eq_true, if_false]
    rw [if_pos (by rfl)]
    unfold insert
    rw [if_neg (by show ¬ limit ≤ 0; decide)]
    simp only [S.put]
    rw [if_pos (by rfl)]
    rfl
  have lk : lookup ((step cfg (launch cfg { init cfg with free := r } x (some i)) (.send 0 mo true)).2.b (bucketOf x.inc)) x.inc = some { fill cfg x (some i) with rxmits := 1 } := by
    unfold lookup
    rw [e2, List.find?_cons_of_pos]
    simp [Inc.same, fill]
  have w : 1 ≤ clip x.win := by unfold clip; omega
  generalize (step cfg (launch cfg { init cfg with free := r } x (some i)) (.send 0 mo true)).2 = s at lk
  have v : valid { fill cfg x (some i) with rxmits := 1 } ⟨x.inc, 31416, x.seq + 1, ⟨none, none, none, false⟩, 0, true, 0, 0⟩ = true := by
    refine (valid_iff (clip_le x.win)).2 ⟨rfl, ⟨1, by omega, w, rfl⟩, fun a b h => (by cases h)⟩
  unfold step
  simp only [lk]
  exact answer_conn.2 ⟨v, rfl, rfl⟩

end Verif.Syncache

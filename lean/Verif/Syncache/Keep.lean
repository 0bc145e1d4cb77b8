import Verif.Syncache.Forge
/-! # Half-open connections: cookies are honoured -/
namespace Verif.Syncache

variable {cfg : Cfg} {s : S}

/-- Two buckets have the same secrets. -/
def SameSec (b' b : Bucket) : Prop := b'.oddeven = b.oddeven ∧ b'.odd = b.odd ∧ b'.even = b.even ∧ b'.reseed = b.reseed

theorem put_sec (s : S) (j k : Nat) (b : Bucket) (h : SameSec b (s.b j)) : SameSec ((s.put j b).b k) (s.b k) := by
  rw [put_b]
  by_cases e : k = j
  · rw [if_pos e, e]; exact h
  · rw [if_neg e]; exact ⟨rfl, rfl, rfl, rfl⟩

theorem dropLast_sec (s : S) (j k : Nat) : SameSec ((dropLast s j).b k) (s.b k) := by
  unfold dropLast
  cases (s.b j).list.getLast? with
  | none => exact ⟨rfl, rfl, rfl, rfl⟩
  | some e => simp only; rw [zfree_b]; exact put_sec s j k _ ⟨rfl, rfl, rfl, rfl⟩

/-- What an event does to the secrets of a bucket: nothing, or a SYN of the bucket reseeds them. -/
theorem step_secrets (ev : Ev) (k : Nat) :
    (((step cfg s ev).2.b k).oddeven = (s.b k).oddeven ∧ ((step cfg s ev).2.b k).odd = (s.b k).odd ∧ ((step cfg s ev).2.b k).even = (s.b k).even ∧ ((step cfg s ev).2.b k).reseed = (s.b k).reseed) ∨
    ∃ x b, ev = .syn x ∧ (b.oddeven = (s.b k).oddeven ∧ b.odd = (s.b k).odd ∧ b.even = (s.b k).even ∧ b.reseed = (s.b k).reseed) ∧ (step cfg s ev).2.b k = reseed b x.now x.rnd := by
  have put := fun (s' : S) (j : Nat) (b : Bucket) => put_sec s' j k b
  have dl := fun (s' : S) (j : Nat) => dropLast_sec s' j k
  have dr : ∀ (s' : S) (j : Nat) (inc : Inc) (id : Option Nat), (((s'.put j ((s'.b j).remove inc)).zfree id).b k).oddeven = (s'.b k).oddeven ∧ (((s'.put j ((s'.b j).remove inc)).zfree id).b k).odd = (s'.b k).odd ∧
      (((s'.put j ((s'.b j).remove inc)).zfree id).b k).even = (s'.b k).even ∧ (((s'.put j ((s'.b j).remove inc)).zfree id).b k).reseed = (s'.b k).reseed := by
    intro s' j inc id
    rw [zfree_b]; exact put s' j _ ⟨rfl, rfl, rfl, rfl⟩
  cases ev with
  | syn x =>
    have la : ∀ (s' : S) (id : Option Nat), ((s'.b k).oddeven = (s.b k).oddeven ∧ (s'.b k).odd = (s.b k).odd ∧ (s'.b k).even = (s.b k).even ∧ (s'.b k).reseed = (s.b k).reseed) →
        (((launch cfg s' x id).b k).oddeven = (s.b k).oddeven ∧ ((launch cfg s' x id).b k).odd = (s.b k).odd ∧ ((launch cfg s' x id).b k).even = (s.b k).even ∧ ((launch cfg s' x id).b k).reseed = (s.b k).reseed) ∨
        ∃ y b, Ev.syn x = .syn y ∧ (b.oddeven = (s.b k).oddeven ∧ b.odd = (s.b k).odd ∧ b.even = (s.b k).even ∧ b.reseed = (s.b k).reseed) ∧ (launch cfg s' x id).b k = reseed b y.now y.rnd := by
      intro s' id h
      unfold launch
      simp only
      by_cases c : cfg.cookies = true
      · rw [if_pos c]
        by_cases e : k = bucketOf x.inc
        · right; refine ⟨x, s'.b k, rfl, h, ?_⟩
          show (s'.put _ _).b k = _
          rw [put_b, if_pos e, e]
        · left
          have : ((s'.put (bucketOf x.inc) (reseed (s'.b (bucketOf x.inc)) x.now x.rnd)).b k) = s'.b k := by rw [put_b, if_neg e]
          show ((s'.put _ _).b k).oddeven = _ ∧ ((s'.put _ _).b k).odd = _ ∧ ((s'.put _ _).b k).even = _ ∧ ((s'.put _ _).b k).reseed = _
          rw [this]; exact h
      · rw [if_neg c]; left; exact h
    unfold step
    simp only
    cases lookup (s.b (bucketOf x.inc)) x.inc with
    | some sc => left; exact put s _ _ ⟨rfl, rfl, rfl, rfl⟩
    | none =>
      simp only
      cases s.free with
      | cons i r => exact la { s with free := r } _ ⟨rfl, rfl, rfl, rfl⟩
      | nil =>
        simp only
        cases (dropLast s (bucketOf x.inc)).free with
        | cons i r => exact la { dropLast s (bucketOf x.inc) with free := r } _ (dl s _)
        | nil =>
          simp only
          by_cases c : cfg.cookies = true
          · rw [if_pos c]; exact la _ _ (dl s _)
          · rw [if_neg c]; left; exact dl s _
  | send i mo ok =>
    left
    unfold step
    simp only
    cases s.flight[i]? with
    | none => exact ⟨rfl, rfl, rfl, rfl⟩
    | some sc =>
      simp only
      cases ok with
      | false => simp only [Bool.false_eq_true, if_false]; rw [zfree_b]; exact ⟨rfl, rfl, rfl, rfl⟩
      | true =>
        simp only [if_true]
        by_cases c : (cfg.cookies && cfg.only) = true
        · rw [if_pos c, zfree_b]; exact ⟨rfl, rfl, rfl, rfl⟩
        · rw [if_neg c]
          by_cases d : sc.id.isSome = true
          · rw [if_pos d]
            unfold insert
            simp only
            have q := dl { s with flight := s.flight.eraseIdx i } (bucketOf sc.inc)
            by_cases e : limit ≤ (({ s with flight := s.flight.eraseIdx i } : S).b (bucketOf sc.inc)).len
            · rw [if_pos e]
              have p := put (dropLast { s with flight := s.flight.eraseIdx i } (bucketOf sc.inc)) (bucketOf sc.inc)
                { (dropLast { s with flight := s.flight.eraseIdx i } (bucketOf sc.inc)).b (bucketOf sc.inc) with
                  list := { sc with rxmits := sc.rxmits + 1 } :: ((dropLast { s with flight := s.flight.eraseIdx i } (bucketOf sc.inc)).b (bucketOf sc.inc)).list
                  len := ((dropLast { s with flight := s.flight.eraseIdx i } (bucketOf sc.inc)).b (bucketOf sc.inc)).len + 1 } ⟨rfl, rfl, rfl, rfl⟩
              exact ⟨p.1.trans q.1, p.2.1.trans q.2.1, p.2.2.1.trans q.2.2.1, p.2.2.2.trans q.2.2.2⟩
            · rw [if_neg e]
              exact put { s with flight := s.flight.eraseIdx i } _ _ ⟨rfl, rfl, rfl, rfl⟩
          · rw [if_neg d]; exact ⟨rfl, rfl, rfl, rfl⟩
  | ack x =>
    left
    unfold step
    simp only
    cases lookup (s.b (bucketOf x.inc)) x.inc with
    | none =>
      simp only
      by_cases c : cfg.cookies = true
      · rw [if_pos c]; cases cookieLookup cfg (s.b (bucketOf x.inc)) x.inc x.ack x.seq x.o x.win x.now x.tick <;> exact ⟨rfl, rfl, rfl, rfl⟩
      · rw [if_neg c]; exact ⟨rfl, rfl, rfl, rfl⟩
    | some sc => exact dr s _ _ _
  | rst inc seq bad =>
    left
    unfold step
    simp only
    cases lookup (s.b (bucketOf inc)) inc with
    | none => exact ⟨rfl, rfl, rfl, rfl⟩
    | some sc =>
      simp only
      by_cases c : (!bad && geq seq sc.irs && leq seq (sc.irs + BitVec.ofNat 32 sc.wnd)) = true
      · rw [if_pos c]; exact dr s _ _ _
      · rw [if_neg c]; exact ⟨rfl, rfl, rfl, rfl⟩
  | badack inc =>
    left
    unfold step
    simp only
    cases lookup (s.b (bucketOf inc)) inc with
    | none => exact ⟨rfl, rfl, rfl, rfl⟩
    | some sc => exact dr s _ _ _
  | unreach inc seq =>
    left
    unfold step
    simp only
    cases lookup (s.b (bucketOf inc)) inc with
    | none => exact ⟨rfl, rfl, rfl, rfl⟩
    | some sc =>
      simp only
      by_cases c : seq ≠ sc.iss
      · rw [if_pos c]; exact ⟨rfl, rfl, rfl, rfl⟩
      · rw [if_neg c]
        by_cases d : (!sc.unreach || decide (sc.rxmits < 4)) = true
        · rw [if_pos d]; exact put s _ _ ⟨rfl, rfl, rfl, rfl⟩
        · rw [if_neg d]; exact dr s _ _ _

/-- A cookie made at time `T` with the secret `sec` of parity `p` can still be recognised at time `t`, or it is older than 16 seconds. -/
def Keeps (T : Nat) (p : Bool) (sec : List Nat) (t : Nat) (b : Bucket) : Prop :=
  (b.sec p = sec ∧ b.oddeven = p ∧ T ≤ b.reseed) ∨ (b.sec p = sec ∧ b.oddeven = !p ∧ T + 17 ≤ b.reseed) ∨ T + 16 < t

theorem Keeps.congr {T t t' : Nat} {p : Bool} {sec : List Nat} {b b' : Bucket} (h : Keeps T p sec t b) (ht : t ≤ t')
    (e : b'.oddeven = b.oddeven ∧ b'.odd = b.odd ∧ b'.even = b.even ∧ b'.reseed = b.reseed) : Keeps T p sec t' b' := by
  have es : b'.sec p = b.sec p := by unfold Bucket.sec; rw [e.2.1, e.2.2.1]
  unfold Keeps
  rw [es, e.1, e.2.2.2]
  rcases h with h | h | h
  · exact .inl h
  · exact .inr (.inl h)
  · exact .inr (.inr (by omega))

theorem Keeps.reseed {T t : Nat} {p : Bool} {sec rnd : List Nat} {b : Bucket} (h : Keeps T p sec t b) : Keeps T p sec t (reseed b t rnd) := by
  unfold Verif.Syncache.reseed
  by_cases c : b.reseed < t
  · rw [if_pos c]
    rcases h with ⟨h1, h2, h3⟩ | ⟨h1, h2, h3⟩ | h
    · right; left
      cases p with
      | true => rw [if_pos h2]; exact ⟨h1, rfl, show T + 17 ≤ t + 16 by omega⟩
      | false => rw [if_neg (by rw [h2]; simp)]; exact ⟨h1, rfl, show T + 17 ≤ t + 16 by omega⟩
    · right; right; omega
    · right; right; exact h
  · rw [if_neg c]; exact h

theorem TRun.keeps {T t0 t : Nat} {p : Bool} {sec : List Nat} {s0 : S} (h : TRun cfg t0 s0 t s) (k : Nat) (h0 : Keeps T p sec t0 (s0.b k)) : Keeps T p sec t (s.b k) := by
  induction h with
  | refl => exact h0
  | @step t1 _ s1 ev t' _ ht hu ih =>
    rcases step_secrets (cfg := cfg) (s := s1) ev k with e | ⟨x, b, e1, e2, e3⟩
    · exact (ih h0).congr ht e
    · have : x.now = t' := hu _ (by rw [e1]; rfl)
      rw [e3, this]
      exact ((ih h0).congr ht e2).reseed

/-- With cookies, every SYN not in the cache is answered: its entry is under way. -/
theorem syn_launched (hck : cfg.cookies = true) (y : SynIn) (hl : lookup (s.b (bucketOf y.inc)) y.inc = none) :
    ∃ id b, (step cfg s (.syn y)).2.flight = s.flight ++ [generate cfg (reseed b y.now y.rnd) y.mo y.tick (fill cfg y id)] ∧
      (step cfg s (.syn y)).2.b (bucketOf y.inc) = reseed b y.now y.rnd ∧ SameSec b (s.b (bucketOf y.inc)) := by
  have la : ∀ (s' : S) (id : Option Nat), s'.flight = s.flight → SameSec (s'.b (bucketOf y.inc)) (s.b (bucketOf y.inc)) → ∃ b, (launch cfg s' y id).flight = s.flight ++ [generate cfg (reseed b y.now y.rnd) y.mo y.tick (fill cfg y id)] ∧
      (launch cfg s' y id).b (bucketOf y.inc) = reseed b y.now y.rnd ∧ SameSec b (s.b (bucketOf y.inc)) := by
    intro s' id h hs
    refine ⟨s'.b (bucketOf y.inc), ?_, ?_, hs⟩
    · rw [launch_flight, h]; unfold made; rw [if_pos hck]
    · unfold launch
      simp only [hck, if_true]
      rw [put_b, if_pos rfl]
  unfold step
  simp only [hl]
  cases s.free with
  | cons i r => obtain ⟨b, h⟩ := la { s with free := r } (some i) rfl ⟨rfl, rfl, rfl, rfl⟩; exact ⟨_, b, h⟩
  | nil =>
    simp only
    cases (dropLast s (bucketOf y.inc)).free with
    | cons i r => obtain ⟨b, h⟩ := la { dropLast s (bucketOf y.inc) with free := r } (some i) (dropLast_flight _ _) (dropLast_sec _ _ _); exact ⟨_, b, h⟩
    | nil => simp only [hck, if_true]; obtain ⟨b, h⟩ := la (dropLast s (bucketOf y.inc)) none (dropLast_flight _ _) (dropLast_sec _ _ _); exact ⟨_, b, h⟩

/-- `m` is the largest MSS a cookie can carry that is not above `p`. -/
def BestMss (m p : Nat) : Prop := m ∈ [0, 256, 468, 536, 996, 1452, 1460, 8960] ∧ m ≤ p ∧ ∀ q ∈ [0, 256, 468, 536, 996, 1452, 1460, 8960], q ≤ p → q ≤ m

theorem mssLoop_best (p : Nat) : BestMss (msstab (mssLoop 7 p)) p := by
  have e : ∀ i, i ≤ 7 → msstab i ∈ [0, 256, 468, 536, 996, 1452, 1460, 8960] := by decide
  refine ⟨e _ (mssLoop_le 7 p), ?_⟩
  simp only [mssLoop, List.forall_mem_cons]
  simp only [show msstab 1 = 256 from rfl, show msstab 2 = 468 from rfl, show msstab 3 = 536 from rfl, show msstab 4 = 996 from rfl, show msstab 5 = 1452 from rfl, show msstab 6 = 1460 from rfl,
    show msstab 7 = 8960 from rfl, Nat.reduceAdd]
  repeat' split
  all_goals simp only [show msstab 0 = 0 from rfl, show msstab 1 = 256 from rfl, show msstab 2 = 468 from rfl, show msstab 3 = 536 from rfl, show msstab 4 = 996 from rfl, show msstab 5 = 1452 from rfl,
    show msstab 6 = 1460 from rfl, show msstab 7 = 8960 from rfl]
  all_goals (refine ⟨by omega, ?_⟩; refine ⟨?_, ?_, ?_, ?_, ?_, ?_, ?_, ?_, ?_⟩ <;> first | omega | (intro x hx; cases hx))

theorem wscale_le (sb k w : Nat) (h : w ≤ 14) : wscale sb k w ≤ 14 := by
  induction k generalizing w with
  | zero => exact h
  | succ k ih =>
    unfold wscale
    by_cases c : (decide (w < 14) && decide (65535 * 2 ^ w < sb)) = true
    · rw [if_pos c]
      simp only [Bool.and_eq_true, decide_eq_true_eq] at c
      exact ih _ (by omega)
    · rw [if_neg c]; exact h

/-- **C105** (within 16 seconds, the bucket not holding another entry for the connection): a returning cookie is honoured.  A SYN `y` is
answered with a SYN|ACK `p`, and whatever happens then, including that the entry is dropped and secrets are replaced, an ACK of that
SYN|ACK at most 16 seconds after the SYN opens the connection: with the sequence numbers of the two segments, an MSS as large
as a cookie can carry but not above the peer's, and, if the ACK echoes the timestamp the SYN|ACK carried, the agreed options.
(`_partial`: the timestamp must not carry the all-zero payload; window scales are assumed at most 14, as RFC 1323 demands.) -/
theorem cookie_honoured_partial (hck : cfg.cookies = true) (y : SynIn) (hl : lookup (s.b (bucketOf y.inc)) y.inc = none) :
    ∃ f, (step cfg s (.syn y)).2.flight = s.flight ++ [f] ∧
    ∀ (mo t : Nat) (s2 : S) (x : AckIn), TRun cfg y.now (step cfg s (.syn y)).2 t s2 → t ≤ x.now → x.now ≤ y.now + 16 →
      lookup (s2.b (bucketOf y.inc)) y.inc = none → x.inc = y.inc → x.ack = (respond cfg mo f).seq + 1 → x.seq = (respond cfg mo f).ack → 1 ≤ x.win → x.sockOk = true →
      (x.o.ts = none → ∃ c, (step cfg s2 (.ack x)).1 = .conn c ∧ c.inc = y.inc ∧ c.iss = (respond cfg mo f).seq ∧ c.irs = y.seq ∧
          BestMss c.peerMss (max (min (y.o.mss.getD 0) y.mo) cfg.minMss) ∧ c.scale = none ∧ c.sack = false ∧ c.ts = none) ∧
      (∀ val ecr back, (respond cfg mo f).ts = some (ecr, back) → x.o.ts = some (val, ecr) → y.o.scale.getD 0 % 16 ≤ 14 →
        ecr ≠ cfg.md5 (hashed cfg (((step cfg s (.syn y)).2.b (bucketOf y.inc)).sec ((step cfg s (.syn y)).2.b (bucketOf y.inc)).oddeven) 7 y.inc y.seq ((respond cfg mo f).seq &&& 0x7f)) 3 →
        ∃ c, (step cfg s2 (.ack x)).1 = .conn c ∧ c.inc = y.inc ∧ c.iss = (respond cfg mo f).seq ∧ c.irs = y.seq ∧
          BestMss c.peerMss (max (min (y.o.mss.getD 0) y.mo) cfg.minMss) ∧ c.sack = (respond cfg mo f).sack ∧ c.ts.map Prod.fst = some val ∧
          (c.scale = none → ((respond cfg mo f).scale = none ∨ ((respond cfg mo f).scale = some 0 ∧ y.o.scale.getD 0 % 16 = 0))) ∧
          (∀ a b, c.scale = some (a, b) → y.o.scale.isSome = true ∧ a = y.o.scale.getD 0 % 16 ∧ (respond cfg mo f).scale = some b)) := by
  obtain ⟨id, b, h1, h2, _⟩ := syn_launched (s := s) hck y hl
  refine ⟨_, h1, ?_⟩
  intro mo t s2 x hr hx1 hx2 hl2 hxi hxa hxs hxw hxk
  have k0 : Keeps y.now (reseed b y.now y.rnd).oddeven ((reseed b y.now y.rnd).sec (reseed b y.now y.rnd).oddeven) y.now ((step cfg s (.syn y)).2.b (bucketOf y.inc)) := by
    rw [h2]
    left; refine ⟨rfl, rfl, ?_⟩
    unfold reseed
    by_cases c : b.reseed < y.now
    · rw [if_pos c]; split
      · show y.now ≤ y.now + 16; omega
      · show y.now ≤ y.now + 16; omega
    · rw [if_neg c]; omega
  have k2 := hr.keeps _ k0
  have sec2 : (s2.b (bucketOf y.inc)).sec (reseed b y.now y.rnd).oddeven = (reseed b y.now y.rnd).sec (reseed b y.now y.rnd).oddeven ∧ x.now ≤ (s2.b (bucketOf y.inc)).reseed + 16 := by
    rcases k2 with ⟨a, _, c⟩ | ⟨a, _, c⟩ | c
    · exact ⟨a, by omega⟩
    · exact ⟨a, by omega⟩
    · omega
  have hiss : (fill cfg y id).iss = 31415 := rfl
  have gr := generate_rest cfg (reseed b y.now y.rnd) y.mo y.tick (fill cfg y id)
  have eirs : (respond cfg mo (generate cfg (reseed b y.now y.rnd) y.mo y.tick (fill cfg y id))).ack = y.seq + 1 := by
    show (generate cfg (reseed b y.now y.rnd) y.mo y.tick (fill cfg y id)).irs + 1 = _
    rw [gr]; rfl
  have eiss : (respond cfg mo (generate cfg (reseed b y.now y.rnd) y.mo y.tick (fill cfg y id))).seq = (generate cfg (reseed b y.now y.rnd) y.mo y.tick (fill cfg y id)).iss := rfl
  rw [eirs] at hxs
  rw [eiss] at hxa ⊢
  have w : 1 ≤ clip x.win := by unfold clip; omega
  have run : ∀ sc, cookieLookup cfg (s2.b (bucketOf y.inc)) (fill cfg y id).inc ((generate cfg (reseed b y.now y.rnd) y.mo y.tick (fill cfg y id)).iss + 1) ((fill cfg y id).irs + 1) x.o x.win x.now x.tick = some sc →
      sc.iss = (generate cfg (reseed b y.now y.rnd) y.mo y.tick (fill cfg y id)).iss → sc.irs = y.seq → sc.wnd = clip x.win → (∀ v e, x.o.ts = some (v, e) → sc.tsF = true ∧ e = sc.ts) →
      (step cfg s2 (.ack x)).1 = .conn (connOf x.inc.fib sc) := by
    intro sc q1 q2 q3 q4 q5
    unfold step
    simp only [hxi, hl2, hck, if_true]
    have : cookieLookup cfg (s2.b (bucketOf y.inc)) y.inc x.ack x.seq x.o x.win x.now x.tick = some sc := by rw [hxa, hxs]; exact q1
    rw [this]
    refine answer_conn.2 ⟨(valid_iff (by rw [q4]; exact clip_le _)).2 ⟨by rw [hxa, q2], ⟨1, by omega, by rw [q4]; exact w, ?_⟩, q5⟩, hxk, by rw [hxi]⟩
    rw [hxs, q3]; rfl
  refine ⟨?_, ?_⟩
  · intro ho
    have ck := cookie_plain cfg (b' := s2.b (bucketOf y.inc)) (mo := y.mo) (tick := y.tick) (tick' := x.tick) (win := x.win) hiss sec2.1 sec2.2 ho
    exact ⟨_, run _ ck rfl rfl rfl (fun v e h => by rw [ho] at h; cases h), by show { y.inc with fib := x.inc.fib } = y.inc; rw [hxi], rfl, rfl, mssLoop_best _, rfl, rfl, rfl⟩
  · intro val ecr back ht ho hsc hz
    have tsF : (fill cfg y id).tsF = true ∧ (fill cfg y id).noopt = false ∧ ecr = (generate cfg (reseed b y.now y.rnd) y.mo y.tick (fill cfg y id)).ts := by
      unfold respond at ht
      simp only at ht
      split at ht
      · rename_i c
        rw [gr] at c
        simp only [Bool.and_eq_true, Bool.not_eq_true'] at c
        cases ht
        exact ⟨c.2, c.1, rfl⟩
      · cases ht
    obtain ⟨t1, t2, t3⟩ := tsF
    have rf : cfg.rfc1323 = true := by
      have : (cfg.rfc1323 && y.o.ts.isSome) = true := t1
      exact (Bool.and_eq_true _ _ ▸ this).1
    have s1 : (fill cfg y id).sScale ≤ 14 := by
      show (if cfg.rfc1323 then y.o.scale.getD 0 % 16 else 0) ≤ 14
      rw [if_pos rf]; exact hsc
    have s2' : (fill cfg y id).rScale ≤ 14 := by
      show (if cfg.rfc1323 && y.o.scale.isSome then wscale cfg.sbMax 14 0 else 0) ≤ 14
      split
      · exact wscale_le _ _ _ (by omega)
      · omega
    have g := generate_iss cfg (reseed b y.now y.rnd) y.mo y.tick (fill cfg y id) hiss
    have lt : mssIdx cfg y.mo (fill cfg y id) < 8 := by have := mssLoop_le 7 (max (min (fill cfg y id).peerMss y.mo) cfg.minMss); unfold mssIdx; omega
    have pr := params_read (reseed b y.now y.rnd).oddeven lt (digest cfg (reseed b y.now y.rnd) y.mo (fill cfg y id) 0)
    have esd : cfg.md5 (hashed cfg (((step cfg s (.syn y)).2.b (bucketOf y.inc)).sec ((step cfg s (.syn y)).2.b (bucketOf y.inc)).oddeven) 7 y.inc y.seq
        ((generate cfg (reseed b y.now y.rnd) y.mo y.tick (fill cfg y id)).iss &&& 0x7f)) = digest cfg (reseed b y.now y.rnd) y.mo (fill cfg y id) := by
      rw [g, pr.1, h2]; rfl
    have gt := generate_ts cfg (reseed b y.now y.rnd) y.mo y.tick (fill cfg y id) hiss t1
    have nz : payload (fill cfg y id).sack (fill cfg y id).sScale (fill cfg y id).rScale (digest cfg (reseed b y.now y.rnd) y.mo (fill cfg y id) 2) ≠ 0 := by
      intro h
      rw [h] at gt
      apply hz
      rw [t3, gt, esd]; simp
    have ck := cookie_ts cfg (b' := s2.b (bucketOf y.inc)) (mo := y.mo) (tick := y.tick) (tick' := x.tick) (win := x.win) (now := x.now) hiss t1 s1 s2' sec2.1 sec2.2 (by rw [ho, t3])
    rw [if_pos nz] at ck
    refine ⟨_, run _ ck rfl rfl rfl (fun v e h => ?_), by show { y.inc with fib := x.inc.fib } = y.inc; rw [hxi], rfl, rfl, mssLoop_best _, ?_, rfl, ?_, ?_⟩
    · rw [ho] at h; cases h; exact ⟨rfl, t3⟩
    · show (!false && (fill cfg y id).sack) = (!(generate cfg (reseed b y.now y.rnd) y.mo y.tick (fill cfg y id)).noopt && (generate cfg (reseed b y.now y.rnd) y.mo y.tick (fill cfg y id)).sack)
      rw [gr, t2]
    all_goals
      have er : (respond cfg mo (generate cfg (reseed b y.now y.rnd) y.mo y.tick (fill cfg y id))).scale = (if y.o.scale.isSome then some (fill cfg y id).rScale else none) := by
        show (if !(generate cfg (reseed b y.now y.rnd) y.mo y.tick (fill cfg y id)).noopt && (generate cfg (reseed b y.now y.rnd) y.mo y.tick (fill cfg y id)).scaleF then
          some (generate cfg (reseed b y.now y.rnd) y.mo y.tick (fill cfg y id)).rScale else none) = _
        rw [gr, t2]
        show (if (true && (cfg.rfc1323 && y.o.scale.isSome)) = true then _ else _) = _
        rw [rf]; rfl
      rw [er]
      have es : (fill cfg y id).sScale = y.o.scale.getD 0 % 16 := by
        show (if cfg.rfc1323 then y.o.scale.getD 0 % 16 else 0) = _
        rw [if_pos rf]
      have en : y.o.scale.isSome ≠ true → (fill cfg y id).sScale = 0 ∧ (fill cfg y id).rScale = 0 := by
        intro h
        refine ⟨?_, ?_⟩
        · rw [es]; cases hh : y.o.scale with
          | none => rfl
          | some a => rw [hh] at h; simp at h
        · show (if cfg.rfc1323 && y.o.scale.isSome then wscale cfg.sbMax 14 0 else 0) = 0
          rw [if_neg (by simp [h])]
    · intro h
      by_cases hs : y.o.scale.isSome = true
      · rw [if_pos hs, ← es]
        right
        have h : (if (true && (decide ((fill cfg y id).sScale ≠ 0) || decide ((fill cfg y id).rScale ≠ 0))) = true then some ((fill cfg y id).sScale, (fill cfg y id).rScale) else none) = none := h
        split at h
        · cases h
        · rename_i n
          simp at n
          exact ⟨by rw [n.2], n.1⟩
      · rw [if_neg hs]; left; rfl
    · intro a b' h
      have h : (if (true && (decide ((fill cfg y id).sScale ≠ 0) || decide ((fill cfg y id).rScale ≠ 0))) = true then some ((fill cfg y id).sScale, (fill cfg y id).rScale) else none) = some (a, b') := h
      split at h
      · rename_i n
        cases h
        have hs : y.o.scale.isSome = true := by
          by_cases hs : y.o.scale.isSome = true
          · exact hs
          · rw [(en hs).1, (en hs).2] at n; simp at n
        rw [if_pos hs]
        exact ⟨hs, es, rfl⟩
      · cases h

end Verif.Syncache

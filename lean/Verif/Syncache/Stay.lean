import Verif.Syncache.Props
/-! # Half-open connections: removal, and one entry for each connection -/
namespace Verif.Syncache

variable {cfg : Cfg} {s : S}

theorem upd_stay {b : Bucket} {inc : Inc} {sc : Sc} (h : lookup b inc = some sc) {f : Sc → Sc} (hf : ∀ e, Later (f e) e) {e : Sc} (he : e ∈ b.list) :
    ∃ e' ∈ updFirst inc f b.list, Later e' e := by
  obtain ⟨l1, l2, h1, _, _, _, h5⟩ := find_split h
  rw [h5]
  rw [h1] at he
  rcases List.mem_append.1 he with m | m
  · exact ⟨e, List.mem_append.2 (.inl m), .refl e⟩
  · rcases List.mem_cons.1 m with m | m
    · exact ⟨f sc, by simp, by rw [m]; exact hf sc⟩
    · exact ⟨e, by simp [m], .refl e⟩

/-- What `drop` leaves. -/
theorem drop_stay {inc : Inc} {sc e : Sc} {k : Nat} (hl : lookup (s.b (bucketOf inc)) inc = some sc) (he : e ∈ (s.b k).list) :
    e = sc ∨ e ∈ (((s.put (bucketOf inc) ((s.b (bucketOf inc)).remove inc)).zfree sc.id).b k).list := by
  rw [zfree_b, put_b]
  by_cases c : k = bucketOf inc
  · rw [if_pos c]
    rw [c] at he
    obtain ⟨l1, l2, h1, _, _, h4, _⟩ := find_split hl
    show e = sc ∨ e ∈ (s.b (bucketOf inc)).list.eraseP _
    rw [h4]
    rw [h1] at he
    rcases List.mem_append.1 he with m | m
    · exact .inr (by simp [m])
    · rcases List.mem_cons.1 m with m | m
      · exact .inl m
      · exact .inr (by simp [m])
  · rw [if_neg c]; exact .inr he

theorem dropLast_stay {e : Sc} {k j : Nat} (he : e ∈ (s.b k).list) : e ∈ ((dropLast s j).b k).list ∨ (j = k ∧ (s.b k).list.getLast? = some e) := by
  unfold dropLast
  cases hg : (s.b j).list.getLast? with
  | none => exact .inl he
  | some x =>
    simp only
    rw [zfree_b, put_b]
    by_cases c : k = j
    · rw [if_pos c]
      rw [c] at he ⊢
      rw [getLast_split hg] at he
      rcases List.mem_append.1 he with m | m
      · exact .inl m
      · right; rw [List.mem_singleton.1 m]; exact ⟨rfl, hg⟩
    · rw [if_neg c]; exact .inl he

theorem launch_list (x : SynIn) (id : Option Nat) (k : Nat) : ((launch cfg s x id).b k).list = (s.b k).list := by
  unfold launch
  simp only
  by_cases c : cfg.cookies = true
  · rw [if_pos c]
    show ((s.put _ _).b k).list = _
    rw [put_b]
    by_cases e : k = bucketOf x.inc
    · rw [if_pos e, (reseed_list _ _ _).1, e]
    · rw [if_neg e]
  · rw [if_neg c]

theorem rst_window {seq irs : W} {wnd : Nat} (hw : wnd ≤ 65535) (h : (geq seq irs && leq seq (irs + BitVec.ofNat 32 wnd)) = true) : seq = irs ∨ InWindow seq irs wnd := by
  by_cases e : seq = irs
  · exact .inl e
  · right
    refine (window_iff seq irs hw).1 ?_
    rw [Bool.and_eq_true] at h ⊢
    refine ⟨?_, h.2⟩
    have g := h.1
    unfold geq at g
    rw [decide_eq_true_eq, BitVec.toInt_eq_toNat_cond] at g
    have : ¬ leq seq irs = true := by
      rw [leq_iff]
      have lt := (seq - irs).isLt
      have ne : (seq - irs).toNat ≠ 0 := by
        intro k
        apply e
        have : seq - irs = 0#32 := BitVec.eq_of_toNat_eq (by rw [k]; rfl)
        have r := BitVec.sub_add_cancel seq irs
        rw [this, BitVec.zero_add] at r
        exact r.symm
      generalize (seq - irs).toNat = d at *
      split at g <;> omega
    simp [this]

/-- Why an entry may go. -/
inductive Reason (cfg : Cfg) (s : S) (k : Nat) (e : Sc) : Ev → Prop where
  /-- An ACK for the connection. -/
  | ack (x : AckIn) : x.inc.same e.inc = true → Reason cfg s k e (.ack x)
  /-- A reset for the connection, and nothing else in the segment, with a sequence number in the window. -/
  | rst (inc : Inc) (seq : W) : inc.same e.inc = true → seq = e.irs ∨ InWindow seq e.irs e.wnd → Reason cfg s k e (.rst inc seq false)
  /-- A bad ACK for the connection. -/
  | badack (inc : Inc) : inc.same e.inc = true → Reason cfg s k e (.badack inc)
  /-- A SYN of another connection found no record, and this is the oldest of the bucket. -/
  | full (x : SynIn) : bucketOf x.inc = k → s.free = [] → (s.b k).list.getLast? = some e → Reason cfg s k e (.syn x)
  /-- Another entry comes, the bucket has 30, and this is the oldest. -/
  | push (i mo : Nat) (f : Sc) : s.flight[i]? = some f → bucketOf f.inc = k → (s.b k).list.length = 30 → (s.b k).list.getLast? = some e → Reason cfg s k e (.send i mo true)

/-- **C108** (an ACK that is not the right one counts as a reason): an entry stays, with the initial sequence numbers, options and window
it had, unless there is one of these reasons.  In particular no ICMP message removes it. -/
theorem entry_stays_partial {l : Log} (h : Hist cfg l s) {k : Nat} {e : Sc} (he : e ∈ (s.b k).list) (ev : Ev) :
    (∃ e' ∈ ((step cfg s ev).2.b k).list, e'.inc = e.inc ∧ e'.irs = e.irs ∧ e'.iss = e.iss ∧ e'.wnd = e.wnd ∧ e'.scaleF = e.scaleF ∧ e'.sack = e.sack ∧ e'.peerMss = e.peerMss) ∨ Reason cfg s k e ev := by
  have I := h.inv
  suffices hh : (∃ e' ∈ ((step cfg s ev).2.b k).list, Later e' e) ∨ Reason cfg s k e ev by
    rcases hh with ⟨e', m, L⟩ | r
    · obtain ⟨a1, a2, a3, a4, _, _, a7, _, _, a10, _, _, a13, _⟩ := core_fields L.1
      exact .inl ⟨e', m, a1, a2, a3, a4, a7, a10, a13⟩
    · exact .inr r
  have stay : e ∈ ((step cfg s ev).2.b k).list → (∃ e' ∈ ((step cfg s ev).2.b k).list, Later e' e) ∨ Reason cfg s k e ev := fun m => .inl ⟨e, m, .refl e⟩
  have wle : e.wnd ≤ 65535 := by
    obtain ⟨⟨y, b, id, p1, p2⟩, _⟩ := h.prov.2 k e he
    rw [(core_fields p2.1).2.2.2.1, (made_fields (cfg := cfg) b y id).2.2.1]; exact clip_le _
  cases ev with
  | syn x =>
    unfold step at stay ⊢
    simp only at stay ⊢
    cases hl : lookup (s.b (bucketOf x.inc)) x.inc with
    | some sc =>
      rw [hl] at stay
      simp only at stay ⊢
      left
      rw [put_b]
      by_cases c : k = bucketOf x.inc
      · rw [if_pos c]
        rw [c] at he
        refine upd_stay hl (fun e => ?_) he
        split
        · exact later_dup' x.o e 1
        · exact later_dup x.o e
      · rw [if_neg c]; exact ⟨e, he, .refl e⟩
    | none =>
      rw [hl] at stay
      simp only at stay ⊢
      cases hf : s.free with
      | cons i r => left; exact ⟨e, by rw [launch_list]; exact he, .refl e⟩
      | nil =>
        simp only
        rcases dropLast_stay (j := bucketOf x.inc) he with m | m
        · left
          refine ⟨e, ?_, .refl e⟩
          cases hf1 : (dropLast s (bucketOf x.inc)).free with
          | cons i r => simp only; rw [launch_list]; exact m
          | nil =>
            simp only
            by_cases c : cfg.cookies = true
            · rw [if_pos c]; show e ∈ ((launch cfg _ x none).b k).list; rw [launch_list]; exact m
            · rw [if_neg c]; exact m
        · exact .inr (.full x m.1 hf m.2)
  | send i mo ok =>
    unfold step at stay ⊢
    simp only at stay ⊢
    cases hg : s.flight[i]? with
    | none => exact .inl ⟨e, he, .refl e⟩
    | some sc =>
      rw [hg] at stay
      simp only at stay ⊢
      cases ok with
      | false => simp only [Bool.false_eq_true, if_false]; left; exact ⟨e, by rw [zfree_b]; exact he, .refl e⟩
      | true =>
        simp only [if_true]
        by_cases c : (cfg.cookies && cfg.only) = true
        · rw [if_pos c]; left; exact ⟨e, by rw [zfree_b]; exact he, .refl e⟩
        · rw [if_neg c]
          by_cases d : sc.id.isSome = true
          · rw [if_pos d]
            unfold insert
            simp only
            have key : ∀ s1 : S, e ∈ (s1.b k).list →
                e ∈ ((s1.put (bucketOf sc.inc) { s1.b (bucketOf sc.inc) with list := { sc with rxmits := sc.rxmits + 1 } :: (s1.b (bucketOf sc.inc)).list, len := (s1.b (bucketOf sc.inc)).len + 1 }).b k).list := by
              intro s1 m
              rw [put_b]
              by_cases f : k = bucketOf sc.inc
              · rw [if_pos f]; rw [f] at m; exact List.mem_cons_of_mem _ m
              · rw [if_neg f]; exact m
            by_cases g : limit ≤ (({ s with flight := s.flight.eraseIdx i } : S).b (bucketOf sc.inc)).len
            · rw [if_pos g]
              rcases dropLast_stay (s := { s with flight := s.flight.eraseIdx i }) (j := bucketOf sc.inc) he with m | m
              · left; exact ⟨e, key _ m, .refl e⟩
              · right
                refine .push i mo sc hg m.1 ?_ m.2
                have g : limit ≤ (s.b (bucketOf sc.inc)).len := g
                rw [m.1, (I.ok k).len] at g
                have := (I.ok k).lim
                unfold limit at *; omega
            · rw [if_neg g]; left; exact ⟨e, key { s with flight := s.flight.eraseIdx i } he, .refl e⟩
          · rw [if_neg d]; exact .inl ⟨e, he, .refl e⟩
  | ack x =>
    unfold step
    simp only
    cases hl : lookup (s.b (bucketOf x.inc)) x.inc with
    | none =>
      simp only
      by_cases c : cfg.cookies = true
      · rw [if_pos c]; cases cookieLookup cfg (s.b (bucketOf x.inc)) x.inc x.ack x.seq x.o x.win x.now x.tick <;> exact .inl ⟨e, he, .refl e⟩
      · rw [if_neg c]; exact .inl ⟨e, he, .refl e⟩
    | some sc =>
      rcases drop_stay hl he with m | m
      · right; rw [m]; exact .ack x (lookup_mem hl).2
      · left; exact ⟨e, m, .refl e⟩
  | rst inc seq bad =>
    unfold step
    simp only
    cases hl : lookup (s.b (bucketOf inc)) inc with
    | none => exact .inl ⟨e, he, .refl e⟩
    | some sc =>
      simp only
      by_cases c : (!bad && geq seq sc.irs && leq seq (sc.irs + BitVec.ofNat 32 sc.wnd)) = true
      · rw [if_pos c]
        rcases drop_stay hl he with m | m
        · right
          rw [Bool.and_assoc, Bool.and_eq_true, Bool.not_eq_true'] at c
          rw [c.1, m]
          rw [m] at wle
          exact .rst inc seq (lookup_mem hl).2 (rst_window wle c.2)
        · left; exact ⟨e, m, .refl e⟩
      · rw [if_neg c]; exact .inl ⟨e, he, .refl e⟩
  | badack inc =>
    unfold step
    simp only
    cases hl : lookup (s.b (bucketOf inc)) inc with
    | none => exact .inl ⟨e, he, .refl e⟩
    | some sc =>
      rcases drop_stay hl he with m | m
      · right; rw [m]; exact .badack inc (lookup_mem hl).2
      · left; exact ⟨e, m, .refl e⟩
  | unreach inc seq =>
    unfold step
    simp only
    cases hl : lookup (s.b (bucketOf inc)) inc with
    | none => exact .inl ⟨e, he, .refl e⟩
    | some sc =>
      simp only
      by_cases c : seq ≠ sc.iss
      · rw [if_pos c]; exact .inl ⟨e, he, .refl e⟩
      · rw [if_neg c]
        have r1 : sc.rxmits = 1 := ((I.ok _).home sc (lookup_mem hl).1).2.2
        rw [if_pos (by rw [r1]; simp)]
        left
        rw [put_b]
        by_cases d : k = bucketOf inc
        · rw [if_pos d]
          rw [d] at he
          exact upd_stay (f := fun e => { e with unreach := true }) hl (fun e => ⟨rfl, id⟩) he
        · rw [if_neg d]; exact ⟨e, he, .refl e⟩

/-- One connection in the cache, without cookies. -/
theorem one_entry (hck : cfg.cookies = false) (hn : 0 < cfg.n) (x : SynIn) (mo : Nat) :
    ∃ l s i, Hist cfg l s ∧ l.map Prod.fst = [.send 0 mo true, .syn x] ∧ (∀ t, x.now ≤ t → THist cfg t s) ∧
      s.b = (fun k => if k = bucketOf x.inc then { (init cfg).b k with list := [{ fill cfg x (some i) with rxmits := 1 }], len := 1 } else (init cfg).b k) ∧ s.flight = [] := by
  obtain ⟨i, r, h1, h2⟩ := init_syn hn x
  have hh := Hist.cons (.syn x) (Hist.nil (cfg := cfg))
  have th : THist cfg x.now (step cfg (init cfg) (.syn x)).2 := .step (.syn x) x.now .nil (Nat.zero_le _) (fun u h => by cases h; rfl)
  rw [h2] at hh th
  have e : launch cfg { init cfg with free := r } x (some i) = { init cfg with free := r, flight := [fill cfg x (some i)] } := by
    unfold launch; simp only [hck]; rfl
  have hh2 := Hist.cons (.send 0 mo true) hh
  have st : (step cfg (launch cfg { init cfg with free := r } x (some i)) (.send 0 mo true)).2.b =
      (fun k => if k = bucketOf x.inc then { (init cfg).b k with list := [{ fill cfg x (some i) with rxmits := 1 }], len := 1 } else (init cfg).b k) ∧
      (step cfg (launch cfg { init cfg with free := r } x (some i)) (.send 0 mo true)).2.flight = [] := by
    rw [e]
    unfold step
    simp only [List.getElem?_cons_zero, hck, if_true, Bool.false_and, Bool.false_eq_true, if_false]
    rw [if_pos (by rfl)]
    unfold insert
    rw [if_neg (by show ¬ limit ≤ 0; decide)]
    refine ⟨?_, rfl⟩
    funext k
    simp only [S.put]
    have ei : (fill cfg x (some i)).inc = x.inc := rfl
    rw [ei]
    by_cases c : k = bucketOf x.inc
    · rw [if_pos c, if_pos c, c]; rfl
    · rw [if_neg c, if_neg c]
  refine ⟨_, _, i, hh2, rfl, ?_, st.1, st.2⟩
  intro t ht
  exact .step (.send 0 mo true) t th ht (fun u h => by cases h)

/-- **C108 fails: any ACK removes the entry.**  An ACK with a wrong acknowledgement number, which anyone can send, is answered with a
reset and still removes the entry; without cookies the peer's genuine ACK is then reset. -/
theorem bogus_ack_violated (hck : cfg.cookies = false) (hn : 0 < cfg.n) (x : SynIn) (mo : Nat) (z : AckIn) (hz : z.inc = x.inc) (hza : z.ack ≠ 31416) (g : AckIn) (hg : g.inc = x.inc) :
    ∃ l s, Hist cfg l s ∧ l.map Prod.fst = [.ack z, .send 0 mo true, .syn x] ∧ (∃ l', l = (.ack z, .reset) :: l') ∧ (step cfg s (.ack g)).1 = .reset := by
  obtain ⟨l, s, i, h1, h2, _, h4, h5⟩ := one_entry hck hn x mo
  have lk : lookup (s.b (bucketOf z.inc)) z.inc = some { fill cfg x (some i) with rxmits := 1 } := by
    rw [h4, hz]
    simp only [if_true]
    unfold lookup
    rw [List.find?_cons_of_pos]
    simp [Inc.same, fill]
  have a1 : (step cfg s (.ack z)).1 = .reset := by
    unfold step
    simp only [lk]
    unfold answer
    rw [if_neg]
    intro v
    exact hza ((valid_iff (clip_le x.win)).1 v).1
  have a2 : ((step cfg s (.ack z)).2.b (bucketOf g.inc)).list = [] := by
    unfold step
    simp only [lk]
    rw [zfree_b, put_b, hg, hz, if_pos rfl]
    unfold Bucket.remove
    simp only
    rw [h4]
    simp only [if_true]
    rw [List.eraseP_cons_of_pos]
    simp [Inc.same, fill]
  refine ⟨_, _, .cons (.ack z) h1, by rw [List.map_cons, h2], ⟨l, by rw [a1]⟩, ?_⟩
  generalize (step cfg s (.ack z)).2 = s2 at *
  unfold step
  simp only [lookup_nil a2, hck]
  rfl

/-- **C108 fails: an entry nobody answers never goes.**  The timer that would retransmit the SYN|ACK and give up is compiled out; the
entry is still there at any later time. -/
theorem never_expires_violated (hck : cfg.cookies = false) (hn : 0 < cfg.n) (x : SynIn) (t : Nat) (ht : x.now ≤ t) :
    ∃ s, THist cfg t s ∧ ∃ e ∈ (s.b (bucketOf x.inc)).list, e.inc = x.inc := by
  obtain ⟨l, s, i, _, _, h3, h4, _⟩ := one_entry hck hn x 0
  refine ⟨s, h3 t ht, { fill cfg x (some i) with rxmits := 1 }, ?_, rfl⟩
  rw [h4]; simp

/-! ## C109 -/

/-- Histories in which no SYN of a connection arrives while another thread is between the two halves of answering one. -/
inductive Calm (cfg : Cfg) : S → Prop where
  | nil : Calm cfg (init cfg)
  | cons {s : S} (ev : Ev) : Calm cfg s → (∀ x, ev = .syn x → ∀ f ∈ s.flight, ¬ x.inc.same f.inc = true) → Calm cfg (step cfg s ev).2

/-- Different connections. -/
def Apart (a b : Inc) : Prop := ¬ a.same b = true

theorem Apart.symm {a b : Inc} (h : Apart a b) : Apart b a := fun k => h (by rw [Inc.same_symm]; exact k)

/-- No two entries under way or in a bucket are of one connection. -/
def Uniq (s : S) : Prop := ∀ k, ((s.flight ++ (s.b k).list).map Sc.inc).Pairwise Apart

theorem Uniq.sub (h : Uniq s) {s' : S} (hf : s'.flight.Sublist s.flight) (hb : ∀ k, (s'.b k).list.Sublist (s.b k).list) : Uniq s' :=
  fun k => (h k).sublist ((hf.append (hb k)).map _)

theorem updFirst_inc (inc : Inc) (f : Sc → Sc) (hf : ∀ e, (f e).inc = e.inc) (l : List Sc) : (updFirst inc f l).map Sc.inc = l.map Sc.inc := by
  induction l with
  | nil => rfl
  | cons a l ih =>
    unfold updFirst
    by_cases c : inc.same a.inc = true
    · rw [if_pos c, List.map_cons, List.map_cons, hf]
    · rw [if_neg c, List.map_cons, List.map_cons, ih]

theorem dup_inc (o : Opts) (e : Sc) : (dup o e).inc = e.inc := (core_fields (later_dup o e).1).1

theorem dropLast_sub (k j : Nat) : ((dropLast s k).b j).list.Sublist (s.b j).list := by
  unfold dropLast
  cases hg : (s.b k).list.getLast? with
  | none => exact List.Sublist.refl _
  | some x =>
    simp only
    rw [zfree_b, put_b]
    by_cases c : j = k
    · rw [if_pos c, c]; exact List.dropLast_sublist _
    · rw [if_neg c]; exact List.Sublist.refl _

theorem drop_sub (inc : Inc) (id : Option Nat) (k j : Nat) : (((s.put k ((s.b k).remove inc)).zfree id).b j).list.Sublist (s.b j).list := by
  rw [zfree_b, put_b]
  by_cases c : j = k
  · rw [if_pos c, c]; exact List.eraseP_sublist
  · rw [if_neg c]; exact List.Sublist.refl _

theorem lookup_none {b : Bucket} {inc : Inc} (h : lookup b inc = none) : ∀ e ∈ b.list, ¬ inc.same e.inc = true := by
  intro e he
  have := List.find?_eq_none.1 h e he
  simpa using this

theorem Calm.uniq (h : Calm cfg s) : Uniq s ∧ InvA cfg s := by
  induction h with
  | nil => exact ⟨fun k => List.Pairwise.nil, InvA.init cfg⟩
  | @cons s ev _ hc ih =>
    obtain ⟨U, I⟩ := ih
    refine ⟨?_, step_inv I ev⟩
    cases ev with
    | syn x =>
      have hc := hc x rfl
      unfold step
      simp only
      cases hl : lookup (s.b (bucketOf x.inc)) x.inc with
      | some sc =>
        intro k
        simp only
        rw [put_b]
        by_cases c : k = bucketOf x.inc
        · rw [if_pos c]
          show ((s.flight ++ updFirst _ _ _).map Sc.inc).Pairwise Apart
          rw [List.map_append, updFirst_inc _ _ (fun e => by split <;> exact dup_inc x.o e), ← List.map_append, ← c]
          exact U k
        · rw [if_neg c]; exact U k
      | none =>
        simp only
        have no := lookup_none hl
        have la : ∀ (s' : S) (id : Option Nat), s'.flight = s.flight → (∀ k, (s'.b k).list.Sublist (s.b k).list) → Uniq (launch cfg s' x id) := by
          intro s' id hf hb k
          rw [launch_flight, launch_list, hf, List.append_assoc, List.map_append, List.map_append]
          have ui := U k
          have inc := (made_fields (cfg := cfg) (s'.b (bucketOf x.inc)) x id).1
          rw [List.map_append] at ui
          obtain ⟨u1, u2, u3⟩ := List.pairwise_append.1 ui
          have nb : ∀ e ∈ (s.b k).list, Apart x.inc e.inc := by
            intro e he c
            by_cases d : k = bucketOf x.inc
            · rw [d] at he; exact no e he c
            · have := ((I.ok k).home e he).1
              exact d (by rw [← this, same_bucket c])
          refine List.pairwise_append.2 ⟨u1, ?_, ?_⟩
          · simp only [List.map_cons, List.map_nil, List.singleton_append, List.pairwise_cons]
            refine ⟨?_, u2.sublist ((hb k).map _)⟩
            intro a ha
            obtain ⟨e, he, rfl⟩ := List.mem_map.1 ha
            rw [inc]; exact nb e ((hb k).subset he)
          · intro a ha b hb'
            simp only [List.map_cons, List.map_nil, List.singleton_append, List.mem_cons] at hb'
            rcases hb' with m | m
            · obtain ⟨f, hf, rfl⟩ := List.mem_map.1 ha
              rw [m, inc]; exact Apart.symm (hc f hf)
            · exact u3 a ha b (((hb k).map _).subset m)
        cases hf : s.free with
        | cons i r => exact la { s with free := r } _ rfl (fun k => List.Sublist.refl _)
        | nil =>
          simp only
          cases hf1 : (dropLast s (bucketOf x.inc)).free with
          | cons i r => exact la { dropLast s (bucketOf x.inc) with free := r } _ (dropLast_flight _ _) (fun k => dropLast_sub _ _)
          | nil =>
            simp only
            by_cases c : cfg.cookies = true
            · rw [if_pos c]; exact la _ _ (dropLast_flight _ _) (fun k => dropLast_sub _ _)
            · rw [if_neg c]; exact U.sub (by rw [dropLast_flight]; exact List.Sublist.refl _) (fun k => dropLast_sub _ _)
    | send i mo ok =>
      unfold step
      simp only
      cases hg : s.flight[i]? with
      | none => exact U
      | some sc =>
        simp only
        have ub : Uniq { s with flight := s.flight.eraseIdx i } := U.sub (List.eraseIdx_sublist _ _) (fun k => List.Sublist.refl _)
        have uz : Uniq (({ s with flight := s.flight.eraseIdx i } : S).zfree sc.id) := ub.sub (by rw [zfree_fl]; exact List.Sublist.refl _) (fun k => by rw [zfree_b]; exact List.Sublist.refl _)
        cases ok with
        | false => simp only [Bool.false_eq_true, if_false]; exact uz
        | true =>
          simp only [if_true]
          by_cases c : (cfg.cookies && cfg.only) = true
          · rw [if_pos c]; exact uz
          · rw [if_neg c]
            by_cases d : sc.id.isSome = true
            · rw [if_pos d]
              obtain ⟨l1, l2, e1, e2⟩ := idx_split hg
              have key : ∀ s1 : S, s1.flight = l1 ++ l2 → (∀ k, (s1.b k).list.Sublist (s.b k).list) →
                  Uniq (s1.put (bucketOf sc.inc) { s1.b (bucketOf sc.inc) with list := { sc with rxmits := sc.rxmits + 1 } :: (s1.b (bucketOf sc.inc)).list, len := (s1.b (bucketOf sc.inc)).len + 1 }) := by
                intro s1 hf hb k
                show ((s1.flight ++ _).map Sc.inc).Pairwise Apart
                rw [put_b]
                have uk := (U k).sublist (((List.Sublist.refl s.flight).append (hb k)).map Sc.inc)
                rw [e1] at uk
                by_cases c : k = bucketOf sc.inc
                · rw [if_pos c, hf]
                  rw [c] at uk
                  have p : ((l1 ++ sc :: l2) ++ (s1.b (bucketOf sc.inc)).list).Perm ((l1 ++ l2) ++ sc :: (s1.b (bucketOf sc.inc)).list) :=
                    (List.perm_middle.append_right _).trans (List.perm_middle.symm)
                  have q := (p.map Sc.inc).pairwise_iff (R := Apart) (fun h => Apart.symm h)
                  have := q.1 uk
                  rw [List.map_append] at this ⊢
                  exact this
                · rw [if_neg c, hf]
                  refine uk.sublist (List.Sublist.map _ (List.Sublist.append ?_ (List.Sublist.refl _)))
                  exact List.Sublist.append (List.Sublist.refl _) (List.sublist_cons_self _ _)
              unfold insert
              by_cases g : limit ≤ (({ s with flight := s.flight.eraseIdx i } : S).b (bucketOf sc.inc)).len
              · simp only
                rw [if_pos g]
                exact key _ (by rw [dropLast_flight]; exact e2) (fun k => dropLast_sub _ _)
              · simp only
                rw [if_neg g]
                exact key { s with flight := s.flight.eraseIdx i } e2 (fun k => List.Sublist.refl _)
            · rw [if_neg d]; exact ub
    | ack x =>
      unfold step
      simp only
      cases hl : lookup (s.b (bucketOf x.inc)) x.inc with
      | none =>
        simp only
        by_cases c : cfg.cookies = true
        · rw [if_pos c]; cases cookieLookup cfg (s.b (bucketOf x.inc)) x.inc x.ack x.seq x.o x.win x.now x.tick <;> exact U
        · rw [if_neg c]; exact U
      | some sc => exact U.sub (by rw [zfree_fl]; exact List.Sublist.refl _) (fun k => drop_sub _ _ _ _)
    | rst inc seq bad =>
      unfold step
      simp only
      cases hl : lookup (s.b (bucketOf inc)) inc with
      | none => exact U
      | some sc =>
        simp only
        by_cases c : (!bad && geq seq sc.irs && leq seq (sc.irs + BitVec.ofNat 32 sc.wnd)) = true
        · rw [if_pos c]; exact U.sub (by unfold drop; rw [zfree_fl]; exact List.Sublist.refl _) (fun k => drop_sub _ _ _ _)
        · rw [if_neg c]; exact U
    | badack inc =>
      unfold step
      simp only
      cases hl : lookup (s.b (bucketOf inc)) inc with
      | none => exact U
      | some sc => exact U.sub (by unfold drop; rw [zfree_fl]; exact List.Sublist.refl _) (fun k => drop_sub _ _ _ _)
    | unreach inc seq =>
      unfold step
      simp only
      cases hl : lookup (s.b (bucketOf inc)) inc with
      | none => exact U
      | some sc =>
        simp only
        by_cases c : seq ≠ sc.iss
        · rw [if_pos c]; exact U
        · rw [if_neg c]
          by_cases d : (!sc.unreach || decide (sc.rxmits < 4)) = true
          · rw [if_pos d]
            intro k
            rw [put_b]
            by_cases e : k = bucketOf inc
            · rw [if_pos e]
              show ((s.flight ++ updFirst _ _ _).map Sc.inc).Pairwise Apart
              rw [List.map_append, updFirst_inc _ (fun e => { e with unreach := true }) (fun e => rfl), ← List.map_append, ← e]
              exact U k
            · rw [if_neg e]; exact U k
          · rw [if_neg d]; exact U.sub (by unfold drop; rw [zfree_fl]; exact List.Sublist.refl _) (fun k => drop_sub _ _ _ _)

/-- **C109** (no SYN of a connection while another thread is answering one): no connection has two entries. -/
theorem one_entry_partial (h : Calm cfg s) {k k' i j : Nat} {a b : Sc} (ha : (s.b k).list[i]? = some a) (hb : (s.b k').list[j]? = some b) (hs : a.inc.same b.inc = true) :
    k = k' ∧ i = j := by
  obtain ⟨U, I⟩ := h.uniq
  have ek : k = k' := by
    rw [← ((I.ok k).home a (List.mem_of_getElem? ha)).1, ← ((I.ok k').home b (List.mem_of_getElem? hb)).1]
    exact same_bucket hs
  subst ek
  refine ⟨rfl, ?_⟩
  have u := U k
  rw [List.map_append] at u
  have u := (List.pairwise_append.1 u).2.1
  rw [List.pairwise_map] at u
  obtain ⟨hi, ei⟩ := List.getElem?_eq_some_iff.1 ha
  obtain ⟨hj, ej⟩ := List.getElem?_eq_some_iff.1 hb
  rw [List.pairwise_iff_getElem] at u
  rcases Nat.lt_trichotomy i j with c | c | c
  · exact absurd hs (by have := u i j hi hj c; rw [ei, ej] at this; exact this)
  · exact c
  · exact absurd hs (by have := Apart.symm (u j i hj hi c); rw [ei, ej] at this; exact this)

/-- **C109 fails: two SYNs at once make two entries.**  A SYN and its retransmission, handled by two threads, each find nothing in the
bucket and each put an entry there.  After the connection has been opened the second entry stays, and accepts the same ACK again. -/
theorem twice_violated (hck : cfg.cookies = false) (hn : 2 ≤ cfg.n) (x : SynIn) (hw : 1 ≤ x.win) :
    ∃ l s c s' c', Hist cfg l s ∧ l.map Prod.fst = [.send 0 0 true, .send 0 0 true, .syn x, .syn x] ∧ (s.b (bucketOf x.inc)).list.map Sc.inc = [x.inc, x.inc] ∧
      step cfg s (.ack ⟨x.inc, 31416, x.seq + 1, ⟨none, none, none, false⟩, 0, true, 0, 0⟩) = (.conn c, s') ∧
      (step cfg s' (.ack ⟨x.inc, 31416, x.seq + 1, ⟨none, none, none, false⟩, 0, true, 0, 0⟩)).1 = .conn c' ∧ c = c' := by
  have hf : ∃ i j r, (init cfg).free = i :: j :: r := by
    show ∃ i j r, List.range cfg.n = i :: j :: r
    obtain ⟨m, h⟩ : ∃ m, cfg.n = m + 2 := ⟨cfg.n - 2, by omega⟩
    rw [h]
    rw [List.range_succ_eq_map, List.range_succ_eq_map]
    exact ⟨_, _, _, rfl⟩
  obtain ⟨i, j, r, hf⟩ := hf
  have st1 : step cfg (init cfg) (.syn x) = (.none, { init cfg with free := j :: r, flight := [fill cfg x (some i)] }) := by
    unfold step
    simp only
    rw [show lookup ((init cfg).b (bucketOf x.inc)) x.inc = none from rfl, hf]
    simp only
    unfold launch; simp only [hck]; rfl
  have st2 : step cfg { init cfg with free := j :: r, flight := [fill cfg x (some i)] } (.syn x) = (.none, { init cfg with free := r, flight := [fill cfg x (some i), fill cfg x (some j)] }) := by
    unfold step
    simp only
    rw [show lookup ((init cfg).b (bucketOf x.inc)) x.inc = none from rfl]
    simp only
    unfold launch; simp only [hck]; rfl
  have H2 := Hist.cons (.syn x) (Hist.cons (.syn x) (Hist.nil (cfg := cfg)))
  rw [st1] at H2
  simp only at H2
  rw [st2] at H2
  have H4 := Hist.cons (.send 0 0 true) (Hist.cons (.send 0 0 true) H2)
  have st3 : (step cfg { init cfg with free := r, flight := [fill cfg x (some i), fill cfg x (some j)] } (.send 0 0 true)).2 =
      ({ init cfg with free := r, flight := [fill cfg x (some j)] } : S).put (bucketOf x.inc) { (init cfg).b (bucketOf x.inc) with list := [{ fill cfg x (some i) with rxmits := 1 }], len := 1 } := by
    unfold step
    simp only [List.getElem?_cons_zero, hck, if_true, Bool.false_and, Bool.false_eq_true, if_false]
    rw [if_pos (by rfl)]
    unfold insert
    rw [if_neg (by show ¬ limit ≤ 0; decide)]
    rfl
  simp only [st3] at H4
  have st4 : ((step cfg (({ init cfg with free := r, flight := [fill cfg x (some j)] } : S).put (bucketOf x.inc) { (init cfg).b (bucketOf x.inc) with list := [{ fill cfg x (some i) with rxmits := 1 }], len := 1 }) (.send 0 0 true)).2.b (bucketOf x.inc)).list =
      [{ fill cfg x (some j) with rxmits := 1 }, { fill cfg x (some i) with rxmits := 1 }] := by
    unfold step
    have : (({ init cfg with free := r, flight := [fill cfg x (some j)] } : S).put (bucketOf x.inc) { (init cfg).b (bucketOf x.inc) with list := [{ fill cfg x (some i) with rxmits := 1 }], len := 1 }).flight[0]? = some (fill cfg x (some j)) := rfl
    simp only [this, hck, if_true, Bool.false_and, Bool.false_eq_true, if_false]
    rw [if_pos (by rfl)]
    unfold insert
    have l1 : (S.b { (({ init cfg with free := r, flight := [fill cfg x (some j)] } : S).put (bucketOf x.inc) { (init cfg).b (bucketOf x.inc) with list := [{ fill cfg x (some i) with rxmits := 1 }], len := 1 }) with
        flight := List.eraseIdx [fill cfg x (some j)] 0 } (bucketOf x.inc)) = { (init cfg).b (bucketOf x.inc) with list := [{ fill cfg x (some i) with rxmits := 1 }], len := 1 } := by
      simp only [S.put, if_true]
    rw [if_neg (by
      show ¬ limit ≤ (S.b _ (bucketOf x.inc)).len
      rw [show (S.b { (({ init cfg with free := r, flight := [fill cfg x (some j)] } : S).put (bucketOf x.inc) { (init cfg).b (bucketOf x.inc) with list := [{ fill cfg x (some i) with rxmits := 1 }], len := 1 }) with
        flight := List.eraseIdx [fill cfg x (some j)] 0 } (bucketOf x.inc)).len = 1 from by rw [l1]]
      decide)]
    simp only [S.put]
    rw [if_pos (by rfl)]
    show { fill cfg x (some j) with rxmits := 1 } :: (if bucketOf x.inc = bucketOf x.inc then _ else _ : Bucket).list = _
    rw [if_pos rfl]
  have ev4 : List.map Prod.fst [(Ev.send 0 0 true, (step cfg (({ init cfg with free := r, flight := [fill cfg x (some j)] } : S).put (bucketOf x.inc) { (init cfg).b (bucketOf x.inc) with list := [{ fill cfg x (some i) with rxmits := 1 }], len := 1 }) (.send 0 0 true)).1),
      (Ev.send 0 0 true, (step cfg { init cfg with free := r, flight := [fill cfg x (some i), fill cfg x (some j)] } (.send 0 0 true)).1), (Ev.syn x, Out.none), (Ev.syn x, Out.none)] =
      [.send 0 0 true, .send 0 0 true, .syn x, .syn x] := rfl
  generalize (step cfg (({ init cfg with free := r, flight := [fill cfg x (some j)] } : S).put (bucketOf x.inc) { (init cfg).b (bucketOf x.inc) with list := [{ fill cfg x (some i) with rxmits := 1 }], len := 1 }) (.send 0 0 true)).2 = s4 at *
  have w : 1 ≤ clip x.win := by unfold clip; omega
  have v : ∀ m, valid { fill cfg x (some m) with rxmits := 1 } ⟨x.inc, 31416, x.seq + 1, ⟨none, none, none, false⟩, 0, true, 0, 0⟩ = true := by
    intro m
    refine (valid_iff (clip_le x.win)).2 ⟨rfl, ⟨1, by omega, w, rfl⟩, fun a b h => (by cases h)⟩
  have sm : x.inc.same x.inc = true := by simp [Inc.same]
  have lk : lookup (s4.b (bucketOf x.inc)) x.inc = some { fill cfg x (some j) with rxmits := 1 } := by
    unfold lookup; rw [st4, List.find?_cons_of_pos]; exact sm
  have lk2 : lookup (((s4.put (bucketOf x.inc) ((s4.b (bucketOf x.inc)).remove x.inc)).zfree (some j)).b (bucketOf x.inc)) x.inc = some { fill cfg x (some i) with rxmits := 1 } := by
    rw [zfree_b, put_b, if_pos rfl]
    unfold lookup Bucket.remove
    simp only
    rw [st4, List.eraseP_cons_of_pos (by exact sm), List.find?_cons_of_pos]
    exact sm
  refine ⟨_, s4, connOf x.inc.fib { fill cfg x (some j) with rxmits := 1 }, (s4.put (bucketOf x.inc) ((s4.b (bucketOf x.inc)).remove x.inc)).zfree (some j),
    connOf x.inc.fib { fill cfg x (some i) with rxmits := 1 }, H4, ev4, by rw [st4]; rfl, ?_, ?_, rfl⟩
  · unfold step
    simp only [lk]
    rw [answer_conn.2 ⟨v j, rfl, rfl⟩]; rfl
  · generalize (s4.put (bucketOf x.inc) ((s4.b (bucketOf x.inc)).remove x.inc)).zfree (some j) = s5 at *
    unfold step
    simp only [lk2]
    exact answer_conn.2 ⟨v i, rfl, rfl⟩

/-- **C109 fails: connections of different VRFs are taken for one.**  The comparison leaves the VRF out.  A SYN of a connection in
one VRF is answered with the numbers of a connection between the same addresses and ports in another VRF. -/
theorem vrf_violated (hck : cfg.cookies = false) (hn : 0 < cfg.n) (x y : SynIn) (hy : y.inc = { x.inc with fib := x.inc.fib + 1 }) (hs : y.seq ≠ x.seq) (hok : y.ok = true) :
    ∃ l s p, Hist cfg l s ∧ (step cfg s (.syn y)).1 = .synack p ∧ p.inc.fib ≠ y.inc.fib ∧ p.ack ≠ y.seq + 1 := by
  obtain ⟨l, s, i, h1, _, _, h4, _⟩ := one_entry hck hn x 0
  have bk : bucketOf y.inc = bucketOf x.inc := by rw [hy]; rfl
  have lk : lookup (s.b (bucketOf y.inc)) y.inc = some { fill cfg x (some i) with rxmits := 1 } := by
    rw [h4, bk]
    simp only [if_true]
    unfold lookup
    rw [List.find?_cons_of_pos]
    rw [hy]; simp [Inc.same, fill]
  refine ⟨l, s, respond cfg y.mo (dup y.o { fill cfg x (some i) with rxmits := 1 }), h1, ?_, ?_, ?_⟩
  · unfold step
    simp only [lk, hok, if_true]
  · show (dup y.o _).inc.fib ≠ _
    rw [dup_inc, hy]
    show x.inc.fib ≠ x.inc.fib + 1
    omega
  · show (dup y.o _).irs + 1 ≠ _
    have := (core_fields (later_dup y.o { fill cfg x (some i) with rxmits := 1 }).1).2.1
    rw [this]
    show x.seq + 1 ≠ y.seq + 1
    intro h
    exact hs (by have := congrArg (· - 1) h; simpa using this.symm)

end Verif.Syncache

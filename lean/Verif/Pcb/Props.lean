import Verif.Pcb.Hist
/-!
# Sockets, addresses and ports: the properties

`Reach c t`: `t` is the table after some history of calls (Hist.lean).  `Bound t i p`: socket `i` has the contents `p`
and is bound.  `Free t o a n` (Ops.lean), `Overlap` (Lookup.lean) are the specification of "in use".
-/
namespace Verif.Pcb

/-! ## C67: delivery -/

/-- A socket takes an IPv4 packet from `fa`, `fp` to `la`, `lp`: it is an IPv4 socket and is connected to the sender,
bound to the destination address, or bound to any address. -/
def Takes (fa fp la lp : Nat) (p : Pcb) : Class → Prop
  | .connection => p.v4 = true ∧ p.faddr = fa ∧ p.fport = fp ∧ p.laddr = la ∧ p.lport = lp
  | .address => p.v4 = true ∧ p.faddr = 0 ∧ p.laddr = la ∧ p.lport = lp
  | .any => p.v4 = true ∧ p.faddr = 0 ∧ p.laddr = 0 ∧ p.lport = lp

/-- **C67.**  For every hash function and every history: the packet goes to a bound socket of the best class there
is, and to nobody only if no bound socket matches.  In the two wildcard classes the code does not look at the
address family (`Matches`). -/
theorem delivery_exact {c : Cfg} (hc : CfgOk c) {t : Tab} (h : Reach c t) (fa fp la lp : Nat) :
    match lookupHash c t fa fp la lp true with
    | none => ∀ i p k, Bound t i p → ¬ Matches fa fp la lp p k
    | some i => ∃ p k, Bound t i p ∧ Matches fa fp la lp p k ∧
        ∀ j q k', Bound t j q → Matches fa fp la lp q k' → k.rank ≤ k'.rank :=
  lookupHash_best (h.inv hc) fa fp la lp

/-- **C67**, if no IPv6-only socket is bound to that port. -/
theorem delivery_partial {c : Cfg} (hc : CfgOk c) {t : Tab} (h : Reach c t) (fa fp la lp : Nat)
    (h4 : ∀ i p, Bound t i p → p.lport = lp → p.v4 = true) :
    match lookupHash c t fa fp la lp true with
    | none => ∀ i p k, Bound t i p → ¬ Takes fa fp la lp p k
    | some i => ∃ p k, Bound t i p ∧ Takes fa fp la lp p k ∧
        ∀ j q k', Bound t j q → Takes fa fp la lp q k' → k.rank ≤ k'.rank := by
  have fwd : ∀ p k, Takes fa fp la lp p k → Matches fa fp la lp p k := by
    intro p k ht
    cases k with
    | connection => exact ht
    | address => exact ht.2
    | any => exact ht.2
  have from' : ∀ i p k, Bound t i p → Matches fa fp la lp p k → Takes fa fp la lp p k := by
    intro i p k hb ht
    cases k with
    | connection => exact ht
    | address => exact ⟨h4 i p hb ht.2.2, ht⟩
    | any => exact ⟨h4 i p hb ht.2.2, ht⟩
  have := delivery_exact hc h fa fp la lp
  cases hr : lookupHash c t fa fp la lp true with
  | none =>
    rw [hr] at this
    intro i p k hb ht
    exact this i p k hb (fwd p k ht)
  | some i =>
    rw [hr] at this
    obtain ⟨p, k, hb, hm, hbest⟩ := this
    exact ⟨p, k, hb, from' i p k hb hm, fun j q k' hbq hq => hbest j q k' hbq (fwd q k' hq)⟩

/-! ## C68: explicit bind -/

/-- The address can be bound: it is a multicast address, any address, or one of ours (or `IP_BINDANY` is set). -/
def Acceptable (e : Env) (o : Opts) (a : Nat) : Prop :=
  e.mcast a = true ∨ a = 0 ∨ o.bindany = true ∨ e.isLocal a = true

instance (e : Env) (o : Opts) (a : Nat) : Decidable (Acceptable e o a) := by
  unfold Acceptable; infer_instance

/-- A socket of another user holds an overlapping address. -/
def Foreign (t : Tab) (o : Opts) (a n : Nat) : Prop :=
  ∃ i p, Bound t i p ∧ p.lport = n ∧ Overlap a p.laddr ∧ p.opts.uid ≠ o.uid

theorem pcbbind_explicit {c : Cfg} {e : Env} {t : Tab} {i : Nat} {p : Pcb} {a n : Nat} (hn : n ≠ 0)
    (hl : p.lport = 0) (hla : p.laddr = 0) :
    (pcbbind c e t i p (some (a, n))).1 =
      if e.primary = none then some .eaddrnotavail
      else if ¬ Acceptable e p.opts a then some .eaddrnotavail
      else if bindConflict c e t p.opts a n = true then some .eaddrinuse
      else match inshash c e t i { p with laddr := a, lport := n } with
        | none => some .eagain
        | some _ => none := by
  unfold pcbbind
  rw [if_neg (by rintro (h | h); exacts [h hl, h hla])]
  have hap : anonport (some (a, n)) = false := by simp [anonport, hn]
  simp only [hap, Bool.false_eq_true, if_false]
  unfold bindSetup
  simp only [hla, ne_eq, not_true_eq_false, and_false, if_false]
  by_cases hp : e.primary = none
  · simp only [hp, if_true]
  · simp only [hp, if_false]
    have hacc : (e.mcast a = false ∧ ¬ a = 0 ∧ p.opts.bindany = false ∧ e.isLocal a = false) ↔
        ¬ Acceptable e p.opts a := by
      unfold Acceptable
      cases e.mcast a <;> cases p.opts.bindany <;> cases e.isLocal a <;> simp
    by_cases ha : Acceptable e p.opts a
    · rw [if_neg (by rw [hacc]; exact not_not.2 ha), if_neg (not_not.2 ha)]
      simp only [hn, not_false_eq_true, if_true]
      by_cases hb : bindConflict c e t p.opts a n = true
      · rw [if_pos hb, if_pos hb]
      · rw [if_neg hb, if_neg hb]
        simp only
        cases inshash c e t i { p with laddr := a, lport := n } <;> rfl
    · rw [if_pos (hacc.2 ha), if_pos ha]

/-- **C68.**  `bind` of a live unbound socket to address `a` and port `n` (memory permitting): it succeeds if the
address can be bound, is free and not overlapped by another user's socket; if it succeeds the address was free
and the socket now has exactly it, and no other socket changed; if it is refused as in use, it was not free or
another user's. -/
theorem bind_exact {c : Cfg} (hc : CfgOk c) {t : Tab} (h : Reach c t) {e : Env} {i : Nat} {p : Pcb}
    (hp : t.pcb i = some p) (hlive : p.timewait = false ∧ p.dropped = false) (hunb : p.lport = 0)
    {a n : Nat} (hn : n ≠ 0) (hmem : e.mem = true) :
    let r := apiBind c e t i (some (a, n))
    (e.primary ≠ none → Acceptable e p.opts a → Free t p.opts a n → ¬ Foreign t p.opts a n → r.1 = none) ∧
    (r.1 = none → Free t p.opts a n ∧ Acceptable e p.opts a ∧
      (∃ q, Bound r.2 i q ∧ q.laddr = a ∧ q.lport = n ∧ q.faddr = 0) ∧ ∀ j, j ≠ i → r.2.pcb j = t.pcb j) ∧
    (r.1 = some .eaddrinuse → ¬ Free t p.opts a n ∨ Foreign t p.opts a n) := by
  have hi := h.inv hc
  have g := hi.good i p hp
  have hin : p.inHash = false := by
    cases hx : p.inHash with
    | false => rfl
    | true => exact absurd hunb (g.port hx)
  have hla := (g.blank hin hlive.2).1
  have hr : apiBind c e t i (some (a, n)) = pcbbind c e t i p (some (a, n)) := by
    unfold apiBind
    rw [hp]
    simp only
    rw [if_neg (by rw [hlive.1, hlive.2]; simp)]
  simp only [hr]
  have hex := pcbbind_explicit (c := c) (e := e) (t := t) (i := i) (p := p) (a := a) hn hunb hla
  have hins : ∃ u, inshash c e t i { p with laddr := a, lport := n } = some u := by
    unfold inshash
    simp only [hmem, if_true]
    split
    · simp
    · simp
  refine ⟨?_, ?_, ?_⟩
  · intro h1 h2 h3 h4
    rw [hex, if_neg h1, if_neg (not_not.2 h2)]
    have hcf : ¬ bindConflict c e t p.opts a n = true := by
      intro hb
      rcases bindConflict_true hi hb with hx | hx
      · exact hx h3
      · exact h4 hx
    rw [if_neg hcf]
    obtain ⟨u, hu⟩ := hins
    rw [hu]
  · intro hok
    have hacc : Acceptable e p.opts a := by
      by_contra hx
      rw [hex] at hok
      by_cases h1 : e.primary = none
      · rw [if_pos h1] at hok; cases hok
      · rw [if_neg h1, if_pos hx] at hok; cases hok
    rcases pcbbind_spec hc (e := e) hi hp hlive.2 (some (a, n)) with
      ⟨x, hx, _⟩ | ⟨_, _, _, _, hf, _, a', n', an, hpc, _, hfree, _, hsame, _⟩
    · rw [hx] at hok; cases hok
    · obtain ⟨e1, e2⟩ := hsame a n rfl
      have e2 := e2 hn
      subst e1 e2
      refine ⟨hfree, hacc, ⟨{ p with laddr := a', lport := n', inHash := true, anon := an },
        ⟨by rw [hpc, upd_self], rfl⟩, rfl, rfl, hf⟩, ?_⟩
      intro j hj
      rw [hpc, upd_ne _ _ hj]
  · intro hno
    rw [hex] at hno
    by_cases h1 : e.primary = none
    · rw [if_pos h1] at hno; cases hno
    rw [if_neg h1] at hno
    by_cases h2 : Acceptable e p.opts a
    · rw [if_neg (not_not.2 h2)] at hno
      by_cases hb : bindConflict c e t p.opts a n = true
      · exact bindConflict_true hi hb
      · rw [if_neg hb] at hno
        obtain ⟨u, hu⟩ := hins
        rw [hu] at hno
        cases hno
    · rw [if_pos h2] at hno; cases hno

/-- **C68**, violation: `SO_REUSEPORT` does nothing.  Whatever options the two sockets have, an address and port with an
unconnected socket on it cannot be bound again. -/
theorem reuseport_violated {c : Cfg} (hc : CfgOk c) {t : Tab} (h : Reach c t) {e : Env} {i j : Nat} {p q : Pcb}
    (hp : t.pcb i = some p) (hlive : p.timewait = false ∧ p.dropped = false) (hunb : p.lport = 0)
    (hq : Bound t j q) (h4 : q.v4 = true) (hun : q.faddr = 0) (hmem : e.mem = true) :
    (apiBind c e t i (some (q.laddr, q.lport))).1 ≠ none := by
  intro hno
  have hn : q.lport ≠ 0 := ((h.inv hc).good j q hq.1).port hq.2
  have hfree := ((bind_exact hc h hp hlive hunb hn hmem).2.1 hno).1 j q hq h4 rfl
  split at hfree
  · exact hfree (Or.inr (Or.inr rfl))
  · exact hfree ⟨hun, rfl⟩

/-- **C71**: a bound socket cannot be bound again. -/
theorem rebind_refused {c : Cfg} (hc : CfgOk c) {t : Tab} (h : Reach c t) {e : Env} {i : Nat} {p : Pcb}
    (hp : Bound t i p) (nam : Option (Nat × Nat)) : apiBind c e t i nam = (some .einval, t) := by
  have g := (h.inv hc).good i p hp.1
  have hl := g.port hp.2
  unfold apiBind
  rw [hp.1]
  simp only
  split
  · rfl
  · unfold pcbbind
    rw [if_pos (Or.inl hl)]

/-! ## C69: the port the stack chooses -/

/-- The port is in the range the socket asks for (a range may be given upside down). -/
def InRange (c : Cfg) (o : Opts) (n : Nat) : Prop :=
  if o.high = true then min c.hifirst c.hilast ≤ n ∧ n ≤ max c.hifirst c.hilast
  else if o.low = true then min c.lowfirst c.lowlast ≤ n ∧ n ≤ max c.lowfirst c.lowlast
  else min c.first c.last ≤ n ∧ n ≤ max c.first c.last

theorem inRange_iff (c : Cfg) (o : Opts) (n : Nat) :
    InRange c o n ↔ (rangeOf o).minPort c ≤ n ∧ n ≤ (rangeOf o).maxPort c := by
  unfold InRange rangeOf Range.minPort Range.maxPort
  cases o.high <;> cases o.low <;> simp [Range.bounds]

/-- **C69.**  `bind` to port 0: success gives a free port of the range; if there is an interface, the address can be
bound and memory is there, failure means that no port of the range is free. -/
theorem ephemeral_bind {c : Cfg} (hc : CfgOk c) {t : Tab} (h : Reach c t) {e : Env} {i : Nat} {p : Pcb}
    (hp : t.pcb i = some p) (hlive : p.timewait = false ∧ p.dropped = false) (hunb : p.lport = 0) {a : Nat} :
    let r := apiBind c e t i (some (a, 0))
    (r.1 = none → ∃ q, Bound r.2 i q ∧ q.laddr = a ∧ InRange c p.opts q.lport ∧ Free t p.opts a q.lport) ∧
    (r.1 ≠ none → e.primary ≠ none → Acceptable e p.opts a → e.mem = true →
      r.1 = some .eaddrnotavail ∧ ∀ n, InRange c p.opts n → ¬ Free t p.opts a n) := by
  have hi := h.inv hc
  have g := hi.good i p hp
  have hin : p.inHash = false := by
    cases hx : p.inHash with
    | false => rfl
    | true => exact absurd hunb (g.port hx)
  have hla := (g.blank hin hlive.2).1
  have hr : apiBind c e t i (some (a, 0)) = pcbbind c e t i p (some (a, 0)) := by
    unfold apiBind
    rw [hp]
    simp only
    rw [if_neg (by rw [hlive.1, hlive.2]; simp)]
  simp only [hr]
  refine ⟨?_, ?_⟩
  · intro hok
    rcases pcbbind_spec hc (e := e) hi hp hlive.2 (some (a, 0)) with
      ⟨x, hx, _⟩ | ⟨_, _, _, _, _, _, a', n', an, hpc, _, hfree, _, hsame, hrange⟩
    · rw [hx] at hok; cases hok
    · obtain ⟨e1, _⟩ := hsame a 0 rfl
      subst e1
      exact ⟨{ p with laddr := a', lport := n', inHash := true, anon := an },
        ⟨by rw [hpc, upd_self], rfl⟩, rfl,
        (inRange_iff c p.opts n').2 (hrange (Or.inr ⟨_, rfl⟩)), hfree⟩
  · intro hbad h1 h2 hmem
    have hspec := pcbLport_spec hc e t p.opts a (!p.opts.reuseaddr && !p.opts.reuseport)
    have hsetup : bindSetup c e t p.opts (some (a, 0)) p.laddr =
        ((pcbLport c e t p.opts a (!p.opts.reuseaddr && !p.opts.reuseport)).1.map fun n => (a, n),
          (pcbLport c e t p.opts a (!p.opts.reuseaddr && !p.opts.reuseport)).2) := by
      unfold bindSetup
      simp only [h1, hla, if_false, ne_eq, not_true_eq_false, and_false]
      rw [if_neg (by
        rintro ⟨x1, x2, x3, x4⟩
        rcases h2 with y | y | y | y
        · rw [y] at x1; cases x1
        · exact x2 y
        · rw [y] at x3; cases x3
        · rw [y] at x4; cases x4)]
    have hb : pcbbind c e t i p (some (a, 0)) = _ := rfl
    unfold pcbbind at hb hbad ⊢
    rw [if_neg (by rintro (x | x); exacts [x hunb, x hla])] at hbad ⊢
    simp only [hsetup] at hbad ⊢
    generalize pcbLport c e t p.opts a (!p.opts.reuseaddr && !p.opts.reuseport) = r at hspec hbad ⊢
    obtain ⟨r1, r2⟩ := r
    cases r1 with
    | ok n =>
      exfalso
      simp only [Except.map] at hbad
      have : ∃ u, inshash c e r2 i { p with laddr := a, lport := n } = some u := by
        unfold inshash
        simp only [hmem, if_true]
        split
        · simp
        · simp
      obtain ⟨u, hu⟩ := this
      rw [hu] at hbad
      simp [anonport] at hbad
    | error x =>
      simp only at hspec
      obtain ⟨_, hx, hall⟩ := hspec
      subst hx
      refine ⟨rfl, ?_⟩
      intro n hn hf
      rw [inRange_iff] at hn
      have := hall n hn.1 hn.2
      cases hl : lookupLocal c t a n (!p.opts.reuseaddr && !p.opts.reuseport) with
      | none => rw [hl] at this; cases this
      | some j => exact (lookupLocal_some hi hl).1 hf

/-- **C69** for `connect` on an unbound datagram socket: the port is in the range and free with the source address
the socket gets. -/
theorem ephemeral_connect {c : Cfg} (hc : CfgOk c) {t : Tab} (h : Reach c t) {e : Env} {i : Nat} {p : Pcb}
    (hp : t.pcb i = some p) (hunb : p.lport = 0) {dst dport : Nat} (hdst : DstOk e dst)
    (hok : (udpConnect c e t i dst dport).1 = none) :
    ∃ q, Bound (udpConnect c e t i dst dport).2 i q ∧ q.faddr ≠ 0 ∧ q.fport = dport ∧ q.lport ≠ 0 ∧
      InRange c p.opts q.lport ∧ Free t p.opts q.laddr q.lport := by
  have hi := h.inv hc
  unfold udpConnect at hok ⊢
  simp only [hp] at hok ⊢
  by_cases hd : p.timewait = true ∨ p.dropped = true
  · rw [if_pos hd] at hok; cases hok
  rw [if_neg hd] at hok ⊢
  by_cases hf : p.faddr ≠ 0
  · rw [if_pos hf] at hok; cases hok
  rw [if_neg hf] at hok ⊢
  have hd' : p.dropped = false := by
    cases hx : p.dropped with
    | false => rfl
    | true => exact absurd (Or.inr hx) hd
  rcases pcbconnect_spec hc hi hp hd' dst dport hdst with
    ⟨x, hx, _⟩ | ⟨_, _, a, n, f, an, hpc, hn, _, hfa, _, _, h6, _⟩
  · rw [hx] at hok; cases hok
  · exact ⟨_, ⟨by rw [hpc, upd_self], rfl⟩, (by show f ≠ 0; rw [hfa]; exact dst_ne hdst), rfl, hn,
      (inRange_iff c p.opts n).2 (h6 hunb).2, (h6 hunb).1⟩

/-- **C69** for `sendto` on an unbound datagram socket: the source port of the datagram is in the range and free with the
source address, and the socket keeps it. -/
theorem ephemeral_sendto {c : Cfg} (hc : CfgOk c) {t : Tab} (h : Reach c t) {e : Env} {i : Nat} {p : Pcb}
    (hp : t.pcb i = some p) (hunb : p.lport = 0) {dst dport sa sp : Nat}
    (hok : (sendto c e t i dst dport).1 = .ok (sa, sp)) :
    InRange c p.opts sp ∧ Free t p.opts sa sp ∧
      ∃ q, Bound (sendto c e t i dst dport).2 i q ∧ q.lport = sp ∧ q.faddr = 0 := by
  have hi := h.inv hc
  have g := hi.good i p hp
  unfold sendto at hok ⊢
  simp only [hp] at hok ⊢
  by_cases hd : p.timewait = true ∨ p.dropped = true
  · rw [if_pos hd] at hok; cases hok
  rw [if_neg hd] at hok ⊢
  by_cases hf : p.faddr ≠ 0
  · rw [if_pos hf] at hok; cases hok
  rw [if_neg hf] at hok ⊢
  have hf : p.faddr = 0 := by by_contra hx; exact hf hx
  have hd' : p.dropped = false := by
    cases hx : p.dropped with
    | false => rfl
    | true => exact absurd (Or.inr hx) hd
  have hin : p.inHash = false := by
    cases hx : p.inHash with
    | false => rfl
    | true => exact absurd hunb (g.port hx)
  have hla := (g.blank hin hd').1
  rw [if_pos (Or.inl hla)] at hok ⊢
  have hs := connectSetup_spec hc (e := e) hi p.opts p.laddr p.lport dst dport
  generalize connectSetup c e t p.opts p.laddr p.lport dst dport = r at hs hok
  obtain ⟨r1, r2⟩ := r
  simp only at hs hok ⊢
  cases r1 with
  | error y => cases hok
  | ok anf =>
    obtain ⟨a, m, f⟩ := anf
    simp only at hok ⊢
    rw [if_pos ⟨hla, hunb⟩] at hok ⊢
    cases hins : inshash c e r2 i { p with lport := m } with
    | none => rw [hins] at hok; cases hok
    | some u =>
      rw [hins] at hok
      simp only at hok ⊢
      cases hok
      obtain ⟨_, _, _, _, _, h6, _⟩ := hs.2 sa sp f rfl
      exact ⟨(inRange_iff c p.opts sp).2 (h6 hunb).2, (h6 hunb).1,
        { p with lport := sp, inHash := true, anon := true }, ⟨upd_self _ _ _, rfl⟩, rfl, hf⟩

/-! ## C70: one socket per connection -/

/-- Histories in which a datagram socket with `SO_REUSEADDR` or `SO_REUSEPORT` is bound before it is connected. -/
inductive ReachU (c : Cfg) : Tab → Prop
  | empty : ReachU c Tab.empty
  | step (t : Tab) (l : Label) : ReachU c t → l.Ok →
      (∀ e i d n, l = .udpConnect e i d n → ∀ p, t.pcb i = some p →
        p.lport ≠ 0 ∨ (p.opts.reuseaddr = false ∧ p.opts.reuseport = false)) → ReachU c (step c t l)

theorem ReachU.reach {c : Cfg} {t : Tab} (h : ReachU c t) : Reach c t := by
  induction h with
  | empty => exact .empty
  | step t l _ hl _ ih => exact .step t l ih hl

/-- **C70**, restricted as in `ReachU`; all TCP histories are covered.  No two sockets have the same connection, and a
packet of a connection reaches its socket. -/
theorem connection_unique_partial {c : Cfg} (hc : CfgOk c) {t : Tab} (h : ReachU c t) :
    (∀ i j p q, Bound t i p → Bound t j q → p.v4 = true → q.v4 = true → p.faddr ≠ 0 →
      p.laddr = q.laddr → p.lport = q.lport → p.faddr = q.faddr → p.fport = q.fport → i = j) ∧
    ∀ i p, Bound t i p → p.v4 = true → p.faddr ≠ 0 →
      ∀ w, lookupHash c t p.faddr p.fport p.laddr p.lport w = some i := by
  have hi := h.reach.inv hc
  have hu : Uniq t := by
    clear hi
    induction h with
    | empty => intro i j p q hb; cases hb.1
    | step t l hr hl hx ih => exact (step_both hc (hr.reach.inv hc) l hl).2 hx ih
  refine ⟨hu, ?_⟩
  intro i p hb h4 hf w
  unfold lookupHash
  cases he : lookupExact c t p.faddr p.fport p.laddr p.lport with
  | none => exact absurd ⟨rfl, rfl, rfl, rfl⟩ (lookupExact_none hi he i p hb h4)
  | some j =>
    obtain ⟨q, hbq, h4', e1, e2, e3, e4⟩ := lookupExact_some hi he
    have := hu i j p q hb hbq h4 h4' hf e3.symm e4.symm e1.symm e2.symm
    rw [this]

/-! ## C71: failed calls -/

/-- **C71.**  A `bind`, a datagram `connect` or a `sendto` that fails changes no socket and no binding (only the position
from which the next port search starts). -/
theorem failed_call_same {c : Cfg} (hc : CfgOk c) {t : Tab} (h : Reach c t) {e : Env} (i : Nat) :
    (∀ nam x, (apiBind c e t i nam).1 = some x → Same t (apiBind c e t i nam).2) ∧
    (∀ d n x, DstOk e d → (udpConnect c e t i d n).1 = some x → Same t (udpConnect c e t i d n).2) ∧
    (∀ d n x, (sendto c e t i d n).1 = .error x → Same t (sendto c e t i d n).2) := by
  have hi := h.inv hc
  refine ⟨?_, ?_, ?_⟩
  · intro nam x hx
    unfold apiBind at hx ⊢
    cases hp : t.pcb i with
    | none => exact Same.refl t
    | some p =>
      simp only [hp] at hx ⊢
      by_cases hd : p.timewait = true ∨ p.dropped = true
      · rw [if_pos hd]; exact Same.refl t
      rw [if_neg hd] at hx ⊢
      have hd' : p.dropped = false := by
        cases hy : p.dropped with
        | false => rfl
        | true => exact absurd (Or.inr hy) hd
      rcases pcbbind_spec hc (e := e) hi hp hd' nam with ⟨y, _, hs⟩ | ⟨hy, _⟩
      · exact hs
      · rw [hy] at hx; cases hx
  · intro d n x hdst hx
    unfold udpConnect at hx ⊢
    cases hp : t.pcb i with
    | none => exact Same.refl t
    | some p =>
      simp only [hp] at hx ⊢
      by_cases hd : p.timewait = true ∨ p.dropped = true
      · rw [if_pos hd]; exact Same.refl t
      rw [if_neg hd] at hx ⊢
      by_cases hf : p.faddr ≠ 0
      · rw [if_pos hf]; exact Same.refl t
      rw [if_neg hf] at hx ⊢
      have hd' : p.dropped = false := by
        cases hy : p.dropped with
        | false => rfl
        | true => exact absurd (Or.inr hy) hd
      rcases pcbconnect_spec hc hi hp hd' d n hdst with ⟨y, _, hs⟩ | ⟨hy, _⟩
      · exact hs
      · rw [hy] at hx; cases hx
  · intro d n x hx
    unfold sendto at hx ⊢
    cases hp : t.pcb i with
    | none => exact Same.refl t
    | some p =>
      simp only [hp] at hx ⊢
      by_cases hd : p.timewait = true ∨ p.dropped = true
      · rw [if_pos hd]; exact Same.refl t
      rw [if_neg hd] at hx ⊢
      by_cases hf : p.faddr ≠ 0
      · rw [if_pos hf]; exact Same.refl t
      rw [if_neg hf] at hx ⊢
      by_cases hneed : p.laddr = 0 ∨ p.lport = 0 ∨ d = 0
      · rw [if_pos hneed] at hx ⊢
        have hs := connectSetup_spec hc (e := e) hi p.opts p.laddr p.lport d n
        generalize connectSetup c e t p.opts p.laddr p.lport d n = r at hs hx
        obtain ⟨r1, r2⟩ := r
        simp only at hs hx ⊢
        cases r1 with
        | error y => exact hs.1
        | ok anf =>
          obtain ⟨a, m, f⟩ := anf
          simp only at hx ⊢
          by_cases hb : p.laddr = 0 ∧ p.lport = 0
          · rw [if_pos hb] at hx ⊢
            cases hins : inshash c e r2 i { p with lport := m } with
            | none => exact hs.1
            | some u => rw [hins] at hx; cases hx
          · rw [if_neg hb] at hx ⊢
            cases hx
      · rw [if_neg hneed] at hx; cases hx

/-! ## C72: reconnecting -/

/-- **C72**, the part that holds: a disconnected datagram socket keeps its port and nothing else changes.  And the
violation: its local address is always forgotten, also the one it was bound to. -/
theorem disconnect_violated {c : Cfg} {t : Tab} {i : Nat} {p : Pcb} (hp : t.pcb i = some p)
    (hok : (disconnect c t i).1 = none) :
    (∃ q, (disconnect c t i).2.pcb i = some q ∧ q.lport = p.lport ∧ q.faddr = 0 ∧ q.fport = 0 ∧ q.laddr = 0) ∧
    ∀ j, j ≠ i → (disconnect c t i).2.pcb j = t.pcb j := by
  unfold disconnect at hok ⊢
  simp only [hp] at hok ⊢
  by_cases hf : p.faddr = 0
  · rw [if_pos hf] at hok; cases hok
  rw [if_neg hf] at hok ⊢
  by_cases hd : p.timewait = true ∨ p.dropped = true
  · rw [if_pos hd] at hok; cases hok
  rw [if_neg hd]
  refine ⟨⟨_, upd_self _ _ _, rfl, rfl, rfl, rfl⟩, ?_⟩
  intro j hj
  show upd (upd t.pcb i _) i _ j = _
  rw [upd_upd, upd_ne _ _ hj]

/-! ## C73: closing -/

/-- **C73.**  A closed socket is never found again, nobody else changes, and its address and port are free when no
other socket stands in the way. -/
theorem close_releases {c : Cfg} (hc : CfgOk c) {t : Tab} (h : Reach c t) (i : Nat) :
    (∀ fa fp la lp w, lookupHash c (free t i) fa fp la lp w ≠ some i) ∧
    (∀ j, j ≠ i → (free t i).pcb j = t.pcb j) ∧
    (∀ o a n, (∀ j q, j ≠ i → Bound t j q → q.lport ≠ n) → Free (free t i) o a n) := by
  have hi := h.inv hc
  have hf := (free_both hi i).1
  have hpcb : (free t i).pcb = upd t.pcb i none := by
    unfold free
    cases hp : t.pcb i with
    | none =>
      funext j
      by_cases hj : j = i
      · subst hj; rw [upd_self, hp]
      · rw [upd_ne _ _ hj]
    | some p =>
      simp only
      cases p.inHash <;> rfl
  have hnone : ∀ p, ¬ Bound (free t i) i p := by
    rintro p ⟨h1, _⟩
    rw [hpcb, upd_self] at h1; cases h1
  refine ⟨?_, fun j hj => by rw [hpcb, upd_ne _ _ hj], ?_⟩
  · intro fa fp la lp w hx
    cases w with
    | true =>
      have := lookupHash_best hf fa fp la lp
      rw [hx] at this
      obtain ⟨p, k, hb, _⟩ := this
      exact hnone p hb
    | false =>
      unfold lookupHash at hx
      cases he : lookupExact c (free t i) fa fp la lp with
      | none => rw [he] at hx; cases hx
      | some j =>
        rw [he] at hx
        cases hx
        obtain ⟨p, hb, _⟩ := lookupExact_some hf he
        exact hnone p hb
  · intro o a n hall j q hb _ hl
    exfalso
    by_cases hj : j = i
    · subst hj; exact hnone q hb
    · refine hall j q hj ?_ hl
      obtain ⟨h1, h2⟩ := hb
      rw [hpcb, upd_ne _ _ hj] at h1
      exact ⟨h1, h2⟩

/-! ## Witnesses -/

/-- A small configuration: two ports for automatic choice, a hash that puts everything in one chain. -/
def exC : Cfg := ⟨fun _ _ _ => 0, fun _ => 0, 5000, 5001, 600, 700, 5000, 5001, false, false⟩

theorem exC_ok : CfgOk exC := by
  intro r; cases r <;> decide

/-- Addresses 1 and 2 are ours, packets to anybody leave from 1. -/
def exE : Env := ⟨some 1, fun a => a == 1 || a == 2, fun _ => false, fun _ => some 1, 0, true⟩

def plain : Opts := ⟨false, false, false, false, false, 0⟩
def reuse : Opts := { plain with
  reuseaddr := true }
def reusePort : Opts := { plain with
  reuseport := true }

theorem run_reach {c : Cfg} : ∀ (ls : List Label) {t : Tab}, Reach c t → (∀ l ∈ ls, l.Ok) → Reach c (run c t ls)
  | [], _, h, _ => h
  | l :: ls, t, h, hl => run_reach ls (.step t l h (hl l (by simp))) (fun m hm => hl m (List.mem_cons_of_mem _ hm))

/-- Sockets 0 (bound to 2, 80), 1 (any, 80 is refused, so 81) and 2 connected from an automatic port. -/
def exRun : List Label :=
  [.socket plain, .bind exE 0 (some (2, 80)), .socket plain, .bind exE 1 (some (0, 80)), .bind exE 1 (some (0, 81)),
   .socket plain, .udpConnect exE 2 9 53]

theorem exRun_reach : Reach exC (run exC Tab.empty exRun) :=
  run_reach exRun .empty (by
    intro l hl
    simp only [exRun, List.mem_cons, List.not_mem_nil, or_false] at hl
    rcases hl with rfl | rfl | rfl | rfl | rfl | rfl | rfl <;>
      first | trivial | exact Or.inl (by decide))

/-- The hypotheses of C67..C73 are met: packets are delivered to the three sockets, the second bind to port 80 was
refused, the automatic port is in the range. -/
example :
    lookupHash exC (run exC Tab.empty exRun) 7 7 2 80 true = some 0 ∧
    lookupHash exC (run exC Tab.empty exRun) 7 7 1 80 true = none ∧
    lookupHash exC (run exC Tab.empty exRun) 7 7 2 81 true = some 1 ∧
    lookupHash exC (run exC Tab.empty exRun) 9 53 1 5000 true = some 2 ∧
    (apiBind exC exE (run exC Tab.empty (exRun.take 3)) 1 (some (0, 80))).1 = some .eaddrinuse ∧
    (apiBind exC exE (run exC Tab.empty (exRun.take 3)) 1 (some (1, 80))).1 = none ∧
    (apiBind exC exE (run exC Tab.empty (exRun.take 3)) 1 (some (1, 0))).1 = none ∧
    (run exC Tab.empty exRun).pcb 2 = some ⟨1, 5000, 9, 53, true, false, false, none, false, true, true, plain⟩ ∧
    (disconnect exC (run exC Tab.empty exRun) 2).1 = none := by
  refine ⟨?_, ?_, ?_, ?_, ?_, ?_, ?_, ?_, ?_⟩ <;> decide +kernel

/-- C67, violation: an IPv6-only socket bound to `::` receives an IPv4 packet, and takes it away from the IPv4 socket
that was bound to the same port. -/
theorem delivery_violated : ∃ ls : List Label, (∀ l ∈ ls, l.Ok) ∧ ∃ i p,
    lookupHash exC (run exC Tab.empty ls) 7 7 2 80 true = some i ∧
    (run exC Tab.empty ls).pcb i = some p ∧ p.v4 = false ∧
    ∃ j q, Bound (run exC Tab.empty ls) j q ∧ Takes 7 7 2 80 q .any := by
  refine ⟨[.socket plain, .bind6 exE 0 0 80 false, .socket plain, .bind exE 1 (some (0, 80))], ?_, 0,
    ⟨0, 80, 0, 0, true, false, false, none, false, false, false, plain⟩, by decide +kernel, by decide +kernel, rfl, 1,
    ⟨0, 80, 0, 0, true, false, false, none, false, true, false, plain⟩, ⟨by decide +kernel, rfl⟩, rfl, rfl, rfl, rfl⟩
  intro l hl
  simp only [List.mem_cons, List.not_mem_nil, or_false] at hl
  rcases hl with rfl | rfl | rfl | rfl <;> trivial

/-- C68, violation, the hypotheses met: both sockets have `SO_REUSEPORT`, the second bind fails. -/
example :
    (apiBind exC exE (run exC Tab.empty [.socket reusePort, .bind exE 0 (some (1, 80)), .socket reusePort]) 1
      (some (1, 80))).1 = some .eaddrinuse := by decide +kernel

/-- C68, violation: the address a datagram socket gets by `sendto` is not the one that was found free.  Socket 1 sends
from port 5000, the answer is delivered to socket 0. -/
theorem sendto_bind_violated : ∃ ls : List Label, (∀ l ∈ ls, l.Ok) ∧
    let t := run exC Tab.empty ls
    (sendto exC exE t 1 9 53).1 = .ok (1, 5000) ∧
    (∃ p q, Bound (sendto exC exE t 1 9 53).2 0 p ∧ Bound (sendto exC exE t 1 9 53).2 1 q ∧
      p.laddr = q.laddr ∧ p.lport = q.lport ∧ p.faddr = 0 ∧ q.faddr = 0 ∧ ¬ Free t q.opts q.laddr q.lport) ∧
    lookupHash exC (sendto exC exE t 1 9 53).2 9 53 1 5000 true = some 0 := by
  refine ⟨[.socket plain, .bind exE 0 (some (0, 5000)), .socket reuse], ?_, ?_⟩
  · intro l hl
    simp only [List.mem_cons, List.not_mem_nil, or_false] at hl
    rcases hl with rfl | rfl | rfl <;> trivial
  · refine ⟨by decide +kernel, ⟨⟨0, 5000, 0, 0, true, false, false, none, false, true, false, plain⟩,
      ⟨0, 5000, 0, 0, true, false, false, none, false, true, true, reuse⟩,
      ⟨by decide +kernel, rfl⟩, ⟨by decide +kernel, rfl⟩, rfl, rfl, rfl, rfl, ?_⟩, by decide +kernel⟩
    intro hf
    have := hf 0 ⟨0, 5000, 0, 0, true, false, false, none, false, true, false, plain⟩
      ⟨by decide +kernel, rfl⟩ rfl rfl
    rw [if_neg (by decide)] at this
    exact this ⟨rfl, rfl⟩

/-- C70, violation: two datagram sockets with `SO_REUSEADDR` connect to the same peer from the same port. -/
theorem connection_unique_violated : ∃ ls : List Label, (∀ l ∈ ls, l.Ok) ∧
    ∃ p q, Bound (run exC Tab.empty ls) 0 p ∧ Bound (run exC Tab.empty ls) 1 q ∧ p.faddr ≠ 0 ∧
      p.laddr = q.laddr ∧ p.lport = q.lport ∧ p.faddr = q.faddr ∧ p.fport = q.fport := by
  refine ⟨[.socket reuse, .socket reuse, .socket plain, .udpConnect exE 0 9 53, .bind exE 2 (some (2, 0)),
      .udpConnect exE 1 9 53], ?_,
    ⟨1, 5000, 9, 53, true, false, false, none, false, true, true, reuse⟩,
    ⟨1, 5000, 9, 53, true, false, false, none, false, true, true, reuse⟩,
    ⟨by decide +kernel, rfl⟩, ⟨by decide +kernel, rfl⟩, by decide, rfl, rfl, rfl, rfl⟩
  intro l hl
  simp only [List.mem_cons, List.not_mem_nil, or_false] at hl
  rcases hl with rfl | rfl | rfl | rfl | rfl | rfl <;>
    first | trivial | exact Or.inl (by decide)

end Verif.Pcb

import Verif.Pcb6.Hist
/-!
# IPv6 sockets, addresses and ports: the properties

`Reach6 c t`: `t` is the table after some history of calls on sockets of both families (Hist.lean).  `Bound t i p`: socket
`i` has the contents `p` and is bound.  `Free6`, `Overlap6`, `Takes6`, `Acceptable6` are the specification.
-/
namespace Verif.Pcb6
open Verif.Pcb

/-! ## C187: delivery -/

/-- **C187.**  For every hash function and every history: an IPv6 packet to a real address goes to a bound socket of
the best class there is, and to nobody only if no bound IPv6 socket matches. -/
theorem delivery6_exact {c : Cfg} (hc : CfgOk c) {t : Tab6} (h : Reach6 c t) (fa : A6) (fp : Nat) (la : A6)
    (hla : la ≠ any6) (lp : Nat) :
    match lookupHash6 c t fa fp la lp true with
    | none => ∀ i p k, Bound t.base i p → ¬ Takes6 fa fp la lp (t.x i) p k
    | some i => ∃ p k, Bound t.base i p ∧ Takes6 fa fp la lp (t.x i) p k ∧
        ∀ j q k', Bound t.base j q → Takes6 fa fp la lp (t.x j) q k' → k.rank ≤ k'.rank :=
  lookupHash6_best (h.inv hc).base fa fp la hla lp

/-! ## C188: the families do not mix -/

/-- **C188**, the IPv6 half: a socket that does not take IPv6 never gets an IPv6 packet. -/
theorem no_v6_for_v4_partial {c : Cfg} (hc : CfgOk c) {t : Tab6} (h : Reach6 c t) {fa : A6} {fp : Nat} {la : A6}
    (hla : la ≠ any6) {lp i : Nat} (hr : lookupHash6 c t fa fp la lp true = some i) : (t.x i).v6 = true := by
  have := delivery6_exact hc h fa fp la hla lp
  rw [hr] at this
  obtain ⟨p, k, _, hk, _⟩ := this
  cases k <;> exact hk.1

/-- **C188**, the IPv4 half, under the condition that the sockets with this port all take IPv4 and have no IPv6
address: an IPv4 packet goes to a socket of the best class there is.  (`Takes`: Pcb/Props.lean.) -/
theorem delivery4_partial {c : Cfg} (hc : CfgOk c) {t : Tab6} (h : Reach6 c t) (fa fp la lp : Nat)
    (h4 : ∀ i p, Bound t.base i p → p.lport = lp → p.v4 = true) :
    match lookupHash c t.base fa fp la lp true with
    | none => ∀ i p k, Bound t.base i p → ¬ Takes fa fp la lp p k
    | some i => ∃ p k, Bound t.base i p ∧ Takes fa fp la lp p k ∧
        ∀ j q k', Bound t.base j q → Takes fa fp la lp q k' → k.rank ≤ k'.rank := by
  have fwd : ∀ p k, Takes fa fp la lp p k → Matches fa fp la lp p k := by
    intro p k ht
    cases k with
    | connection => exact ht
    | address => exact ht.2
    | any => exact ht.2
  have back : ∀ i p k, Bound t.base i p → Matches fa fp la lp p k → Takes fa fp la lp p k := by
    intro i p k hb ht
    cases k with
    | connection => exact ht
    | address => exact ⟨h4 i p hb ht.2.2, ht⟩
    | any => exact ⟨h4 i p hb ht.2.2, ht⟩
  have := lookupHash_best (h.inv hc).base fa fp la lp
  cases hr : lookupHash c t.base fa fp la lp true with
  | none =>
    rw [hr] at this
    intro i p k hb ht
    exact this i p k hb (fwd p k ht)
  | some i =>
    rw [hr] at this
    obtain ⟨p, k, hb, hm, hbest⟩ := this
    exact ⟨p, k, hb, back i p k hb hm, fun j q k' hbq hq => hbest j q k' hbq (fwd q k' hq)⟩

/-! ## C189: explicit bind -/

theorem free6_setFam {t : Tab6} {i : Nat} {p : Pcb} (hp : t.base.pcb i = some p) (hin : p.inHash = false) (v w : Bool)
    (o : Opts) (a : A6) (n : Nat) : Free6 (setFam t i p v w) o a n ↔ Free6 t o a n := by
  have key : ∀ j q, Bound (setFam t i p v w).base j q ↔ Bound t.base j q := by
    intro j q
    by_cases hj : j = i
    · subst hj
      simp only [Bound, setFam, Tab.setPcb, upd_self, hp]
      constructor
      · rintro ⟨h1, h2⟩; cases h1; rw [hin] at h2; cases h2
      · rintro ⟨h1, h2⟩; cases h1; rw [hin] at h2; cases h2
    · simp only [Bound, setFam, Tab.setPcb, upd_ne _ _ hj]
  have hne : ∀ j q, Bound t.base j q → j ≠ i := by
    rintro j q ⟨h1, h2⟩ rfl
    rw [hp] at h1; cases h1; rw [hin] at h2; cases h2
  constructor
  · intro h j q hb h6 hl
    have hj := hne j q hb
    have hx : (setFam t i p v w).x j = t.x j := by simp only [setFam, upd_ne _ _ hj]
    have := h j q ((key j q).2 hb) (by rw [hx]; exact h6) hl
    rw [hx] at this; exact this
  · intro h j q hb h6 hl
    have hb := (key j q).1 hb
    have hj := hne j q hb
    have hx : (setFam t i p v w).x j = t.x j := by simp only [setFam, upd_ne _ _ hj]
    rw [hx] at h6 ⊢
    exact h j q hb h6 hl

theorem free_setFam {t : Tab6} {i : Nat} {p : Pcb} (hp : t.base.pcb i = some p) (hin : p.inHash = false) (v w : Bool)
    (o : Opts) (a n : Nat) : Free t.base o a n → Free (setFam t i p v w).base o a n := by
  intro h j q hb h4 hl
  by_cases hj : j = i
  · subst hj
    simp only [Bound, setFam, Tab.setPcb, upd_self] at hb
    obtain ⟨h1, h2⟩ := hb
    cases h1; rw [hin] at h2; cases h2
  · simp only [Bound, setFam, Tab.setPcb, upd_ne _ _ hj] at hb
    exact h j q hb h4 hl

theorem unbound_of_port {c : Cfg} {t : Tab6} (h : Inv6 c t) {i : Nat} {p : Pcb} (hp : t.base.pcb i = some p)
    (hl : p.lport = 0) : p.inHash = false := by
  cases hx : p.inHash with
  | false => rfl
  | true => exact absurd hl ((h.base.good i p hp).port hx)

/-- The socket also takes IPv4 (`IPV6_V6ONLY` is off) and asks for any address: IPv4 is asked for too. -/
def Dual (x : X) (a : A6) : Prop := x.v6only = false ∧ a = any6

/-- The call is for an IPv6 address: not for a mapped one, and not a multicast one on a stream socket. -/
def For6 (c : Cfg) (x : X) (a : A6) : Prop :=
  ¬ (x.v6only = false ∧ a.mapped = true) ∧ ¬ (c.stream = true ∧ a.mcast = true)

theorem bind6_eq {c : Cfg} {e : Env6} {t : Tab6} {i : Nat} {p : Pcb} (hp : t.base.pcb i = some p)
    (hlive : p.timewait = false ∧ p.dropped = false) {a : A6} {n : Nat} (hf : For6 c (t.x i) a) :
    bind6 c e t i a n = pcbbind6 c e (setFam t i p (!(t.x i).v6only && a == any6) true) i
      { p with v4 := !(t.x i).v6only && a == any6 } (some (a, n)) := by
  unfold bind6
  rw [hp]
  simp only
  rw [if_neg hf.2, if_neg (by rw [hlive.1, hlive.2]; simp), if_neg hf.1]

theorem ins6_mem {c : Cfg} {e : Env6} (hmem : e.e4.mem = true) (t : Tab6) (i : Nat) (p : Pcb) (a : A6) (n : Nat) :
    ∃ u, ins6 c e t i p a n = some u := by
  unfold ins6 inshash
  simp only [hmem, if_true]
  split <;> simp

/-- **C189.**  `bind` of a live unbound IPv6 socket to address `a` and port `n` (memory permitting): it succeeds if there
is an IPv6 interface, the address can be bound, it is free among the IPv6 sockets and, if IPv4 is asked for
too, among the IPv4 ones; if it succeeds the address was free, the socket has exactly it, and no other socket
changed; if it is refused as in use, it was not free. -/
theorem bind6_exact {c : Cfg} (hc : CfgOk c) {t : Tab6} (h : Reach6 c t) {e : Env6} {i : Nat} {p : Pcb}
    (hp : t.base.pcb i = some p) (hlive : p.timewait = false ∧ p.dropped = false) (hunb : p.lport = 0)
    {a : A6} {n : Nat} (hf : For6 c (t.x i) a) (hn : n ≠ 0) (hmem : e.e4.mem = true) :
    let r := bind6 c e t i a n
    (e.primary ≠ none → Acceptable6 e p.opts a → Free6 t p.opts a n →
      (Dual (t.x i) a → Free t.base p.opts 0 n) → r.1 = none) ∧
    (r.1 = none → Free6 t p.opts a n ∧ Acceptable6 e p.opts a ∧
      (∃ q, Bound r.2.1.base i q ∧ q.lport = n ∧ la6 (r.2.1.x i) q = a ∧ fa6 (r.2.1.x i) q = any6 ∧
        (r.2.1.x i).v6 = true ∧ (q.v4 = true ↔ Dual (t.x i) a)) ∧
      ∀ j, j ≠ i → r.2.1.base.pcb j = t.base.pcb j ∧ r.2.1.x j = t.x j) ∧
    (r.1 = some (.e .eaddrinuse) → ¬ Free6 t p.opts a n ∨ (Dual (t.x i) a ∧ ¬ Free t.base p.opts 0 n)) := by
  have hi := h.inv hc
  have hin := unbound_of_port hi hp hunb
  rw [bind6_eq hp hlive hf]
  have hv : (!(t.x i).v6only && a == any6) = true ↔ Dual (t.x i) a := by
    unfold Dual; cases (t.x i).v6only <;> simp
  generalize (!(t.x i).v6only && a == any6) = v at hv
  obtain ⟨h1, h2, h3, h4⟩ := setFam_spec hi hp v true
  have hp1 : (setFam t i p v true).base.pcb i = some { p with v4 := v } := by rw [h2, upd_self]
  have hx1 : (setFam t i p v true).x i = { t.x i with v6 := true } := by rw [h3, upd_self]
  have hbl := hi.bound_or hp hlive.2
  have hblank : la6 (t.x i) p = any6 ∧ fa6 (t.x i) p = any6 := by
    rcases hbl with hx | hx
    · rw [hin] at hx; cases hx
    · exact ⟨hx.1, hx.2.1⟩
  have hla : la6 ((setFam t i p v true).x i) { p with v4 := v } = any6 := by rw [hx1]; exact hblank.1
  have hdual : Dual ((setFam t i p v true).x i) a ↔ Dual (t.x i) a := by rw [hx1]; exact Iff.rfl
  have hsp := pcbbind6_spec hc (e := e) h1 hp1 hlive.2 (some (a, n))
  have hex : (pcbbind6 c e (setFam t i p v true) i { p with v4 := v } (some (a, n))).1 =
      if e.primary = none then some (.e .eaddrnotavail)
      else if ¬ Acceptable6 e p.opts a then some (.e .eaddrnotavail)
      else if conflict6 c (setFam t i p v true) p.opts ((setFam t i p v true).x i) a n = true then some (.e .eaddrinuse)
      else none := by
    unfold pcbbind6
    simp only
    by_cases hpr : e.primary = none
    · rw [if_pos hpr, if_pos hpr]
    · rw [if_neg hpr, if_neg hpr]
      rw [if_neg (by rintro (x | x); exacts [x hunb, x hla])]
      have hacc : (a.mcast = false ∧ ¬ a = any6 ∧ p.opts.bindany = false ∧ e.isLocal a = false) ↔
          ¬ Acceptable6 e p.opts a := by
        unfold Acceptable6
        cases a.mcast <;> cases p.opts.bindany <;> cases e.isLocal a <;> simp
      by_cases ha : Acceptable6 e p.opts a
      · rw [if_neg (fun z => hacc.1 z ha), if_neg (not_not.2 ha), if_pos hn]
        by_cases hb : conflict6 c (setFam t i p v true) p.opts ((setFam t i p v true).x i) a n = true
        · rw [if_pos hb, if_pos hb]
        · rw [if_neg hb, if_neg hb]
          obtain ⟨u, hu⟩ := ins6_mem (c := c) hmem (setFam t i p v true) i { p with v4 := v } a n
          rw [hu]
      · rw [if_pos (hacc.2 ha), if_pos ha]
  refine ⟨?_, ?_, ?_⟩
  · intro g1 g2 g3 g4
    rw [hex, if_neg g1, if_neg (not_not.2 g2), if_neg]
    intro hcf
    rcases conflict6_true h1.base hcf with hx | ⟨hx1, hx2, hx3⟩
    · exact hx ((free6_setFam hp hin v true _ _ _).2 g3)
    · exact hx3 (free_setFam hp hin v true _ _ _ (g4 (hdual.1 ⟨hx1, hx2⟩)))
  · intro hok
    rcases hsp with ⟨x, hx, _⟩ | ⟨_, _, _, _, a', m, _, hfree, ⟨_, ⟨an, hbp⟩, hbx, _⟩, _, hsame, _⟩
    · rw [hx] at hok; cases hok
    · obtain ⟨e1, e2, e3⟩ := hsame a n rfl
      have e3 := e3 hn
      subst e1 e3
      refine ⟨(free6_setFam hp hin v true _ _ _).1 hfree, e2,
        ⟨_, ⟨by rw [hbp, upd_self], rfl⟩, rfl, ?_, ?_, ?_, hv⟩, ?_⟩
      · rw [hbx, upd_self]; rfl
      · rw [hbx, upd_self, hx1]; exact hblank.2
      · rw [hbx, upd_self, hx1]
      · intro j hj
        rw [hbp, hbx, upd_ne _ _ hj, upd_ne _ _ hj, h2, h3, upd_ne _ _ hj, upd_ne _ _ hj]
        exact ⟨rfl, rfl⟩
  · intro hno
    rw [hex] at hno
    by_cases g1 : e.primary = none
    · rw [if_pos g1] at hno; cases hno
    rw [if_neg g1] at hno
    by_cases g2 : Acceptable6 e p.opts a
    · rw [if_neg (not_not.2 g2)] at hno
      by_cases hb : conflict6 c (setFam t i p v true) p.opts ((setFam t i p v true).x i) a n = true
      · rcases conflict6_true h1.base hb with hx | ⟨hx1, hx2, hx3⟩
        · exact Or.inl (fun hf => hx ((free6_setFam hp hin v true _ _ _).2 hf))
        · exact Or.inr ⟨hdual.1 ⟨hx1, hx2⟩, fun hf => hx3 (free_setFam hp hin v true _ _ _ hf)⟩
      · rw [if_neg hb] at hno; cases hno
    · rw [if_pos g2] at hno; cases hno

/-- **C189**, violation: `SO_REUSEPORT` does nothing for IPv6 either. -/
theorem reuseport6_violated {c : Cfg} (hc : CfgOk c) {t : Tab6} (h : Reach6 c t) {e : Env6} {i j : Nat} {p q : Pcb}
    (hp : t.base.pcb i = some p) (hlive : p.timewait = false ∧ p.dropped = false) (hunb : p.lport = 0)
    (hq : Bound t.base j q) (h6 : (t.x j).v6 = true) (hun : fa6 (t.x j) q = any6)
    (hf : For6 c (t.x i) (la6 (t.x j) q)) (hmem : e.e4.mem = true) :
    (bind6 c e t i (la6 (t.x j) q) q.lport).1 ≠ none := by
  intro hno
  have hn : q.lport ≠ 0 := ((h.inv hc).base.good j q hq.1).port hq.2
  have hfree := ((bind6_exact hc h hp hlive hunb hf hn hmem).2.1 hno).1 j q hq h6 rfl
  split at hfree
  · exact hfree (Or.inr (Or.inr rfl))
  · exact hfree ⟨hun, rfl⟩

/-! ## C190: the port the stack chooses -/

theorem inRange6 (c : Cfg) (o : Opts) (n : Nat) : Pcb.InRange c o n ↔ InRange c o n := inRange_iff c o n

/-- **C190.**  `bind` of an IPv6 socket to port 0: success gives a port of the range that is free; if there is an IPv6
interface, the address can be bound and memory is there, failure means that no port of the range is free. -/
theorem ephemeral_bind6 {c : Cfg} (hc : CfgOk c) {t : Tab6} (h : Reach6 c t) {e : Env6} {i : Nat} {p : Pcb}
    (hp : t.base.pcb i = some p) (hlive : p.timewait = false ∧ p.dropped = false) (hunb : p.lport = 0) {a : A6}
    (hf : For6 c (t.x i) a) :
    let r := bind6 c e t i a 0
    (r.1 = none → ∃ q, Bound r.2.1.base i q ∧ la6 (r.2.1.x i) q = a ∧ Pcb.InRange c p.opts q.lport ∧
      Free6 t p.opts a q.lport) ∧
    (r.1 ≠ none → e.primary ≠ none → Acceptable6 e p.opts a → e.e4.mem = true →
      r.1 = some (.e .eaddrnotavail) ∧ ∀ n, Pcb.InRange c p.opts n → ¬ Free6 t p.opts a n) := by
  have hi := h.inv hc
  have hin := unbound_of_port hi hp hunb
  rw [bind6_eq hp hlive hf]
  generalize (!(t.x i).v6only && a == any6) = v
  obtain ⟨h1, h2, h3, h4⟩ := setFam_spec hi hp v true
  have hp1 : (setFam t i p v true).base.pcb i = some { p with v4 := v } := by rw [h2, upd_self]
  have hx1 : (setFam t i p v true).x i = { t.x i with v6 := true } := by rw [h3, upd_self]
  have hla : la6 ((setFam t i p v true).x i) { p with v4 := v } = any6 := by
    rw [hx1]
    rcases hi.bound_or hp hlive.2 with hx | hx
    · rw [hin] at hx; cases hx
    · exact hx.1
  have hin1 : ({ p with v4 := v } : Pcb).inHash = false := hin
  refine ⟨?_, ?_⟩
  · intro hok
    rcases pcbbind6_spec hc (e := e) h1 hp1 hlive.2 (some (a, 0)) with
      ⟨x, hx, _⟩ | ⟨_, _, _, _, a', m, _, hfree, ⟨_, ⟨an, hbp⟩, hbx, _⟩, _, hsame, hr⟩
    · rw [hx] at hok; cases hok
    · obtain ⟨e1, _, _⟩ := hsame a 0 rfl
      subst e1
      refine ⟨_, ⟨by rw [hbp, upd_self], rfl⟩, ?_, (inRange6 c p.opts m).2 (hr (Or.inr ⟨_, rfl⟩)),
        (free6_setFam hp hin v true _ _ _).1 hfree⟩
      rw [hbx, upd_self]; rfl
  · intro hbad g1 g2 hmem
    have hacc : ¬ (a.mcast = false ∧ ¬ a = any6 ∧ p.opts.bindany = false ∧ e.isLocal a = false) := by
      rintro ⟨x1, x2, x3, x4⟩
      rcases g2 with y | y | y | y
      · rw [y] at x1; cases x1
      · exact x2 y
      · rw [y] at x3; cases x3
      · rw [y] at x4; cases x4
    have he : (pcbbind6 c e (setFam t i p v true) i { p with v4 := v } (some (a, 0))).1 =
        (setport6 c e (setFam t i p v true) i { p with v4 := v } a).1 := by
      unfold pcbbind6
      simp only [g1, hla, ne_eq, not_true_eq_false, or_false, if_false]
      rw [if_neg (not_not.2 hunb), if_neg hacc]
    rw [he] at hbad ⊢
    rcases setport6_spec hc (e := e) h1 hp1 hlive.2 hin1 a with ⟨x, hx, _, hx2⟩ | ⟨hx, _⟩
    · rw [hx]
      rcases hx2 with ⟨hx2, hx3⟩ | ⟨_, hx3⟩
      · subst hx2
        refine ⟨rfl, fun n hn hfr => ?_⟩
        exact hx3 n ((inRange6 c p.opts n).1 hn) ((free6_setFam hp hin v true _ _ _).2 hfr)
      · rw [hmem] at hx3; cases hx3
    · exact absurd hx hbad

/-- **C190** for `sendto` on an unbound IPv6 datagram socket: the source port is in the range and free for every
address, the socket keeps it and stays unconnected. -/
theorem ephemeral_sendto6 {c : Cfg} (hc : CfgOk c) {t : Tab6} (h : Reach6 c t) {e : Env6} {i : Nat} {p : Pcb}
    (hp : t.base.pcb i = some p) (hunb : p.lport = 0) {dst : A6} {dport : Nat} (hm : dst.mapped = false)
    {sa fa : A6} {sp : Nat} (hok : (sendto6 c e t i dst dport).1 = .ok (sa, sp, fa)) :
    Pcb.InRange c p.opts sp ∧ Free6 t p.opts any6 sp ∧ (dst ≠ any6 → fa = dst) ∧
      ∃ q, Bound (sendto6 c e t i dst dport).2.1.base i q ∧ q.lport = sp ∧
        la6 ((sendto6 c e t i dst dport).2.1.x i) q = any6 ∧ fa6 ((sendto6 c e t i dst dport).2.1.x i) q = any6 := by
  have hi := h.inv hc
  have hin := unbound_of_port hi hp hunb
  unfold sendto6 at hok ⊢
  simp only [hp] at hok ⊢
  by_cases hl : p.timewait = true ∨ p.dropped = true
  · rw [if_pos hl] at hok; cases hok
  rw [if_neg hl] at hok ⊢
  obtain ⟨_, hd⟩ := live_of hl
  have hblank : la6 (t.x i) p = any6 ∧ fa6 (t.x i) p = any6 := by
    rcases hi.bound_or hp hd with hx | hx
    · rw [hin] at hx; cases hx
    · exact ⟨hx.1, hx.2.1⟩
  simp only [hm, Bool.false_eq_true, and_false, if_false] at hok ⊢
  by_cases h0 : dport = 0
  · rw [if_pos h0] at hok; cases hok
  rw [if_neg h0] at hok ⊢
  rw [if_neg (not_not.2 hblank.2)] at hok ⊢
  cases hs : (if dst = any6 then e.primary else selectSrc e (la6 (t.x i) p) dst) with
  | none => rw [hs] at hok; cases hok
  | some s =>
    rw [hs] at hok
    simp only [hunb, if_true] at hok ⊢
    have hpe : ({ p with lport := 0 } : Pcb) = p := by cases p; simp only at hunb; subst hunb; rfl
    rcases setport6_spec hc (e := e) hi hp hd hin (la6 (t.x i) p) with ⟨x, h1, _⟩ | ⟨h1, n, h2, h3, h4, h5⟩
    · simp only [h1] at hok; cases hok
    · obtain ⟨hbi, ⟨an, hbp⟩, hbx, _⟩ := h5
      have hself : (setport6 c e t i p (la6 (t.x i) p)).2.base.pcb i = some { p with
          laddr := (la6 (t.x i) p).lo, lport := n, inHash := true, anon := an } := by rw [hbp, upd_self]
      simp only [h1, hself] at hok ⊢
      cases hok
      rw [hblank.1] at h4
      refine ⟨(inRange6 c p.opts _).2 h3, h4, fun hx => by rw [if_neg hx], _, ⟨hself, rfl⟩, rfl, ?_, ?_⟩
      · rw [hbx, upd_self, hblank.1]; rfl
      · rw [hbx, upd_self]; exact hblank.2

/-- **C190** for `listen` on an unbound IPv6 stream socket. -/
theorem ephemeral_listen6 {c : Cfg} (hc : CfgOk c) {t : Tab6} (h : Reach6 c t) {e : Env6} {i : Nat} {p : Pcb}
    (hp : t.base.pcb i = some p) (hunb : p.lport = 0) (hok : (listen6 c e t i).1 = none) :
    ∃ q, Bound (listen6 c e t i).2.base i q ∧ la6 ((listen6 c e t i).2.x i) q = any6 ∧
      Pcb.InRange c p.opts q.lport ∧ Free6 t p.opts any6 q.lport ∧ (q.v4 = true ↔ (t.x i).v6only = false) := by
  have hi := h.inv hc
  have hin := unbound_of_port hi hp hunb
  unfold listen6 at hok ⊢
  simp only [hp] at hok ⊢
  by_cases hl : p.timewait = true ∨ p.dropped = true
  · rw [if_pos hl] at hok; cases hok
  rw [if_neg hl, if_pos hunb] at hok ⊢
  obtain ⟨_, hd⟩ := live_of hl
  obtain ⟨h1, h2, h3, h4⟩ := setFam_spec hi hp (!(t.x i).v6only) (t.x i).v6
  have hp1 : (setFam t i p (!(t.x i).v6only) (t.x i).v6).base.pcb i = some { p with v4 := !(t.x i).v6only } := by
    rw [h2, upd_self]
  rcases pcbbind6_spec hc (e := e) h1 hp1 hd none with
      ⟨x, hx, _⟩ | ⟨_, _, _, _, a', m, _, hfree, ⟨_, ⟨an, hbp⟩, hbx, _⟩, ha, _, hr⟩
  · rw [hx] at hok; cases hok
  · have ha := ha rfl
    subst ha
    refine ⟨_, ⟨by rw [hbp, upd_self], rfl⟩, ?_, (inRange6 c p.opts m).2 (hr (Or.inl rfl)),
      (free6_setFam hp hin _ _ _ _ _).1 hfree, ?_⟩
    · rw [hbx, upd_self]; rfl
    · cases (t.x i).v6only <;> simp

/-! ## C191: connections -/

/-- **C191** for datagram sockets.  A successful `connect` to an IPv6 address: the socket is connected to exactly that
peer (`::` is the first interface's address), keeps address and port it had, and no other socket changed.
Unless it had no port and `SO_REUSEADDR` or `SO_REUSEPORT` is set, no other IPv6 socket has this connection. -/
theorem connect6_udp_partial {c : Cfg} (hc : CfgOk c) {t : Tab6} (h : Reach6 c t) {e : Env6} {i : Nat} {p : Pcb}
    (hp : t.base.pcb i = some p) {dst : A6} {dport : Nat} (hm : dst.mapped = false) (hdst : DstOk6 e dst)
    (hok : (udpConnect6 c e t i dst dport).1 = none) :
    ∃ q, let r := (udpConnect6 c e t i dst dport).2
      Bound r.base i q ∧ fa6 (r.x i) q = realDst e dst ∧ q.fport = dport ∧ (r.x i).v6 = true ∧ q.v4 = false ∧
      (la6 (t.x i) p ≠ any6 → la6 (r.x i) q = la6 (t.x i) p) ∧
      (la6 (t.x i) p = any6 → selectSrc e any6 (realDst e dst) = some (la6 (r.x i) q)) ∧
      (p.lport ≠ 0 → q.lport = p.lport) ∧
      (p.lport = 0 → Pcb.InRange c p.opts q.lport ∧ Free6 t p.opts any6 q.lport) ∧
      (∀ j, j ≠ i → r.base.pcb j = t.base.pcb j ∧ r.x j = t.x j) ∧
      (p.lport ≠ 0 ∨ (p.opts.reuseaddr = false ∧ p.opts.reuseport = false) →
        ∀ j s, j ≠ i → Bound t.base j s → (t.x j).v6 = true →
          ¬ (fa6 (t.x j) s = realDst e dst ∧ s.fport = dport ∧ la6 (t.x j) s = la6 (r.x i) q ∧ s.lport = q.lport)) := by
  have hi := h.inv hc
  unfold udpConnect6 at hok ⊢
  simp only [hp] at hok ⊢
  by_cases hl : p.timewait = true ∨ p.dropped = true
  · rw [if_pos hl] at hok; cases hok
  rw [if_neg hl] at hok ⊢
  obtain ⟨_, hd⟩ := live_of hl
  simp only [hm, Bool.false_eq_true, if_false] at hok ⊢
  by_cases hfa : fa6 (t.x i) p ≠ any6
  · rw [if_pos hfa] at hok; cases hok
  rw [if_neg hfa] at hok ⊢
  obtain ⟨h1, h2, h3, h4⟩ := setFam_spec hi hp false true
  have hp1 : (setFam t i p false true).base.pcb i = some { p with v4 := false } := by rw [h2, upd_self]
  have hx1 : (setFam t i p false true).x i = { t.x i with v6 := true } := by rw [h3, upd_self]
  have hlaq : la6 ((setFam t i p false true).x i) { p with v4 := false } = la6 (t.x i) p := by rw [hx1]; rfl
  rcases pcbconnect6_spec hc (e := e) h1 hp1 hd dst dport hdst with
    ⟨x, hx, _⟩ | ⟨_, la, n, ⟨_, ⟨an, hcp⟩, hcx, _⟩, hn, hd0, g1, g2, g3, g4, g5⟩
  · rw [hx] at hok; cases hok
  rw [hlaq] at g1 g2
  have hother : ∀ j, j ≠ i → (setFam t i p false true).base.pcb j = t.base.pcb j ∧
      (setFam t i p false true).x j = t.x j := by
    intro j hj; rw [h2, h3, upd_ne _ _ hj, upd_ne _ _ hj]; exact ⟨rfl, rfl⟩
  have hla' : la6 ((pcbconnect6 c e (setFam t i p false true) i { p with v4 := false } dst dport).2.x i) { p with
      v4 := false, laddr := la.lo, lport := n, faddr := (realDst e dst).lo, fport := dport, inHash := true, anon := an } = la := by
    rw [hcx, upd_self]; rfl
  refine ⟨{ p with v4 := false, laddr := la.lo, lport := n, faddr := (realDst e dst).lo, fport := dport, inHash := true, anon := an },
    ⟨by rw [hcp, upd_self], rfl⟩, ?_, rfl, ?_, rfl, ?_, ?_, g3, ?_, ?_, ?_⟩
  · rw [hcx, upd_self]; rfl
  · rw [hcx, upd_self, hx1]
  · intro hx; rw [hla']; exact g1 hx
  · intro hx; rw [hla']; exact g2 hx
  · intro hx
    have := g4 hx
    exact ⟨(inRange6 c p.opts n).2 this.2, (free6_setFam hp (unbound_of_port hi hp hx) _ _ _ _ _).1 this.1⟩
  · intro j hj
    rw [hcp, hcx, upd_ne _ _ hj, upd_ne _ _ hj]
    exact hother j hj
  · intro hcond j s hj hb h6
    rw [hla']
    rintro ⟨x1, x2, x3, x4⟩
    have hb1 : Bound (setFam t i p false true).base j s := ⟨by rw [(hother j hj).1]; exact hb.1, hb.2⟩
    by_cases hl0 : p.lport = 0
    · rcases hcond with hcond | hcond
      · exact hcond hl0
      · have := (g4 hl0).1 j s hb1 (by rw [(hother j hj).2]; exact h6) x4
        rw [if_pos hcond] at this
        exact this (Or.inl rfl)
    · have h7 := g5 j s hb1 (by rw [(hother j hj).2]; exact h6)
      rw [(hother j hj).2] at h7
      exact h7 ⟨x1, x2, x3, x4.trans (g3 hl0)⟩

/-- **C191** for stream sockets: always. -/
theorem connect6_tcp {c : Cfg} (hc : CfgOk c) {t : Tab6} (h : Reach6 c t) {e : Env6} {i : Nat} {p : Pcb}
    (hp : t.base.pcb i = some p) {dst : A6} {dport : Nat} (hdst : DstOk6 e dst)
    (hok : (tcpConnect6 c e t i dst dport).1 = none) :
    ∃ q, let r := (tcpConnect6 c e t i dst dport).2
      Bound r.base i q ∧ fa6 (r.x i) q = realDst e dst ∧ q.fport = dport ∧ (r.x i).v6 = true ∧ q.v4 = false ∧
      (la6 (t.x i) p ≠ any6 → la6 (r.x i) q = la6 (t.x i) p) ∧
      (p.lport ≠ 0 → q.lport = p.lport) ∧ (p.lport = 0 → Pcb.InRange c p.opts q.lport) ∧
      (∀ j, j ≠ i → r.base.pcb j = t.base.pcb j ∧ r.x j = t.x j) ∧
      ∀ j s, j ≠ i → Bound t.base j s → (t.x j).v6 = true →
          ¬ (fa6 (t.x j) s = realDst e dst ∧ s.fport = dport ∧ la6 (t.x j) s = la6 (r.x i) q ∧ s.lport = q.lport) := by
  have hi := h.inv hc
  obtain ⟨_, h2, h3, _⟩ := setFam_spec hi hp false true
  have hx1 : (setFam t i p false true).x i = { t.x i with v6 := true } := by rw [h3, upd_self]
  obtain ⟨la, n, ⟨_, ⟨an, hcp⟩, hcx, _⟩, hn, g1, g3, g4, g5⟩ := (tcpConnect6_spec hc hi hp dst dport hdst).2 hok
  have hla' : la6 ((tcpConnect6 c e t i dst dport).2.x i) { p with
      v4 := false, laddr := la.lo, lport := n, faddr := (realDst e dst).lo, fport := dport, inHash := true, anon := an } = la := by
    rw [hcx, upd_self]; rfl
  refine ⟨{ p with v4 := false, laddr := la.lo, lport := n, faddr := (realDst e dst).lo, fport := dport, inHash := true, anon := an },
    ⟨by rw [hcp, upd_self], rfl⟩, ?_, rfl, ?_, rfl, ?_, g3, ?_, ?_, ?_⟩
  · rw [hcx, upd_self]; rfl
  · rw [hcx, upd_self, hx1]
  · intro hx; rw [hla']; exact g1 hx
  · intro hx; exact (inRange6 c p.opts n).2 (g4 hx)
  · intro j hj
    rw [hcp, hcx, upd_ne _ _ hj, upd_ne _ _ hj, h2, h3, upd_ne _ _ hj, upd_ne _ _ hj]
    exact ⟨rfl, rfl⟩
  · intro j s hj hb h6
    rw [hla']
    exact g5 j s hj hb h6

/-! ## C192: calls that fail -/

/-- The same table but for the family flags of socket `i` and the counters of automatic ports. -/
def SameButFamily (t u : Tab6) (i : Nat) : Prop :=
  u.base.hash = t.base.hash ∧ u.base.port = t.base.port ∧ u.base.next = t.base.next ∧
    (∀ j, j ≠ i → u.base.pcb j = t.base.pcb j ∧ u.x j = t.x j) ∧
    (∃ v : Bool → Bool, u.base.pcb i = (t.base.pcb i).map fun p => { p with v4 := v p.v4 }) ∧ ∃ w, u.x i = { t.x i with v6 := w }

theorem SameButFamily.refl (t : Tab6) (i : Nat) : SameButFamily t t i :=
  ⟨rfl, rfl, rfl, fun _ _ => ⟨rfl, rfl⟩, ⟨id, by cases t.base.pcb i <;> rfl⟩, (t.x i).v6, rfl⟩

theorem SameButFamily.of {t u : Tab6} {i : Nat} {p : Pcb} (hp : t.base.pcb i = some p) {v w : Bool}
    (s : Same6 (setFam t i p v w) u) : SameButFamily t u i := by
  obtain ⟨⟨s1, s2, s3, s4⟩, s5⟩ := s
  refine ⟨s2, s3, s4, ?_, ⟨fun _ => v, ?_⟩, w, ?_⟩
  · intro j hj
    rw [s1, s5]
    exact ⟨upd_ne _ _ hj, upd_ne _ _ hj⟩
  · rw [s1, hp]; exact upd_self _ _ _
  · rw [s5]; exact upd_self _ _ _

/-- **C192.**  A `bind` that fails changes nothing but the family flags of the socket. -/
theorem failed_bind6_partial {c : Cfg} (hc : CfgOk c) {t : Tab6} (h : Reach6 c t) {e : Env6} {i : Nat} {a : A6} {n : Nat}
    (hno : (bind6 c e t i a n).1 ≠ none) : SameButFamily t (bind6 c e t i a n).2.1 i := by
  have hi := h.inv hc
  unfold bind6 at hno ⊢
  cases hp : t.base.pcb i with
  | none => exact SameButFamily.refl t i
  | some p =>
    simp only [hp] at hno ⊢
    by_cases h0 : c.stream = true ∧ a.mcast = true
    · rw [if_pos h0]; exact SameButFamily.refl t i
    rw [if_neg h0] at hno ⊢
    by_cases hl : p.timewait = true ∨ p.dropped = true
    · rw [if_pos hl]; exact SameButFamily.refl t i
    rw [if_neg hl] at hno ⊢
    obtain ⟨_, hd⟩ := live_of hl
    by_cases hm : (t.x i).v6only = false ∧ a.mapped = true
    · rw [if_pos hm] at hno ⊢
      obtain ⟨h1, h2, _, _⟩ := setFam_spec hi hp true false
      have hp1 : (setFam t i p true false).base.pcb i = some { p with v4 := true } := by rw [h2, upd_self]
      rcases pcbbind_spec hc (e := e.e4) h1.base hp1 hd (some (a.lo, n)) with ⟨x, _, hs⟩ | ⟨hx, _⟩
      · exact SameButFamily.of hp ⟨hs, rfl⟩
      · rw [hx] at hno; exact absurd rfl hno
    · rw [if_neg hm] at hno ⊢
      generalize (!(t.x i).v6only && a == any6) = v at hno ⊢
      obtain ⟨h1, h2, _, _⟩ := setFam_spec hi hp v true
      have hp1 : (setFam t i p v true).base.pcb i = some { p with v4 := v } := by rw [h2, upd_self]
      rcases pcbbind6_spec hc (e := e) h1 hp1 hd (some (a, n)) with ⟨x, _, hs⟩ | ⟨hx, _⟩
      · exact SameButFamily.of hp hs
      · exact absurd hx hno

/-- **C192.**  A `connect` of a datagram socket that fails changes nothing but the family flags of the socket. -/
theorem failed_connect6_partial {c : Cfg} (hc : CfgOk c) {t : Tab6} (h : Reach6 c t) {e : Env6} {i : Nat} {dst : A6}
    {dport : Nat} (hdst : if dst.mapped then DstOk e.e4 dst.lo else DstOk6 e dst)
    (hno : (udpConnect6 c e t i dst dport).1 ≠ none) : SameButFamily t (udpConnect6 c e t i dst dport).2 i := by
  have hi := h.inv hc
  unfold udpConnect6 at hno ⊢
  cases hp : t.base.pcb i with
  | none => exact SameButFamily.refl t i
  | some p =>
    simp only [hp] at hno ⊢
    by_cases hl : p.timewait = true ∨ p.dropped = true
    · rw [if_pos hl]; exact SameButFamily.refl t i
    rw [if_neg hl] at hno ⊢
    obtain ⟨_, hd⟩ := live_of hl
    cases hm : dst.mapped with
    | true =>
      rw [hm] at hdst
      simp only [hm, if_true] at hdst hno ⊢
      cases hv : (t.x i).v6only with
      | true => exact SameButFamily.refl t i
      | false =>
      simp only [hv, Bool.false_eq_true, if_false] at hno ⊢
      by_cases hfa : p.faddr ≠ 0
      · rw [if_pos hfa]; exact SameButFamily.refl t i
      rw [if_neg hfa] at hno ⊢
      obtain ⟨h1, h2, _, _⟩ := setFam_spec hi hp true false
      have hp1 : (setFam t i p true false).base.pcb i = some { p with v4 := true } := by rw [h2, upd_self]
      rcases pcbconnect_spec hc (e := e.e4) h1.base hp1 hd dst.lo dport hdst with ⟨x, _, hs⟩ | ⟨hx, _⟩
      · exact SameButFamily.of hp ⟨hs, rfl⟩
      · rw [hx] at hno; exact absurd rfl hno
    | false =>
      rw [hm] at hdst
      simp only [hm, Bool.false_eq_true, if_false] at hdst hno ⊢
      by_cases hfa : fa6 (t.x i) p ≠ any6
      · rw [if_pos hfa]; exact SameButFamily.refl t i
      rw [if_neg hfa] at hno ⊢
      obtain ⟨h1, h2, _, _⟩ := setFam_spec hi hp false true
      have hp1 : (setFam t i p false true).base.pcb i = some { p with v4 := false } := by rw [h2, upd_self]
      rcases pcbconnect6_spec hc (e := e) h1 hp1 hd dst dport hdst with ⟨x, _, hs⟩ | ⟨hx, _⟩
      · exact SameButFamily.of hp hs
      · exact absurd hx hno

/-! ## C194: disconnect -/

/-- **C194.**  `disconnect` of a live connected IPv6 datagram socket whose IPv4 flag is off, as `connect` leaves it: it
succeeds, the socket has no peer and no address but its port; no other socket changed. -/
theorem disconnect6_partial {c : Cfg} (hc : CfgOk c) {t : Tab6} (h : Reach6 c t) {i : Nat} {p : Pcb}
    (hp : t.base.pcb i = some p) (hlive : p.timewait = false ∧ p.dropped = false) (h4 : p.v4 = false)
    (hf : fa6 (t.x i) p ≠ any6) :
    (disconnect6 c t i).1 = none ∧
    (∃ q, Bound (disconnect6 c t i).2.base i q ∧ fa6 ((disconnect6 c t i).2.x i) q = any6 ∧ q.fport = 0 ∧
      la6 ((disconnect6 c t i).2.x i) q = any6 ∧ q.lport = p.lport ∧ q.lport ≠ 0) ∧
    ∀ j, j ≠ i → (disconnect6 c t i).2.base.pcb j = t.base.pcb j ∧ (disconnect6 c t i).2.x j = t.x j := by
  have hi := h.inv hc
  have hin : p.inHash = true := by
    rcases hi.bound_or hp hlive.2 with hx | hx
    · exact hx
    · exact absurd hx.2.1 hf
  have he : disconnect6 c t i = (none, ⟨(rehash c t.base i { p with faddr := 0, fport := 0 }).setPcb i
          { p with faddr := 0, fport := 0, laddr := 0 }, upd t.x i { t.x i with lhi := 0, fhi := 0 }⟩) := by
    unfold disconnect6
    simp only [hp, hlive.1, hlive.2, h4, Bool.false_eq_true, or_self, if_false]
    rw [if_neg hf]
  rw [he]
  refine ⟨rfl, ⟨{ p with faddr := 0, fport := 0, laddr := 0 }, ⟨upd_self _ _ _, hin⟩, ?_, rfl, ?_, rfl,
    (hi.base.good i p hp).port hin⟩, ?_⟩
  · show fa6 (upd t.x i _ i) _ = _
    rw [upd_self]; rfl
  · show la6 (upd t.x i _ i) _ = _
    rw [upd_self]; rfl
  · intro j hj
    refine ⟨?_, upd_ne _ _ hj⟩
    show upd (upd t.base.pcb i _) i _ j = _
    rw [upd_ne _ _ hj, upd_ne _ _ hj]

end Verif.Pcb6

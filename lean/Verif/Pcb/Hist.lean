import Verif.Pcb.Ops
/-! # The invariant over every history of calls -/
namespace Verif.Pcb

/-- No two IPv4 blocks have the same connection. -/
def Uniq (t : Tab) : Prop :=
  ∀ i j p q, Bound t i p → Bound t j q → p.v4 = true → q.v4 = true → p.faddr ≠ 0 →
    p.laddr = q.laddr → p.lport = q.lport → p.faddr = q.faddr → p.fport = q.fport → i = j

theorem good_upd {t u : Tab} {i : Nat} {v : Option Pcb} (hu : u.pcb = upd t.pcb i v)
    (h : ∀ j p, t.pcb j = some p → Good p) (hv : ∀ p, v = some p → Good p) :
    ∀ j p, u.pcb j = some p → Good p := by
  intro j p hp
  rw [hu] at hp
  by_cases hj : j = i
  · subst hj; rw [upd_self] at hp; exact hv p hp
  · rw [upd_ne _ _ hj] at hp; exact h j p hp

theorem Inv.of_same {c : Cfg} {t u : Tab} (h : Inv c t) (s : Same t u) : Inv c u :=
  ⟨h.ti.of_same s, by rw [s.1]; exact h.good⟩

theorem Uniq.of_same {t u : Tab} (h : Uniq t) (s : Same t u) : Uniq u := by
  intro i j p q hi hj
  simp only [Bound, s.1] at hi hj
  exact h i j p q hi hj

/-- One block changed; its new contents are unbound, unconnected or have a new connection. -/
theorem uniq_upd {t u : Tab} {i : Nat} {v : Option Pcb} (hu : u.pcb = upd t.pcb i v) (h : Uniq t)
    (hv : ∀ p, v = some p → p.inHash = true → p.v4 = true → p.faddr ≠ 0 →
      ∀ j q, j ≠ i → Bound t j q → q.v4 = true →
        ¬ (q.faddr = p.faddr ∧ q.fport = p.fport ∧ q.laddr = p.laddr ∧ q.lport = p.lport)) : Uniq u := by
  have cases' : ∀ j q, Bound u j q → (j = i ∧ v = some q ∧ q.inHash = true) ∨ (j ≠ i ∧ Bound t j q) := by
    intro j q hb
    obtain ⟨h1, h2⟩ := hb
    rw [hu] at h1
    by_cases hj : j = i
    · subst hj; rw [upd_self] at h1; exact Or.inl ⟨rfl, h1, h2⟩
    · rw [upd_ne _ _ hj] at h1; exact Or.inr ⟨hj, h1, h2⟩
  intro j k p q hj hk h4 h4' hf e1 e2 e3 e4
  rcases cases' j p hj with ⟨rfl, h1, h2⟩ | ⟨h1, h2⟩ <;> rcases cases' k q hk with ⟨rfl, h3, h5⟩ | ⟨h3, h5⟩
  · rfl
  · exact absurd ⟨e3.symm, e4.symm, e1.symm, e2.symm⟩ (hv p h1 h2 h4 hf k q h3 h5 h4')
  · exact absurd ⟨e3, e4, e1, e2⟩ (hv q h3 h5 h4' (e3 ▸ hf) j p h1 h2 h4)
  · exact h j k p q h2 h5 h4 h4' hf e1 e2 e3 e4

theorem upd_upd {α : Type} (f : Nat → α) (i : Nat) (v w : α) : upd (upd f i v) i w = upd f i w := by
  funext j; simp only [upd]; split <;> rfl

/-! ## The calls -/

theorem socket_inv {c : Cfg} {t : Tab} (h : Inv c t) (o : Opts) : Inv c (t.alloc o) :=
  ⟨alloc_TI h.ti o, good_upd (t := t) rfl h.good (by
    intro p hp; cases hp
    exact ⟨by simp, by simp, by simp, rfl, by simp, by simp⟩)⟩

theorem socket_uniq {t : Tab} (h : Uniq t) (o : Opts) : Uniq (t.alloc o) :=
  uniq_upd (t := t) rfl h (by intro p hp hi; cases hp; cases hi)

/-- A block that only changes fields outside the key. -/
theorem setPcb_inv {c : Cfg} {t : Tab} (h : Inv c t) {i : Nat} {p0 p : Pcb} (hp : t.pcb i = some p0)
    (h1 : p.inHash = p0.inHash) (h2 : p.faddr = p0.faddr) (h3 : p.lport = p0.lport) (h4 : p.fport = p0.fport)
    (hg : Good p) : Inv c (t.setPcb i p) :=
  ⟨setPcb_TI h.ti hp h1 h2 h3 h4, good_upd (t := t) rfl h.good (by intro q hq; cases hq; exact hg)⟩

theorem setopt_both {c : Cfg} {t : Tab} (h : Inv c t) (i : Nat) (o : Opts) :
    Inv c (setopt t i o) ∧ (Uniq t → Uniq (setopt t i o)) := by
  unfold setopt
  cases hp : t.pcb i with
  | none => exact ⟨h, id⟩
  | some p =>
    have g := h.good i p hp
    refine ⟨setPcb_inv h hp rfl rfl rfl rfl ⟨g.port, g.wild, g.blank, g.reuse2, g.tw, g.drop⟩, ?_⟩
    intro hu
    refine uniq_upd (t := t) rfl hu ?_
    intro q hq hi h4 hf j r hj hr h4' hx
    cases hq
    exact hj (hu j i r p hr ⟨hp, hi⟩ h4' h4 (by rw [hx.1]; exact hf) hx.2.2.1 hx.2.2.2 hx.1 hx.2.1)

/-- Insertion of an unbound block. -/
theorem inshash_inv {c : Cfg} {e : Env} {t u : Tab} (h : Inv c t) {i : Nat} {p0 p : Pcb} (hp : t.pcb i = some p0)
    (h0 : p0.inHash = false) (hu : inshash c e t i p = some u) (hg : Good { p with inHash := true }) : Inv c u :=
  ⟨inshash_TI h.ti hp h0 hu, good_upd (inshash_pcb hu).1 h.good (by intro q hq; cases hq; exact hg)⟩

/-- What `ofp_in_pcbbind` does to a live block. -/
theorem pcbbind_spec {c : Cfg} (hc : CfgOk c) {e : Env} {t : Tab} (h : Inv c t) {i : Nat} {p : Pcb}
    (hp : t.pcb i = some p) (hd : p.dropped = false) (nam : Option (Nat × Nat)) :
    (∃ x, (pcbbind c e t i p nam).1 = some x ∧ Same t (pcbbind c e t i p nam).2) ∨
    ((pcbbind c e t i p nam).1 = none ∧ p.lport = 0 ∧ p.laddr = 0 ∧ p.inHash = false ∧ p.faddr = 0 ∧
      Inv c (pcbbind c e t i p nam).2 ∧
      ∃ a n an, (pcbbind c e t i p nam).2.pcb = upd t.pcb i (some { p with
          laddr := a, lport := n, inHash := true, anon := an }) ∧ n ≠ 0 ∧ Free t p.opts a n ∧
        (nam = none → a = 0) ∧ (∀ addr port, nam = some (addr, port) → a = addr ∧ (port ≠ 0 → n = port)) ∧
        ((nam = none ∨ ∃ addr, nam = some (addr, 0)) →
          (rangeOf p.opts).minPort c ≤ n ∧ n ≤ (rangeOf p.opts).maxPort c)) := by
  unfold pcbbind
  by_cases hb : p.lport ≠ 0 ∨ p.laddr ≠ 0
  · rw [if_pos hb]; exact Or.inl ⟨_, rfl, Same.refl t⟩
  rw [if_neg hb]
  have hl : p.lport = 0 := by by_contra hx; exact hb (Or.inl hx)
  have ha : p.laddr = 0 := by by_contra hx; exact hb (Or.inr hx)
  have g := h.good i p hp
  have hin : p.inHash = false := by
    cases hi : p.inHash with
    | false => rfl
    | true => exact absurd hl (g.port hi)
  have hf := (g.blank hin hd).2.2
  simp only
  have hs := bindSetup_spec hc (e := e) h p.opts nam p.laddr
  generalize hr : bindSetup c e t p.opts nam p.laddr = r at hs
  obtain ⟨r1, r2⟩ := r
  simp only at hs ⊢
  cases r1 with
  | error x => exact Or.inl ⟨x, rfl, hs.1⟩
  | ok an =>
    obtain ⟨a, n⟩ := an
    simp only
    obtain ⟨hn, hfree, h3, h4, h5⟩ := hs.2 a n rfl
    have hi2 := h.of_same hs.1
    have hp2 : r2.pcb i = some p := by rw [hs.1.1]; exact hp
    have gnew : ∀ b, Good { p with laddr := a, lport := n, inHash := true, anon := b } := fun b =>
      ⟨fun _ => hn, g.wild, (by intro hx; cases hx), g.reuse2, g.tw, (by intro hx; simp only at hx; rw [hd] at hx; cases hx)⟩
    cases hins : inshash c e r2 i { p with laddr := a, lport := n } with
    | none => exact Or.inl ⟨_, rfl, hs.1⟩
    | some u =>
      right
      have hu := inshash_inv hi2 hp2 hin hins (gnew _)
      have hup := (inshash_pcb hins).1
      simp only
      have hup' : u.pcb = upd t.pcb i (some { p with laddr := a, lport := n, inHash := true }) := by
        rw [hup, hs.1.1]
      have hself : u.pcb i = some { p with laddr := a, lport := n, inHash := true } := by
        rw [hup', upd_self]
      cases hap : anonport nam with
      | true =>
        simp only [if_true]
        refine ⟨trivial, hl, ha, hin, hf, setPcb_inv hu hself rfl rfl rfl rfl (gnew _), a, n, true, ?_, hn, hfree,
          fun hx => (h3 hx).trans ha, h4, h5⟩
        show upd u.pcb i _ = _
        rw [hup', upd_upd]
      | false =>
        simp only [Bool.false_eq_true, if_false]
        refine ⟨trivial, hl, ha, hin, hf, hu, a, n, p.anon, ?_, hn, hfree, fun hx => (h3 hx).trans ha, h4, h5⟩
        rw [hup']

/-- The address a socket connects to is a host address. -/
def DstOk (e : Env) (dst : Nat) : Prop := dst ≠ 0 ∨ ∃ a, e.primary = some a ∧ a ≠ 0

theorem dst_ne {e : Env} {dst : Nat} (h : DstOk e dst) : (if dst = 0 then e.primary.getD 0 else dst) ≠ 0 := by
  rcases h with h | ⟨a, ha, h⟩
  · rw [if_neg h]; exact h
  · split
    · rw [ha]; exact h
    · assumption

/-- What `ofp_in_pcbconnect` does to a live unconnected block. -/
theorem pcbconnect_spec {c : Cfg} (hc : CfgOk c) {e : Env} {t : Tab} (h : Inv c t) {i : Nat} {p : Pcb}
    (hp : t.pcb i = some p) (hd : p.dropped = false) (dst dport : Nat)
    (hdst : DstOk e dst) :
    (∃ x, (pcbconnect c e t i p dst dport).1 = some x ∧ Same t (pcbconnect c e t i p dst dport).2) ∨
    ((pcbconnect c e t i p dst dport).1 = none ∧ Inv c (pcbconnect c e t i p dst dport).2 ∧
      ∃ a n f an, (pcbconnect c e t i p dst dport).2.pcb = upd t.pcb i (some { p with
          laddr := a, lport := n, faddr := f, fport := dport, inHash := true, anon := an }) ∧
        n ≠ 0 ∧ dport ≠ 0 ∧ f = (if dst = 0 then e.primary.getD 0 else dst) ∧
        (p.laddr ≠ 0 → a = p.laddr) ∧ (p.lport ≠ 0 → n = p.lport) ∧
        (p.lport = 0 → Free t p.opts a n ∧
          (rangeOf p.opts).minPort c ≤ n ∧ n ≤ (rangeOf p.opts).maxPort c) ∧
        (∀ j q, Bound t j q → q.v4 = true →
          ¬ (q.faddr = f ∧ q.fport = dport ∧ q.laddr = a ∧ q.lport = p.lport))) := by
  unfold pcbconnect
  simp only
  have hs := connectSetup_spec hc (e := e) h p.opts p.laddr p.lport dst dport
  generalize hr : connectSetup c e t p.opts p.laddr p.lport dst dport = r at hs
  obtain ⟨r1, r2⟩ := r
  simp only at hs ⊢
  have g := h.good i p hp
  cases r1 with
  | error x => exact Or.inl ⟨x, rfl, hs.1⟩
  | ok an =>
    obtain ⟨a, n, f⟩ := an
    obtain ⟨h1, h2, h3, h4, h5, h6, h7⟩ := hs.2 a n f rfl
    have hf' : f ≠ 0 := by rw [h5]; exact dst_ne hdst
    have hi2 := h.of_same hs.1
    have hp2 : r2.pcb i = some p := by rw [hs.1.1]; exact hp
    have gfin : ∀ b, Good { p with
        laddr := a, lport := n, faddr := f, fport := dport, inHash := true, anon := b } := fun b =>
      ⟨fun _ => h4, fun hx => absurd hx hf', (by intro hx; cases hx), g.reuse2, fun _ => hf',
       (by intro hx; simp only at hx; rw [hd] at hx; cases hx)⟩
    simp only
    by_cases hblank : p.laddr = 0 ∧ p.lport = 0
    · rw [if_pos hblank]
      have hin : p.inHash = false := by
        cases hi : p.inHash with
        | false => rfl
        | true => exact absurd hblank.2 (g.port hi)
      have gmid : Good { p with laddr := a, lport := n, inHash := true } :=
        ⟨fun _ => h4, g.wild, (by intro hx; cases hx), g.reuse2, g.tw,
         (by intro hx; simp only at hx; rw [hd] at hx; cases hx)⟩
      cases hins : inshash c e r2 i { p with laddr := a, lport := n } with
      | none => exact Or.inl ⟨_, rfl, hs.1⟩
      | some u =>
        have hu := inshash_inv hi2 hp2 hin hins gmid
        have hup' : u.pcb = upd t.pcb i (some { p with laddr := a, lport := n, inHash := true }) := by
          rw [(inshash_pcb hins).1, hs.1.1]
        have hself : u.pcb i = some { p with laddr := a, lport := n, inHash := true } := by
          rw [hup', upd_self]
        refine Or.inr ⟨rfl, ⟨rehash_TI hu.ti hself rfl rfl rfl,
          good_upd (t := u) rfl hu.good (by intro q hq; cases hq; exact gfin _)⟩,
          a, n, f, p.anon || p.lport == 0, ?_, h4, h1, h5, h2, h3, h6, h7⟩
        show upd u.pcb i _ = _
        rw [hup', upd_upd]
    · rw [if_neg hblank]
      have hin : p.inHash = true := by
        cases hi : p.inHash with
        | true => rfl
        | false => have := g.blank hi hd; exact absurd ⟨this.1, this.2.1⟩ hblank
      have hlp := g.port hin
      have hn := h3 hlp
      refine Or.inr ⟨rfl, ⟨rehash_TI hi2.ti hp2 hin hin hn,
        good_upd (t := r2) rfl hi2.good (by
          intro q hq; cases hq
          have := gfin (p.anon || p.lport == 0)
          rw [← hin] at this; exact this)⟩,
        a, n, f, p.anon || p.lport == 0, ?_, h4, h1, h5, h2, h3, h6, h7⟩
      show upd r2.pcb i _ = _
      rw [hs.1.1, ← hin]

/-- The new connection is not one that exists. -/
theorem fresh_conn {t : Tab} {p : Pcb} {a n f dport : Nat}
    (hok : p.lport ≠ 0 ∨ (p.opts.reuseaddr = false ∧ p.opts.reuseport = false))
    (h3 : p.lport ≠ 0 → n = p.lport) (h6 : p.lport = 0 → Free t p.opts a n)
    (h7 : ∀ j q, Bound t j q → q.v4 = true →
          ¬ (q.faddr = f ∧ q.fport = dport ∧ q.laddr = a ∧ q.lport = p.lport)) :
    ∀ j q, Bound t j q → q.v4 = true → ¬ (q.faddr = f ∧ q.fport = dport ∧ q.laddr = a ∧ q.lport = n) := by
  intro j q hb h4 hx
  by_cases hl : p.lport = 0
  · rcases hok with hok | hok
    · exact hok hl
    · have := h6 hl j q hb h4 hx.2.2.2
      rw [if_pos hok] at this
      exact this (Or.inr (Or.inr hx.2.2.1.symm))
  · rw [h3 hl] at hx
    exact h7 j q hb h4 hx

theorem bind_both {c : Cfg} (hc : CfgOk c) {e : Env} {t : Tab} (h : Inv c t) (i : Nat)
    (nam : Option (Nat × Nat)) :
    Inv c (apiBind c e t i nam).2 ∧ (Uniq t → Uniq (apiBind c e t i nam).2) := by
  unfold apiBind
  cases hp : t.pcb i with
  | none => exact ⟨h, id⟩
  | some p =>
    simp only
    by_cases hd : p.timewait = true ∨ p.dropped = true
    · rw [if_pos hd]; exact ⟨h, id⟩
    rw [if_neg hd]
    have hd' : p.dropped = false := by
      cases hx : p.dropped with
      | false => rfl
      | true => exact absurd (Or.inr hx) hd
    rcases pcbbind_spec hc (e := e) h hp hd' nam with ⟨x, _, hs⟩ | ⟨_, _, _, _, hf, hi, a, n, an, hpc, _⟩
    · exact ⟨h.of_same hs, fun hu => hu.of_same hs⟩
    · refine ⟨hi, fun hu => uniq_upd hpc hu ?_⟩
      intro q hq _ _ hfq
      cases hq
      exact absurd hf hfq

theorem udpConnect_both {c : Cfg} (hc : CfgOk c) {e : Env} {t : Tab} (h : Inv c t) (i dst dport : Nat)
    (hdst : DstOk e dst) :
    Inv c (udpConnect c e t i dst dport).2 ∧
    ((∀ p, t.pcb i = some p → p.lport ≠ 0 ∨ (p.opts.reuseaddr = false ∧ p.opts.reuseport = false)) →
      Uniq t → Uniq (udpConnect c e t i dst dport).2) := by
  unfold udpConnect
  cases hp : t.pcb i with
  | none => exact ⟨h, fun _ => id⟩
  | some p =>
    simp only
    by_cases hd : p.timewait = true ∨ p.dropped = true
    · rw [if_pos hd]; exact ⟨h, fun _ => id⟩
    rw [if_neg hd]
    by_cases hf : p.faddr ≠ 0
    · rw [if_pos hf]; exact ⟨h, fun _ => id⟩
    rw [if_neg hf]
    have hf : p.faddr = 0 := by by_contra hx; exact hf hx
    have hd' : p.dropped = false := by
      cases hx : p.dropped with
      | false => rfl
      | true => exact absurd (Or.inr hx) hd
    rcases pcbconnect_spec hc h hp hd' dst dport hdst with
      ⟨x, _, hs⟩ | ⟨_, hi, a, n, f, an, hpc, _, _, _, _, h3, h6, h7⟩
    · exact ⟨h.of_same hs, fun _ hu => hu.of_same hs⟩
    · refine ⟨hi, fun hok hu => uniq_upd hpc hu ?_⟩
      intro q hq _ _ _ j r _ hr h4' hx
      cases hq
      exact fresh_conn (hok p rfl) h3 (fun hx => (h6 hx).1) h7 j r hr h4' hx

theorem tcpConnect_both {c : Cfg} (hc : CfgOk c) {e : Env} {t : Tab} (h : Inv c t) (i dst dport : Nat)
    (hdst : DstOk e dst) :
    Inv c (tcpConnect c e t i dst dport).2 ∧ (Uniq t → Uniq (tcpConnect c e t i dst dport).2) := by
  unfold tcpConnect
  cases hp : t.pcb i with
  | none => exact ⟨h, id⟩
  | some p =>
    simp only
    by_cases hd : p.timewait = true ∨ p.dropped = true
    · rw [if_pos hd]; exact ⟨h, id⟩
    rw [if_neg hd]
    by_cases hf : p.faddr ≠ 0
    · rw [if_pos hf]; exact ⟨h, id⟩
    rw [if_neg hf]
    have hf : p.faddr = 0 := by by_contra hx; exact hf hx
    have hd' : p.dropped = false := by
      cases hx : p.dropped with
      | false => rfl
      | true => exact absurd (Or.inr hx) hd
    have g := h.good i p hp
    -- the state after the implicit bind
    have hbind : (∃ x, (if p.lport = 0 then pcbbind c e t i p none else (none, t)).1 = some x ∧
          Same t (if p.lport = 0 then pcbbind c e t i p none else (none, t)).2) ∨
        ((if p.lport = 0 then pcbbind c e t i p none else (none, t)).1 = none ∧
          Inv c (if p.lport = 0 then pcbbind c e t i p none else (none, t)).2 ∧
          (Uniq t → Uniq (if p.lport = 0 then pcbbind c e t i p none else (none, t)).2) ∧
          ∃ q : Pcb, (if p.lport = 0 then pcbbind c e t i p none else (none, t)).2.pcb i = some q ∧
            q.inHash = true ∧ q.dropped = false ∧ q.faddr = 0) := by
      by_cases hl : p.lport = 0
      · simp only [if_pos hl]
        rcases pcbbind_spec hc (e := e) h hp hd' none with ⟨x, hx, hs⟩ | ⟨h1, _, _, _, hf, hi, a, n, an, hpc, _⟩
        · exact Or.inl ⟨x, hx, hs⟩
        · refine Or.inr ⟨h1, hi, fun hu => uniq_upd hpc hu ?_,
            { p with laddr := a, lport := n, inHash := true, anon := an }, by rw [hpc, upd_self], rfl, hd', hf⟩
          intro q hq _ _ hfq
          cases hq
          exact absurd hf hfq
      · simp only [if_neg hl]
        refine Or.inr ⟨trivial, h, id, p, hp, ?_, hd', hf⟩
        cases hi : p.inHash with
        | true => rfl
        | false => exact absurd (g.blank hi hd').2.1 hl
    generalize (if p.lport = 0 then pcbbind c e t i p none else (none, t)) = b at hbind
    obtain ⟨b1, b2⟩ := b
    simp only at hbind ⊢
    rcases hbind with ⟨x, hx, hs⟩ | ⟨hb1, hi, hu, q, hq, hin, hqd, hqf⟩
    · subst hx; exact ⟨h.of_same hs, fun hu => hu.of_same hs⟩
    · subst hb1
      simp only [hq]
      have gq := hi.good i q hq
      have hs := connectSetup_spec hc (e := e) hi q.opts q.laddr q.lport dst dport
      generalize connectSetup c e b2 q.opts q.laddr q.lport dst dport = r at hs
      obtain ⟨r1, r2⟩ := r
      simp only at hs ⊢
      cases r1 with
      | error x => exact ⟨hi.of_same hs.1, fun h0 => (hu h0).of_same hs.1⟩
      | ok anf =>
        obtain ⟨a, n, f⟩ := anf
        simp only
        obtain ⟨h1, h2, h3, h4, h5, h6, h7⟩ := hs.2 a n f rfl
        have hf' : f ≠ 0 := by rw [h5]; exact dst_ne hdst
        have hi2 := hi.of_same hs.1
        have hq2 : r2.pcb i = some q := by rw [hs.1.1]; exact hq
        refine ⟨⟨rehash_TI hi2.ti hq2 hin hin rfl, good_upd (t := r2) rfl hi2.good ?_⟩, ?_⟩
        · intro z hz; cases hz
          exact ⟨gq.port, fun hx => absurd hx hf', (by intro hx; simp only at hx; rw [hin] at hx; cases hx), gq.reuse2, fun _ => hf', gq.drop⟩
        · intro h0
          refine uniq_upd (t := r2) rfl ((hu h0).of_same hs.1) ?_
          intro z hz _ _ _ j r _ hr h4' hx
          cases hz
          simp only [Bound, hs.1.1] at hr
          exact h7 j r hr h4' hx

theorem sendto_both {c : Cfg} (hc : CfgOk c) {e : Env} {t : Tab} (h : Inv c t) (i dst dport : Nat) :
    Inv c (sendto c e t i dst dport).2 ∧ (Uniq t → Uniq (sendto c e t i dst dport).2) := by
  unfold sendto
  cases hp : t.pcb i with
  | none => exact ⟨h, id⟩
  | some p =>
    simp only
    by_cases hd : p.timewait = true ∨ p.dropped = true
    · rw [if_pos hd]; exact ⟨h, id⟩
    rw [if_neg hd]
    by_cases hf : p.faddr ≠ 0
    · rw [if_pos hf]; exact ⟨h, id⟩
    rw [if_neg hf]
    have hf : p.faddr = 0 := by by_contra hx; exact hf hx
    have hd' : p.dropped = false := by
      cases hx : p.dropped with
      | false => rfl
      | true => exact absurd (Or.inr hx) hd
    have g := h.good i p hp
    by_cases hneed : p.laddr = 0 ∨ p.lport = 0 ∨ dst = 0
    · rw [if_pos hneed]
      have hs := connectSetup_spec hc (e := e) h p.opts p.laddr p.lport dst dport
      generalize connectSetup c e t p.opts p.laddr p.lport dst dport = r at hs
      obtain ⟨r1, r2⟩ := r
      simp only at hs ⊢
      have hsame := hs.1
      have hi2 := h.of_same hsame
      have hp2 : r2.pcb i = some p := by rw [hsame.1]; exact hp
      cases r1 with
      | error x => exact ⟨hi2, fun hu => hu.of_same hsame⟩
      | ok anf =>
        obtain ⟨a, n, f⟩ := anf
        simp only
        obtain ⟨h1, h2, h3, h4, h5, h6, h7⟩ := hs.2 a n f rfl
        by_cases hblank : p.laddr = 0 ∧ p.lport = 0
        · rw [if_pos hblank]
          have hin : p.inHash = false := by
            cases hi : p.inHash with
            | false => rfl
            | true => exact absurd hblank.2 (g.port hi)
          have gm : ∀ b, Good { p with lport := n, inHash := true, anon := b } := fun b =>
            ⟨fun _ => h4, g.wild, (by intro hx; cases hx), g.reuse2, g.tw,
             (by intro hx; simp only at hx; rw [hd'] at hx; cases hx)⟩
          cases hins : inshash c e r2 i { p with lport := n } with
          | none => exact ⟨hi2, fun hu => hu.of_same hsame⟩
          | some u =>
            simp only
            have hu := inshash_inv hi2 hp2 hin hins (gm _)
            have hup := (inshash_pcb hins).1
            have hself : u.pcb i = some { p with lport := n, inHash := true } := by rw [hup, upd_self]
            refine ⟨setPcb_inv hu hself rfl rfl rfl rfl (gm _), fun h0 => ?_⟩
            refine uniq_upd (t := r2) (i := i) (v := some { p with lport := n, inHash := true, anon := true }) ?_
              (h0.of_same hsame) ?_
            · show upd u.pcb i _ = _
              rw [hup, upd_upd]
            · intro q hq _ _ hfq
              cases hq
              exact absurd hf hfq
        · rw [if_neg hblank]
          exact ⟨hi2, fun hu => hu.of_same hsame⟩
    · rw [if_neg hneed]
      exact ⟨h, id⟩

theorem disconnect_both {c : Cfg} {t : Tab} (h : Inv c t) (i : Nat) :
    Inv c (disconnect c t i).2 ∧ (Uniq t → Uniq (disconnect c t i).2) := by
  unfold disconnect
  cases hp : t.pcb i with
  | none => exact ⟨h, id⟩
  | some p =>
    simp only
    by_cases hf : p.faddr = 0
    · rw [if_pos hf]; exact ⟨h, id⟩
    rw [if_neg hf]
    by_cases hd : p.timewait = true ∨ p.dropped = true
    · rw [if_pos hd]; exact ⟨h, id⟩
    rw [if_neg hd]
    have hd' : p.dropped = false := by
      cases hx : p.dropped with
      | false => rfl
      | true => exact absurd (Or.inr hx) hd
    have ht' : p.timewait = false := by
      cases hx : p.timewait with
      | false => rfl
      | true => exact absurd (Or.inl hx) hd
    have g := h.good i p hp
    have hin : p.inHash = true := by
      cases hi : p.inHash with
      | true => rfl
      | false => exact absurd (g.blank hi hd').2.2 hf
    have gm : ∀ a, Good { p with faddr := 0, fport := 0, laddr := a } := fun a =>
      ⟨g.port, fun _ => rfl, (by intro hx; simp only at hx; rw [hin] at hx; cases hx), g.reuse2,
       (by intro hx; simp only at hx; rw [ht'] at hx; cases hx), g.drop⟩
    have h1 : Inv c (rehash c t i { p with faddr := 0, fport := 0 }) :=
      ⟨rehash_TI h.ti hp hin hin rfl, good_upd (t := t) rfl h.good (by intro q hq; cases hq; exact gm p.laddr)⟩
    refine ⟨setPcb_inv h1 (p0 := { p with faddr := 0, fport := 0 }) (upd_self _ _ _) rfl rfl rfl rfl (gm 0), fun hu => ?_⟩
    refine uniq_upd (t := t) (i := i) (v := some { p with faddr := 0, fport := 0, laddr := 0 }) ?_ hu ?_
    · show upd (upd t.pcb i _) i _ = _
      rw [upd_upd]
    · intro q hq _ _ hfq
      cases hq
      exact absurd rfl hfq

theorem remove_inv {c : Cfg} {t : Tab} (h : Inv c t) {i : Nat} {p0 : Pcb} (hp : t.pcb i = some p0)
    (v : Option Pcb) (hv : ∀ p, v = some p → p.inHash = false) (hg : ∀ p, v = some p → Good p) :
    Inv c { unport (unhash t i) i with pcb := upd t.pcb i v } :=
  ⟨remove_TI h.ti hp v hv, good_upd (t := t) rfl h.good hg⟩

theorem uniq_remove {t u : Tab} (h : Uniq t) {i : Nat} {v : Option Pcb} (hu : u.pcb = upd t.pcb i v)
    (hv : ∀ p, v = some p → p.inHash = false) : Uniq u :=
  uniq_upd hu h (by intro p hp hi; rw [hv p hp] at hi; cases hi)

theorem drop_both {c : Cfg} {t : Tab} (h : Inv c t) (i : Nat) :
    Inv c (drop t i) ∧ (Uniq t → Uniq (drop t i)) := by
  unfold drop
  cases hp : t.pcb i with
  | none => exact ⟨h, id⟩
  | some p =>
    simp only
    have g := h.good i p hp
    have gd : Good { p with inHash := false, dropped := true } :=
      ⟨(by intro hx; cases hx), g.wild, (by intro _ hx; cases hx), g.reuse2, g.tw, fun _ => rfl⟩
    cases hin : p.inHash with
    | true =>
      simp only [if_true]
      exact ⟨remove_inv h hp (some { p with inHash := false, dropped := true })
        (by intro q hq; cases hq; rfl) (by intro q hq; cases hq; exact gd),
        fun hu => uniq_remove hu (v := some { p with inHash := false, dropped := true }) rfl (by intro q hq; cases hq; rfl)⟩
    | false =>
      simp only [Bool.false_eq_true, if_false]
      exact ⟨⟨loose_TI h.ti hp hin _ (by intro q hq; cases hq; rfl),
        good_upd (t := t) rfl h.good (by intro q hq; cases hq; exact gd)⟩,
        fun hu => uniq_remove hu (v := some { p with inHash := false, dropped := true }) rfl
          (by intro q hq; cases hq; rfl)⟩

theorem free_both {c : Cfg} {t : Tab} (h : Inv c t) (i : Nat) :
    Inv c (free t i) ∧ (Uniq t → Uniq (free t i)) := by
  unfold free
  cases hp : t.pcb i with
  | none => exact ⟨h, id⟩
  | some p =>
    simp only
    cases hin : p.inHash with
    | true =>
      simp only [if_true]
      exact ⟨remove_inv h hp none (by intro q hq; cases hq) (by intro q hq; cases hq),
        fun hu => uniq_remove hu (v := none) rfl (by intro q hq; cases hq)⟩
    | false =>
      simp only [Bool.false_eq_true, if_false]
      exact ⟨⟨loose_TI h.ti hp hin _ (by intro q hq; cases hq),
        good_upd (t := t) rfl h.good (by intro q hq; cases hq)⟩,
        fun hu => uniq_remove hu (v := none) rfl (by intro q hq; cases hq)⟩

theorem timewait_both {c : Cfg} {t : Tab} (h : Inv c t) (i : Nat) (tw : Option (Bool × Bool)) :
    Inv c (timewait t i tw) ∧ (Uniq t → Uniq (timewait t i tw)) := by
  unfold timewait
  cases hp : t.pcb i with
  | none => exact ⟨h, id⟩
  | some p =>
    simp only
    by_cases hf : p.faddr = 0 ∨ p.dropped = true
    · rw [if_pos hf]; exact ⟨h, id⟩
    rw [if_neg hf]
    have g := h.good i p hp
    have hfa : p.faddr ≠ 0 := fun hx => hf (Or.inl hx)
    refine ⟨setPcb_inv h hp rfl rfl rfl rfl ⟨g.port, g.wild, g.blank, g.reuse2, fun _ => hfa, g.drop⟩, ?_⟩
    intro hu
    refine uniq_upd (t := t) rfl hu ?_
    intro q hq hi h4 hf j r hj hr h4' hx
    cases hq
    exact hj (hu j i r p hr ⟨hp, hi⟩ h4' h4 (by rw [hx.1]; exact hf) hx.2.2.1 hx.2.2.2 hx.1 hx.2.1)

theorem bind6_both {c : Cfg} {e : Env} {t : Tab} (h : Inv c t) (i low port : Nat) (v4 : Bool) :
    Inv c (bind6 c e t i low port v4).2 ∧ (Uniq t → Uniq (bind6 c e t i low port v4).2) := by
  unfold bind6
  cases hp : t.pcb i with
  | none => exact ⟨h, id⟩
  | some p =>
    simp only
    by_cases hd : p.timewait = true ∨ p.dropped = true ∨ p.lport ≠ 0 ∨ p.laddr ≠ 0 ∨ port = 0
    · rw [if_pos hd]; exact ⟨h, id⟩
    rw [if_neg hd]
    simp only [not_or] at hd
    obtain ⟨_, hdr, hl, _, hpo⟩ := hd
    have hl : p.lport = 0 := by by_contra hx; exact hl hx
    have hdr : p.dropped = false := by simpa using hdr
    have g := h.good i p hp
    have hin : p.inHash = false := by
      cases hi : p.inHash with
      | false => rfl
      | true => exact absurd hl (g.port hi)
    have hf := (g.blank hin hdr).2.2
    cases hins : inshash c e t i { p with laddr := low, lport := port, v4 := v4 } with
    | none => exact ⟨h, id⟩
    | some u =>
      refine ⟨inshash_inv h hp hin hins ⟨fun _ => hpo, g.wild, (by intro hx; cases hx), g.reuse2, g.tw,
         (by intro hx; simp only at hx; rw [hdr] at hx; cases hx)⟩, fun hu => ?_⟩
      refine uniq_upd (inshash_pcb hins).1 hu ?_
      intro q hq _ _ hfq
      cases hq
      exact absurd hf hfq

theorem accept_both {c : Cfg} (hc : CfgOk c) {e : Env} {t : Tab} (h : Inv c t) (o : Opts)
    (la lp fa fp : Nat) (hlp : lp ≠ 0) (hdst : DstOk e fa) :
    Inv c (accept c e t o la lp fa fp).2 ∧ (Uniq t → Uniq (accept c e t o la lp fa fp).2) := by
  unfold accept
  simp only
  have h1 := socket_inv h o
  have u1 : Uniq t → Uniq (t.alloc o) := fun hu => socket_uniq hu o
  have hp : (t.alloc o).pcb t.next = some ⟨0, 0, 0, 0, false, false, false, none, false, true, false, o⟩ := by
    simp only [Tab.alloc, upd_self]
  rw [hp]
  simp only
  cases hins : inshash c e (t.alloc o) t.next ⟨la, lp, 0, 0, false, false, false, none, false, true, false, o⟩ with
  | none =>
    exact ⟨(free_both h1 _).1, fun hu => (free_both h1 _).2 (u1 hu)⟩
  | some u =>
    simp only
    have hu := inshash_inv h1 hp rfl hins
      ⟨fun _ => hlp, fun _ => rfl, (by intro hx; cases hx), rfl, (by intro hx; cases hx), (by intro hx; cases hx)⟩
    have uu : Uniq t → Uniq u := fun h0 => uniq_upd (inshash_pcb hins).1 (u1 h0) (by
      intro q hq _ _ hfq; cases hq; exact absurd rfl hfq)
    have hself : u.pcb t.next = some ⟨la, lp, 0, 0, true, false, false, none, false, true, false, o⟩ := by
      rw [(inshash_pcb hins).1, upd_self]
    have hs := pcbconnect_spec hc hu hself rfl fa fp hdst
    generalize pcbconnect c e u t.next ⟨la, lp, 0, 0, true, false, false, none, false, true, false, o⟩ fa fp = r at hs
    obtain ⟨r1, r2⟩ := r
    simp only at hs ⊢
    rcases hs with ⟨x, hx, hs⟩ | ⟨h1, hi, a, n, f, an, hpc, _, _, _, _, h3, h6, h7⟩
    · subst hx
      exact ⟨(free_both (hu.of_same hs) _).1, fun h0 => (free_both (hu.of_same hs) _).2 ((uu h0).of_same hs)⟩
    · subst h1
      refine ⟨hi, fun h0 => uniq_upd hpc (uu h0) ?_⟩
      intro q hq _ _ _ j r _ hr h4' hx
      cases hq
      exact fresh_conn (p := ⟨la, lp, 0, 0, true, false, false, none, false, true, false, o⟩)
        (Or.inl hlp) h3 (fun hx => (h6 hx).1) h7 j r hr h4' hx

/-! ## Histories -/

/-- What a caller has to respect: a destination is a host address (0 stands for the first interface, which then must
have an address), an accepted connection has a local port. -/
def Label.Ok : Label → Prop
  | .udpConnect e _ d _ => DstOk e d
  | .tcpConnect e _ d _ => DstOk e d
  | .accept e _ _ lp fa _ => lp ≠ 0 ∧ DstOk e fa
  | _ => True

/-- The tables that calls can produce. -/
inductive Reach (c : Cfg) : Tab → Prop
  | empty : Reach c Tab.empty
  | step (t : Tab) (l : Label) : Reach c t → l.Ok → Reach c (step c t l)

theorem step_both {c : Cfg} (hc : CfgOk c) {t : Tab} (h : Inv c t) (l : Label) (hl : l.Ok) :
    Inv c (step c t l) ∧
    ((∀ e i d n, l = .udpConnect e i d n → ∀ p, t.pcb i = some p →
        p.lport ≠ 0 ∨ (p.opts.reuseaddr = false ∧ p.opts.reuseport = false)) → Uniq t → Uniq (step c t l)) := by
  cases l with
  | socket o => exact ⟨socket_inv h o, fun _ hu => socket_uniq hu o⟩
  | setopt i o => exact ⟨(setopt_both h i o).1, fun _ => (setopt_both h i o).2⟩
  | bind e i nam => exact ⟨(bind_both hc h i nam).1, fun _ => (bind_both hc h i nam).2⟩
  | udpConnect e i d n =>
    exact ⟨(udpConnect_both hc h i d n hl).1, fun hx => (udpConnect_both hc h i d n hl).2 (hx e i d n rfl)⟩
  | tcpConnect e i d n => exact ⟨(tcpConnect_both hc h i d n hl).1, fun _ => (tcpConnect_both hc h i d n hl).2⟩
  | sendto e i d n => exact ⟨(sendto_both hc h i d n).1, fun _ => (sendto_both hc h i d n).2⟩
  | disconnect i => exact ⟨(disconnect_both h i).1, fun _ => (disconnect_both h i).2⟩
  | drop i => exact ⟨(drop_both h i).1, fun _ => (drop_both h i).2⟩
  | free i => exact ⟨(free_both h i).1, fun _ => (free_both h i).2⟩
  | timewait i tw => exact ⟨(timewait_both h i tw).1, fun _ => (timewait_both h i tw).2⟩
  | accept e o la lp fa fp =>
    exact ⟨(accept_both hc h o la lp fa fp hl.1 hl.2).1, fun _ => (accept_both hc h o la lp fa fp hl.1 hl.2).2⟩
  | bind6 e i low port v4 => exact ⟨(bind6_both h i low port v4).1, fun _ => (bind6_both h i low port v4).2⟩

theorem empty_inv (c : Cfg) : Inv c Tab.empty := ⟨empty_TI c, by intro i p h; cases h⟩

theorem Reach.inv {c : Cfg} (hc : CfgOk c) {t : Tab} (h : Reach c t) : Inv c t := by
  induction h with
  | empty => exact empty_inv c
  | step t l _ hl ih => exact (step_both hc ih l hl).1

end Verif.Pcb

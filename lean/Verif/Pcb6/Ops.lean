import Verif.Pcb6.Lookup
/-! # Port choice, conflicts and the effect of the calls on IPv6 sockets -/
namespace Verif.Pcb6
open Verif.Pcb

/-- Local address `a` and port `n` are free among the IPv6 sockets for one with options `o`: without `SO_REUSEADDR` and
`SO_REUSEPORT` no bound IPv6 socket of that port has an overlapping address; with one of them no unconnected
one is bound to exactly that address and port. -/
def Free6 (t : Tab6) (o : Opts) (a : A6) (n : Nat) : Prop :=
  ∀ i p, Bound t.base i p → (t.x i).v6 = true → p.lport = n →
    if o.reuseaddr = false ∧ o.reuseport = false then ¬ Overlap6 a (la6 (t.x i) p)
    else ¬ (fa6 (t.x i) p = any6 ∧ la6 (t.x i) p = a)

theorem lookupLocal6_free {c : Cfg} {t : Tab6} (h : Inv c t.base) {o : Opts} {a : A6} {n : Nat}
    (hn : lookupLocal6 c t a n (!o.reuseaddr && !o.reuseport) = none) : Free6 t o a n := by
  intro i p hb h6 hl
  by_cases hw : o.reuseaddr = false ∧ o.reuseport = false
  · rw [if_pos hw]
    rw [hw.1, hw.2] at hn
    intro ho
    exact lookupLocal6_wild_none h.ti hn i p hb h6 ⟨hl, ho⟩
  · rw [if_neg hw]
    have hw' : (!o.reuseaddr && !o.reuseport) = false := by
      cases h1 : o.reuseaddr <;> cases h2 : o.reuseport <;> simp_all
    rw [hw'] at hn
    rintro ⟨h1, h2⟩
    exact lookupLocalExact6_none h (by simpa [lookupLocal6] using hn) i p hb h6 ⟨h1, h2, hl⟩

theorem lookupLocal6_some {c : Cfg} {t : Tab6} (h : Inv c t.base) {o : Opts} {a : A6} {n i : Nat}
    (hn : lookupLocal6 c t a n (!o.reuseaddr && !o.reuseport) = some i) :
    ¬ Free6 t o a n ∧ ∃ p, Bound t.base i p ∧ (t.x i).v6 = true ∧ p.lport = n ∧ Overlap6 a (la6 (t.x i) p) := by
  by_cases hw : o.reuseaddr = false ∧ o.reuseport = false
  · rw [hw.1, hw.2] at hn
    obtain ⟨p, hb, h6, hl, ho, _⟩ := lookupLocal6_wild_some h.ti hn
    refine ⟨fun hf => ?_, p, hb, h6, hl, ho⟩
    have := hf i p hb h6 hl
    rw [if_pos hw] at this
    exact this ho
  · have hw' : (!o.reuseaddr && !o.reuseport) = false := by
      cases h1 : o.reuseaddr <;> cases h2 : o.reuseport <;> simp_all
    rw [hw'] at hn
    obtain ⟨p, hb, h6, h1, h2, hl⟩ := lookupLocalExact6_some h.ti (by simpa [lookupLocal6] using hn)
    refine ⟨fun hf => ?_, p, hb, h6, hl, Or.inr (Or.inr h2.symm)⟩
    have := hf i p hb h6 hl
    rw [if_neg hw] at this
    exact this ⟨h1, h2⟩

theorem conflict6_false {c : Cfg} {t : Tab6} (h : Inv c t.base) {o : Opts} {x : X} {a : A6} {n : Nat}
    (hn : conflict6 c t o x a n = false) : Free6 t o a n := by
  unfold conflict6 at hn
  simp only [Bool.or_eq_false_iff] at hn
  have hn := hn.1
  cases hl : lookupLocal6 c t a n (!o.reuseaddr && !o.reuseport) with
  | none => exact lookupLocal6_free h hl
  | some i =>
    exfalso
    rw [hl] at hn
    simp only at hn
    by_cases hw : o.reuseaddr = false ∧ o.reuseport = false
    · obtain ⟨_, p, hb, _⟩ := lookupLocal6_some h hl
      rw [hb.1] at hn
      simp only [reuseMask6, hw.1, hw.2, Bool.and_false, Bool.false_eq_true, if_false, blocks] at hn
      cases ht : p.timewait with
      | true =>
        rw [ht] at hn
        cases hx : p.tw with
        | none => rw [hx] at hn; simp at hn
        | some ar => rw [hx] at hn; simp at hn
      | false => rw [ht] at hn; simp at hn
    · have hw' : (!o.reuseaddr && !o.reuseport) = false := by
        cases h1 : o.reuseaddr <;> cases h2 : o.reuseport <;> simp_all
      rw [hw'] at hl
      obtain ⟨p, hb, h6, h1, h2, h3⟩ := lookupLocalExact6_some h.ti (by simpa [lookupLocal6] using hl)
      rw [hb.1] at hn
      have hg := h.good i p hb.1
      have : p.timewait = false := by
        cases ht : p.timewait with
        | false => rfl
        | true => exact absurd (any6_lo h1) (hg.tw ht)
      simp [blocks, this, hg.reuse2] at hn

/-- A refusal as in use: not free among the IPv6 sockets, or `::` on a socket that also takes IPv4 and an IPv4
socket has the port. -/
theorem conflict6_true {c : Cfg} {t : Tab6} (h : Inv c t.base) {o : Opts} {x : X} {a : A6} {n : Nat}
    (hn : conflict6 c t o x a n = true) :
    ¬ Free6 t o a n ∨ (x.v6only = false ∧ a = any6 ∧ ¬ Free t.base o 0 n) := by
  unfold conflict6 at hn
  simp only [Bool.or_eq_true] at hn
  rcases hn with hn | hn
  · left
    cases hl : lookupLocal6 c t a n (!o.reuseaddr && !o.reuseport) with
    | none => rw [hl] at hn; cases hn
    | some i => exact (lookupLocal6_some h hl).1
  · right
    split at hn
    · rename_i hx
      refine ⟨hx.1, hx.2, ?_⟩
      cases hl : lookupLocal c t.base 0 n (!o.reuseaddr && !o.reuseport) with
      | none => rw [hl] at hn; cases hn
      | some i => exact (lookupLocal_some h hl).1
    · cases hn

/-- The port search. -/
theorem pcbLport6_spec {c : Cfg} (hc : CfgOk c) (e : Env6) (t : Tab6) (o : Opts) (la : A6) (wild : Bool) :
    (Same t.base (pcbLport6 c e t o la wild).2.base ∧ (pcbLport6 c e t o la wild).2.x = t.x) ∧
    (match (pcbLport6 c e t o la wild).1 with
     | some n => (rangeOf o).minPort c ≤ n ∧ n ≤ (rangeOf o).maxPort c ∧ lookupLocal6 c t la n wild = none
     | none => ∀ n, (rangeOf o).minPort c ≤ n → n ≤ (rangeOf o).maxPort c →
         (lookupLocal6 c t la n wild).isSome = true) := by
  have hr := hc (rangeOf o)
  unfold Range.minPort Range.maxPort at hr
  unfold pcbLport6
  simp only
  have e1 : (if ((rangeOf o).bounds c).1 > ((rangeOf o).bounds c).2 then ((rangeOf o).bounds c).2
      else ((rangeOf o).bounds c).1) = (rangeOf o).minPort c := by unfold Range.minPort; split <;> omega
  have e2 : (if ((rangeOf o).bounds c).1 > ((rangeOf o).bounds c).2 then ((rangeOf o).bounds c).1
      else ((rangeOf o).bounds c).2) = (rangeOf o).maxPort c := by unfold Range.maxPort; split <;> omega
  have hlh : (rangeOf o).minPort c ≤ (rangeOf o).maxPort c := by unfold Range.minPort Range.maxPort; omega
  have hhi : (rangeOf o).maxPort c < 65536 := hr.2
  rw [e1, e2]
  generalize (if (c.random && ((rangeOf o).bounds c).1 != ((rangeOf o).bounds c).2) = true then
    ((rangeOf o).minPort c + e.e4.rnd % ((rangeOf o).maxPort c - (rangeOf o).minPort c)) % 65536
    else t.base.lastOf (rangeOf o)) = lp
  generalize hres : lportLoop (fun n => (lookupLocal6 c t la n wild).isSome) ((rangeOf o).minPort c)
    ((rangeOf o).maxPort c) ((rangeOf o).maxPort c - (rangeOf o).minPort c + 1) lp = res
  obtain ⟨a, b⟩ := res
  refine ⟨⟨setLast_same _ _ _, trivial⟩, ?_⟩
  cases a with
  | none =>
    intro n h1 h2
    exact lportLoop_none _ _ _ hlh hhi lp b hres n h1 h2
  | some n =>
    have := lportLoop_some _ _ _ hlh _ lp n b hres
    simp only at this ⊢
    refine ⟨this.1, this.2.1, ?_⟩
    simpa using this.2.2

/-- Nothing changed but the port counters. -/
def Same6 (t u : Tab6) : Prop := Same t.base u.base ∧ u.x = t.x

theorem Same6.refl (t : Tab6) : Same6 t t := ⟨Same.refl _, rfl⟩
theorem Same6.trans {t u v : Tab6} (h : Same6 t u) (g : Same6 u v) : Same6 t v :=
  ⟨h.1.trans g.1, g.2.trans h.2⟩

theorem Free6.of_same {t u : Tab6} (s : Same6 t u) {o : Opts} {a : A6} {n : Nat} (h : Free6 t o a n) : Free6 u o a n := by
  intro i p hb
  simp only [Bound, s.1.1, s.2] at hb ⊢
  exact h i p hb

/-- The invariant over every history: the table is consistent, an unbound socket has no address, an unused number
nothing at all. -/
structure Inv6 (c : Cfg) (t : Tab6) : Prop where
  base : Inv c t.base
  blank : ∀ i p, t.base.pcb i = some p → p.inHash = false → p.dropped = false → (t.x i).lhi = 0 ∧ (t.x i).fhi = 0
  fresh : ∀ i, t.base.next ≤ i → t.x i = ⟨0, 0, false, false, false⟩

theorem Inv6.of_same {c : Cfg} {t u : Tab6} (h : Inv6 c t) (s : Same6 t u) : Inv6 c u := by
  refine ⟨h.base.of_same s.1, ?_, ?_⟩
  · rw [s.1.1, s.2]; exact h.blank
  · rw [s.1.2.2.2, s.2]; exact h.fresh

theorem empty_inv6 (c : Cfg) : Inv6 c Tab6.empty := by
  refine ⟨empty_inv c, ?_, fun _ _ => rfl⟩
  intro i p hp; cases hp

/-- One socket becomes bound, or what it was stays blank. -/
theorem Inv6.upd {c : Cfg} {t u : Tab6} (h : Inv6 c t) (hb : Inv c u.base) {i : Nat} {p : Pcb} {x : X}
    (hi : i < t.base.next) (hp : u.base.pcb = upd t.base.pcb i (some p)) (hx : u.x = Pcb.upd t.x i x)
    (hn : u.base.next = t.base.next)
    (hbl : p.inHash = false → p.dropped = false → x.lhi = 0 ∧ x.fhi = 0) : Inv6 c u := by
  refine ⟨hb, ?_, ?_⟩
  · intro j q hj h1 h2
    rw [hp] at hj
    rw [hx]
    by_cases hji : j = i
    · subst hji; rw [upd_self] at hj ⊢; cases hj; exact hbl h1 h2
    · rw [upd_ne _ _ hji] at hj ⊢; exact h.blank j q hj h1 h2
  · intro j hj
    rw [hx, upd_ne _ _ (by omega)]
    exact h.fresh j (by omega)

/-- `ofp_in_pcbinshash` with an IPv6 address. -/
theorem ins6_spec {c : Cfg} {e : Env6} {t u : Tab6} (h : Inv6 c t) {i : Nat} {p p0 : Pcb}
    (hp : t.base.pcb i = some p0) (h0 : p0.inHash = false) {a : A6} {n : Nat}
    (hg : Good { p with laddr := a.lo, lport := n, inHash := true }) (hu : ins6 c e t i p a n = some u) :
    Inv6 c u ∧ u.base.pcb = upd t.base.pcb i (some { p with laddr := a.lo, lport := n, inHash := true }) ∧
      u.x = upd t.x i { t.x i with lhi := a.hi } ∧ u.base.next = t.base.next := by
  unfold ins6 at hu
  rw [Option.map_eq_some_iff] at hu
  obtain ⟨b, hb, rfl⟩ := hu
  have h1 := inshash_pcb hb
  have h2 := inshash_inv h.base hp h0 hb hg
  exact ⟨h.upd h2 (h.base.ti.lt hp) h1.1 rfl h1.2 (by intro h; cases h), h1.1, rfl, h1.2⟩

theorem good_bound {p : Pcb} (g : Good p) (hd : p.dropped = false) (hin : p.inHash = false) (htw : p.timewait = false)
    (a n : Nat) (hn : n ≠ 0) (an : Bool) : Good { p with laddr := a, lport := n, inHash := true, anon := an } := by
  have hb := g.blank hin hd
  refine ⟨fun _ => hn, fun h => g.wild h, (by intro hx; cases hx), g.reuse2, ?_, ?_⟩
  · intro h; simp only at h; rw [htw] at h; cases h
  · simpa [hd] using g.drop

/-- The range of the automatic ports. -/
def InRange (c : Cfg) (o : Opts) (n : Nat) : Prop := (rangeOf o).minPort c ≤ n ∧ n ≤ (rangeOf o).maxPort c

/-- The result of giving socket `i` the local address `a` and a port. -/
def BoundTo (c : Cfg) (t u : Tab6) (i : Nat) (p : Pcb) (a : A6) (n : Nat) : Prop :=
  Inv6 c u ∧ (∃ an, u.base.pcb = upd t.base.pcb i (some { p with laddr := a.lo, lport := n, inHash := true, anon := an })) ∧
    u.x = upd t.x i { t.x i with lhi := a.hi } ∧ u.base.next = t.base.next

theorem BoundTo.of_same {c : Cfg} {t v u : Tab6} {i : Nat} {p : Pcb} {a : A6} {n : Nat} (s : Same6 t v)
    (h : BoundTo c v u i p a n) : BoundTo c t u i p a n := by
  obtain ⟨h1, h2, h3, h4⟩ := h
  rw [s.1.1] at h2
  rw [s.2] at h3
  rw [s.1.2.2.2] at h4
  exact ⟨h1, h2, h3, h4⟩

theorem setport6_spec {c : Cfg} (hc : CfgOk c) {e : Env6} {t : Tab6} (h : Inv6 c t) {i : Nat} {p : Pcb}
    (hp : t.base.pcb i = some p) (hd : p.dropped = false) (hin : p.inHash = false) (a : A6) :
    (∃ x, (setport6 c e t i p a).1 = some x ∧ Same6 t (setport6 c e t i p a).2 ∧
      (x = .e .eaddrnotavail ∧ (∀ n, InRange c p.opts n → ¬ Free6 t p.opts a n) ∨ x = .e .eagain ∧ e.e4.mem = false)) ∨
    ((setport6 c e t i p a).1 = none ∧
      ∃ n, n ≠ 0 ∧ InRange c p.opts n ∧ Free6 t p.opts a n ∧ BoundTo c t (setport6 c e t i p a).2 i p a n) := by
  have hs := pcbLport6_spec hc e t p.opts a (!p.opts.reuseaddr && !p.opts.reuseport)
  unfold setport6
  simp only
  generalize pcbLport6 c e t p.opts a (!p.opts.reuseaddr && !p.opts.reuseport) = r at hs
  obtain ⟨r1, r2⟩ := r
  obtain ⟨hs1, hs2⟩ := hs
  cases r1 with
  | none =>
    left
    refine ⟨_, rfl, hs1, Or.inl ⟨rfl, ?_⟩⟩
    intro n hn
    have := hs2 n hn.1 hn.2
    rw [Option.isSome_iff_exists] at this
    obtain ⟨j, hj⟩ := this
    exact (lookupLocal6_some h.base hj).1
  | some n =>
    simp only at hs1 hs2 ⊢
    have hi : Inv6 c r2 := h.of_same hs1
    have hp2 : r2.base.pcb i = some p := by rw [hs1.1.1]; exact hp
    have g := h.base.good i p hp
    have hn0 : n ≠ 0 := by have := (hc (rangeOf p.opts)).1; omega
    have htw : p.timewait = false := by
      cases ht : p.timewait with
      | false => rfl
      | true => exact absurd (g.blank hin hd).2.2 (g.tw ht)
    cases hu : ins6 c e r2 i { p with anon := true } a n with
    | none =>
      left
      refine ⟨_, rfl, hs1, Or.inr ⟨rfl, ?_⟩⟩
      unfold ins6 inshash at hu
      simp only [Option.map_eq_none_iff] at hu
      split at hu
      · cases hu
      · split at hu
        · cases hu
        · simpa using ‹¬ e.e4.mem = true›
    | some u =>
      right
      have hsp := ins6_spec (p := { p with anon := true }) hi hp2 hin (good_bound g hd hin htw a.lo n hn0 true) hu
      refine ⟨rfl, n, hn0, ⟨hs2.1, hs2.2.1⟩, lookupLocal6_free h.base hs2.2.2, ?_⟩
      exact BoundTo.of_same hs1 ⟨hsp.1, ⟨true, hsp.2.1⟩, hsp.2.2.1, hsp.2.2.2⟩

/-- The address can be bound. -/
def Acceptable6 (e : Env6) (o : Opts) (a : A6) : Prop :=
  a.mcast = true ∨ a = any6 ∨ o.bindany = true ∨ e.isLocal a = true

instance (e : Env6) (o : Opts) (a : A6) : Decidable (Acceptable6 e o a) := by
  unfold Acceptable6; infer_instance

/-- What `ofp_in6_pcbbind` does to a live block. -/
theorem pcbbind6_spec {c : Cfg} (hc : CfgOk c) {e : Env6} {t : Tab6} (h : Inv6 c t) {i : Nat} {p : Pcb}
    (hp : t.base.pcb i = some p) (hd : p.dropped = false) (nam : Option (A6 × Nat)) :
    (∃ x, (pcbbind6 c e t i p nam).1 = some x ∧ Same6 t (pcbbind6 c e t i p nam).2.1) ∨
    ((pcbbind6 c e t i p nam).1 = none ∧ p.lport = 0 ∧ la6 (t.x i) p = any6 ∧ p.inHash = false ∧
      ∃ a n, n ≠ 0 ∧ Free6 t p.opts a n ∧ BoundTo c t (pcbbind6 c e t i p nam).2.1 i p a n ∧
        (nam = none → a = any6) ∧
        (∀ addr port, nam = some (addr, port) → a = addr ∧ Acceptable6 e p.opts a ∧ (port ≠ 0 → n = port)) ∧
        ((nam = none ∨ ∃ addr, nam = some (addr, 0)) → InRange c p.opts n)) := by
  unfold pcbbind6
  simp only
  by_cases hpr : e.primary = none
  · rw [if_pos hpr]; exact Or.inl ⟨_, rfl, Same6.refl t⟩
  rw [if_neg hpr]
  by_cases hl : p.lport ≠ 0 ∨ la6 (t.x i) p ≠ any6
  · rw [if_pos hl]; exact Or.inl ⟨_, rfl, Same6.refl t⟩
  rw [if_neg hl]
  have hl0 : p.lport = 0 := by by_contra hh; exact hl (Or.inl hh)
  have hla : la6 (t.x i) p = any6 := by by_contra hh; exact hl (Or.inr hh)
  have g := h.base.good i p hp
  have hin : p.inHash = false := by
    cases hx : p.inHash with
    | false => rfl
    | true => exact absurd hl0 (g.port hx)
  have htw : p.timewait = false := by
    cases ht : p.timewait with
    | false => rfl
    | true => exact absurd (g.blank hin hd).2.2 (g.tw ht)
  cases nam with
  | none =>
    simp only
    rcases setport6_spec hc (e := e) h hp hd hin (la6 (t.x i) p) with ⟨x, h1, h2, _⟩ | ⟨h1, n, h2, h3, h4, h5⟩
    · exact Or.inl ⟨x, h1, h2⟩
    · exact Or.inr ⟨h1, hl0, hla, hin, _, n, h2, h4, h5, fun _ => hla, (by intro a q hx; cases hx), fun _ => h3⟩
  | some an =>
    obtain ⟨a, port⟩ := an
    simp only
    by_cases hac : a.mcast = false ∧ a ≠ any6 ∧ p.opts.bindany = false ∧ e.isLocal a = false
    · rw [if_pos hac]; exact Or.inl ⟨_, rfl, Same6.refl t⟩
    rw [if_neg hac]
    have hA : Acceptable6 e p.opts a := by
      unfold Acceptable6
      cases h1 : a.mcast <;> cases h3 : p.opts.bindany <;> cases h4 : e.isLocal a <;>
        by_cases h2 : a = any6 <;> simp_all
    by_cases hpo : port ≠ 0
    · rw [if_pos hpo]
      by_cases hcf : conflict6 c t p.opts (t.x i) a port = true
      · rw [if_pos hcf]; exact Or.inl ⟨_, rfl, Same6.refl t⟩
      rw [if_neg hcf]
      have hfree : Free6 t p.opts a port := conflict6_false h.base (by simpa using hcf)
      cases hu : ins6 c e t i p a port with
      | none => exact Or.inl ⟨_, rfl, Same6.refl t⟩
      | some u =>
        right
        have hsp := ins6_spec h hp hin (good_bound g hd hin htw a.lo port hpo p.anon) hu
        refine ⟨rfl, hl0, hla, hin, a, port, hpo, hfree, ⟨hsp.1, ⟨p.anon, hsp.2.1⟩, hsp.2.2⟩, ?_, ?_, ?_⟩
        · intro hx; cases hx
        · intro a' q hx; cases hx; exact ⟨rfl, hA, fun _ => rfl⟩
        · rintro (hx | ⟨b, hx⟩)
          · cases hx
          · cases hx; exact absurd rfl hpo
    · rw [if_neg hpo]
      have hpo : port = 0 := by simpa using hpo
      rcases setport6_spec hc (e := e) h hp hd hin a with ⟨x, h1, h2, _⟩ | ⟨h1, n, h2, h3, h4, h5⟩
      · exact Or.inl ⟨x, h1, h2⟩
      · refine Or.inr ⟨h1, hl0, hla, hin, _, n, h2, h4, h5, ?_, ?_, fun _ => h3⟩
        · intro hx; cases hx
        · intro a' q hx; cases hx; exact ⟨rfl, hA, fun hq => absurd hpo hq⟩

end Verif.Pcb6

import Verif.Pcb6.Model
/-! # IPv4 calls never take a block off the chains without dropping it -/
namespace Verif.Pcb6
open Verif.Pcb

/-- Every unbound live block of `u` was one of `t`. -/
def Keeps (t u : Tab) : Prop :=
  ∀ i p', u.pcb i = some p' → p'.inHash = false → p'.dropped = false →
    t.next ≤ i ∨ ∃ p, t.pcb i = some p ∧ p.inHash = false ∧ p.dropped = false

theorem Keeps.of_pcb {t u : Tab} (h : u.pcb = t.pcb) : Keeps t u := by
  intro i p' h1 h2 h3
  rw [h] at h1
  exact Or.inr ⟨p', h1, h2, h3⟩

/-- One block changed. -/
theorem Keeps.upd {t u : Tab} {i : Nat} {v : Option Pcb} (h : u.pcb = upd t.pcb i v)
    (hv : ∀ p', v = some p' → p'.inHash = false → p'.dropped = false →
      t.next ≤ i ∨ ∃ p, t.pcb i = some p ∧ p.inHash = false ∧ p.dropped = false) : Keeps t u := by
  intro j p' h1 h2 h3
  rw [h] at h1
  by_cases hj : j = i
  · subst hj; rw [upd_self] at h1; exact hv p' h1 h2 h3
  · rw [upd_ne _ _ hj] at h1; exact Or.inr ⟨p', h1, h2, h3⟩

theorem Keeps.trans {t u v : Tab} (h : Keeps t u) (g : Keeps u v) (hn : t.next ≤ u.next) : Keeps t v := by
  intro i p' h1 h2 h3
  rcases g i p' h1 h2 h3 with a | ⟨p, a, b, d⟩
  · exact Or.inl (by omega)
  · exact h i p a b d

theorem pcbLport_same (c : Cfg) (e : Env) (t : Tab) (o : Opts) (la : Nat) (w : Bool) :
    Same t (pcbLport c e t o la w).2 := by
  unfold pcbLport
  simp only
  split <;> exact setLast_same _ _ _

theorem bindSetup_same (c : Cfg) (e : Env) (t : Tab) (o : Opts) (nam : Option (Nat × Nat)) (la : Nat) :
    Same t (bindSetup c e t o nam la).2 := by
  unfold bindSetup
  simp only
  split
  · exact Same.refl t
  split
  · exact Same.refl t
  cases nam with
  | none => exact pcbLport_same ..
  | some an =>
    obtain ⟨a, n⟩ := an
    simp only
    split
    · exact Same.refl t
    split
    · split <;> exact Same.refl t
    · exact pcbLport_same ..

theorem connectSetup_same (c : Cfg) (e : Env) (t : Tab) (o : Opts) (la lp d n : Nat) :
    Same t (connectSetup c e t o la lp d n).2 := by
  unfold connectSetup
  split
  · exact Same.refl t
  simp only
  generalize (if d = 0 then e.primary.getD 0 else d) = fa
  split
  · exact Same.refl t
  split
  · exact Same.refl t
  split
  · exact bindSetup_same ..
  · exact Same.refl t

/-- How a call changes the table: nothing, or one block that is then bound. -/
def One (t u : Tab) (i : Nat) : Prop :=
  u.next = t.next ∧ (u.pcb = t.pcb ∨ ∃ p', u.pcb = upd t.pcb i (some p') ∧ p'.inHash = true)

theorem One.same {t u : Tab} (i : Nat) (h : Same t u) : One t u i := ⟨h.2.2.2, Or.inl h.1⟩

theorem One.keeps {t u : Tab} {i : Nat} (h : One t u i) : Keeps t u := by
  rcases h.2 with a | ⟨p', a, b⟩
  · exact Keeps.of_pcb a
  · exact Keeps.upd a (by intro q hq h1; cases hq; rw [b] at h1; cases h1)

theorem One.step {t u v : Tab} {i : Nat} (h : One t u i) {p' : Pcb} (hn : v.next = u.next)
    (hv : v.pcb = upd u.pcb i (some p')) (hp : p'.inHash = true) : One t v i := by
  refine ⟨hn.trans h.1, Or.inr ⟨p', ?_, hp⟩⟩
  rw [hv]
  rcases h.2 with a | ⟨q, a, _⟩
  · rw [a]
  · rw [a, upd_upd]

theorem pcbbind_one (c : Cfg) (e : Env) (t : Tab) (i : Nat) (p : Pcb) (nam : Option (Nat × Nat)) :
    One t (pcbbind c e t i p nam).2 i := by
  unfold pcbbind
  split
  · exact One.same i (Same.refl t)
  have hs := bindSetup_same c e t p.opts nam p.laddr
  simp only
  generalize bindSetup c e t p.opts nam p.laddr = r at hs
  obtain ⟨r1, r2⟩ := r
  cases r1 with
  | error x => exact One.same i hs
  | ok an =>
    obtain ⟨a, n⟩ := an
    simp only
    cases hins : inshash c e r2 i { p with laddr := a, lport := n } with
    | none => exact One.same i hs
    | some u =>
      have h1 := inshash_pcb hins
      have o1 : One t u i := (One.same i hs).step h1.2 h1.1 rfl
      simp only
      split
      · exact o1.step (v := u.setPcb i _) rfl rfl rfl
      · exact o1

theorem pcbconnect_one (c : Cfg) (e : Env) (t : Tab) (i : Nat) (p : Pcb) (dst dport : Nat)
    (hp : p.inHash = true ∨ (p.laddr = 0 ∧ p.lport = 0)) : One t (pcbconnect c e t i p dst dport).2 i := by
  unfold pcbconnect
  have hs := connectSetup_same c e t p.opts p.laddr p.lport dst dport
  simp only
  generalize connectSetup c e t p.opts p.laddr p.lport dst dport = r at hs
  obtain ⟨r1, r2⟩ := r
  cases r1 with
  | error x => exact One.same i hs
  | ok an =>
    obtain ⟨la, lp, fa⟩ := an
    simp only
    split
    · cases hins : inshash c e r2 i { p with laddr := la, lport := lp } with
      | none => exact One.same i hs
      | some u =>
        have h1 := inshash_pcb hins
        have o1 : One t u i := (One.same i hs).step h1.2 h1.1 rfl
        exact o1.step (v := rehash c u i _) rfl rfl rfl
    · rename_i hx
      have : p.inHash = true := by rcases hp with a | a; exact a; exact absurd a hx
      exact (One.same i hs).step (v := rehash c r2 i _) rfl rfl this

/-- A block is bound, or blank, or dropped. -/
theorem Good.bound_or {p : Pcb} (g : Good p) (hd : p.dropped = false) :
    p.inHash = true ∨ (p.laddr = 0 ∧ p.lport = 0) := by
  cases h : p.inHash with
  | true => exact Or.inl rfl
  | false => exact Or.inr ⟨(g.blank h hd).1, (g.blank h hd).2.1⟩

theorem udpConnect_keeps {c : Cfg} {t : Tab} (h : Inv c t) (e : Env) (i d n : Nat) :
    Keeps t (udpConnect c e t i d n).2 := by
  unfold udpConnect
  cases hp : t.pcb i with
  | none => exact Keeps.of_pcb rfl
  | some p =>
    simp only
    split
    · exact Keeps.of_pcb rfl
    rename_i hx
    split
    · exact Keeps.of_pcb rfl
    · refine (pcbconnect_one c e t i p d n (Good.bound_or (h.good i p hp) ?_)).keeps
      cases hd : p.dropped with
      | false => rfl
      | true => exact absurd (Or.inr hd) hx

theorem bind_keeps (c : Cfg) (t : Tab) (e : Env) (i : Nat) (nam : Option (Nat × Nat)) :
    Keeps t (apiBind c e t i nam).2 := by
  unfold apiBind
  cases hp : t.pcb i with
  | none => exact Keeps.of_pcb rfl
  | some p =>
    simp only
    split
    · exact Keeps.of_pcb rfl
    · exact (pcbbind_one c e t i p nam).keeps

theorem tcpConnect_keeps {c : Cfg} (hc : CfgOk c) {t : Tab} (h : Inv c t) (e : Env) (i d n : Nat) :
    Keeps t (tcpConnect c e t i d n).2 := by
  unfold tcpConnect
  cases hp : t.pcb i with
  | none => exact Keeps.of_pcb rfl
  | some p =>
    simp only
    split
    · exact Keeps.of_pcb rfl
    rename_i hx
    have hd : p.dropped = false := by
      cases hd : p.dropped with
      | false => rfl
      | true => exact absurd (Or.inr hd) hx
    split
    · exact Keeps.of_pcb rfl
    have key : ∀ (u : Tab) (q : Pcb), One t u i → q.inHash = true →
        Keeps t (match (connectSetup c e u q.opts q.laddr q.lport d n).1 with
          | .error x => (some x, (connectSetup c e u q.opts q.laddr q.lport d n).2)
          | .ok (la, _, fa) => (none, rehash c (connectSetup c e u q.opts q.laddr q.lport d n).2 i
              { q with laddr := la, faddr := fa, fport := n })).2 := by
      intro u q ho hq
      have hs := connectSetup_same c e u q.opts q.laddr q.lport d n
      generalize connectSetup c e u q.opts q.laddr q.lport d n = r at hs
      obtain ⟨r1, r2⟩ := r
      have o2 : One t r2 i := by
        refine ⟨hs.2.2.2.trans ho.1, ?_⟩
        rw [hs.1]; exact ho.2
      cases r1 with
      | error x => exact o2.keeps
      | ok an =>
        obtain ⟨la, lp, fa⟩ := an
        exact (o2.step (v := rehash c r2 i { q with laddr := la, faddr := fa, fport := n }) rfl rfl hq).keeps
    by_cases hl : p.lport = 0
    · simp only [hl, if_true]
      rcases pcbbind_spec hc (e := e) h hp hd none with ⟨x, hx1, hx2⟩ | ⟨hx1, _, _, _, _, _, a, m, an, hx2, _⟩
      · simp only [hx1]
        exact Keeps.of_pcb hx2.1
      · have hself : (pcbbind c e t i p none).2.pcb i = some { p with
            laddr := a, lport := m, inHash := true, anon := an } := by rw [hx2, upd_self]
        simp only [hx1, hself]
        exact key _ { p with laddr := a, lport := m, inHash := true, anon := an } (pcbbind_one c e t i p none) rfl
    · simp only [hl, if_false, hp]
      refine key t p (One.same i (Same.refl t)) ?_
      rcases Good.bound_or (h.good i p hp) hd with a | a
      · exact a
      · exact absurd a.2 hl

theorem sendto_keeps (c : Cfg) (t : Tab) (e : Env) (i d n : Nat) : Keeps t (sendto c e t i d n).2 := by
  unfold sendto
  cases hp : t.pcb i with
  | none => exact Keeps.of_pcb rfl
  | some p =>
    simp only
    split
    · exact Keeps.of_pcb rfl
    split
    · exact Keeps.of_pcb rfl
    split
    · have hs := connectSetup_same c e t p.opts p.laddr p.lport d n
      generalize connectSetup c e t p.opts p.laddr p.lport d n = r at hs
      obtain ⟨r1, r2⟩ := r
      cases r1 with
      | error x => exact Keeps.of_pcb hs.1
      | ok an =>
        obtain ⟨la, lp, fa⟩ := an
        simp only
        split
        · cases hins : inshash c e r2 i { p with lport := lp } with
          | none => exact Keeps.of_pcb hs.1
          | some u =>
            have h1 := inshash_pcb hins
            have o1 : One t u i := (One.same i hs).step h1.2 h1.1 rfl
            exact (o1.step (v := u.setPcb i _) rfl rfl rfl).keeps
        · exact Keeps.of_pcb hs.1
    · exact Keeps.of_pcb rfl

theorem setPcb_keeps {t : Tab} {i : Nat} {p q : Pcb} (hp : t.pcb i = some p)
    (h : q.inHash = false → q.dropped = false → p.inHash = false ∧ p.dropped = false) :
    Keeps t (t.setPcb i q) :=
  Keeps.upd (v := some q) rfl (by intro q' hq h1 h2; cases hq; exact Or.inr ⟨p, hp, h h1 h2⟩)

theorem disconnect_keeps (c : Cfg) (t : Tab) (i : Nat) : Keeps t (disconnect c t i).2 := by
  unfold disconnect
  cases hp : t.pcb i with
  | none => exact Keeps.of_pcb rfl
  | some p =>
    simp only
    split
    · exact Keeps.of_pcb rfl
    split
    · exact Keeps.of_pcb rfl
    · have : ((rehash c t i { p with faddr := 0, fport := 0 }).setPcb i
          { p with faddr := 0, fport := 0, laddr := 0 }).pcb =
          upd t.pcb i (some { p with faddr := 0, fport := 0, laddr := 0 }) := by
        show upd (upd t.pcb i _) i _ = _
        rw [upd_upd]
      exact Keeps.upd this (by intro q hq h1 h2; cases hq; exact Or.inr ⟨p, hp, h1, h2⟩)

theorem drop_keeps (t : Tab) (i : Nat) : Keeps t (Pcb.drop t i) := by
  unfold Pcb.drop
  cases hp : t.pcb i with
  | none => exact Keeps.of_pcb rfl
  | some p =>
    simp only
    split
    · exact Keeps.upd (v := some { p with inHash := false, dropped := true }) rfl
        (by intro q hq h1 h2; cases hq; cases h2)
    · exact setPcb_keeps hp (by intro _ h2; cases h2)

theorem free_keeps (t : Tab) (i : Nat) : Keeps t (free t i) := by
  unfold free
  cases hp : t.pcb i with
  | none => exact Keeps.of_pcb rfl
  | some p =>
    simp only
    by_cases hi : p.inHash = true
    · simp only [hi, if_true]
      exact Keeps.upd (v := none) rfl (by intro q hq; cases hq)
    · simp only [hi, Bool.false_eq_true, if_false]
      exact Keeps.upd (v := none) rfl (by intro q hq; cases hq)

theorem alloc_keeps (t : Tab) (o : Opts) : Keeps t (t.alloc o) :=
  Keeps.upd (i := t.next) rfl (by intro _ _ _ _; exact Or.inl (Nat.le_refl _))

theorem accept_keeps (c : Cfg) (t : Tab) (e : Env) (o : Opts) (la lp fa fp : Nat) :
    Keeps t (accept c e t o la lp fa fp).2 := by
  unfold accept
  have h1 := alloc_keeps t o
  have hn : (t.alloc o).next = t.next + 1 := rfl
  simp only
  generalize t.alloc o = t1 at h1 hn
  cases hp : t1.pcb t.next with
  | none => exact h1
  | some p0 =>
    simp only
    cases hins : inshash c e t1 t.next { p0 with laddr := la, lport := lp } with
    | none => exact h1.trans (free_keeps _ _) (by omega)
    | some u =>
      have h2 := inshash_pcb hins
      have o1 : One t1 u t.next := (One.same t.next (Same.refl t1)).step h2.2 h2.1 rfl
      have o2 := pcbconnect_one c e u t.next { p0 with laddr := la, lport := lp, inHash := true } fa fp (Or.inl rfl)
      simp only
      generalize pcbconnect c e u t.next { p0 with laddr := la, lport := lp, inHash := true } fa fp = r at o2
      obtain ⟨r1, r2⟩ := r
      have k2 : Keeps t1 r2 := o1.keeps.trans o2.keeps (by rw [h2.2]; exact Nat.le_refl _)
      cases r1 with
      | none => exact h1.trans k2 (by omega)
      | some x => exact h1.trans (k2.trans (free_keeps _ _) (by have := o2.1; simp only at this; rw [this, h2.2]; exact Nat.le_refl _)) (by omega)

theorem accept_next (c : Cfg) (t : Tab) (e : Env) (o : Opts) (la lp fa fp : Nat) :
    (accept c e t o la lp fa fp).2.next = t.next + 1 := by
  have fn : ∀ (u : Tab) i, (free u i).next = u.next := by
    intro u i; unfold free; split
    · rfl
    · simp only; split <;> rfl
  unfold accept
  have hn : (t.alloc o).next = t.next + 1 := rfl
  simp only
  generalize t.alloc o = t1 at hn
  cases hp : t1.pcb t.next with
  | none => exact hn
  | some p0 =>
    simp only
    cases hins : inshash c e t1 t.next { p0 with laddr := la, lport := lp } with
    | none => exact (fn _ _).trans hn
    | some u =>
      have h2 := inshash_pcb hins
      have o2 := pcbconnect_one c e u t.next { p0 with laddr := la, lport := lp, inHash := true } fa fp (Or.inl rfl)
      simp only
      generalize pcbconnect c e u t.next { p0 with laddr := la, lport := lp, inHash := true } fa fp = r at o2
      obtain ⟨r1, r2⟩ := r
      have := o2.1
      simp only at this
      cases r1 with
      | none => simp only; omega
      | some x => simp only [fn]; omega

/-- Calls of the IPv4 side that are used here. -/
def Label4Ok (l : Pcb.Label) : Prop :=
  l.Ok ∧ (match l with | .bind6 .. => False | _ => True)

/-- **Every IPv4 call.** -/
theorem step4_keeps {c : Cfg} (hc : CfgOk c) {t : Tab} (h : Inv c t) (l : Pcb.Label) (hl : Label4Ok l) :
    Keeps t (Pcb.step c t l) := by
  cases l with
  | socket o => exact alloc_keeps t o
  | setopt i o =>
    show Keeps t (setopt t i o)
    unfold setopt
    cases hp : t.pcb i with
    | none => exact Keeps.of_pcb rfl
    | some p => exact setPcb_keeps hp (fun a b => ⟨a, b⟩)
  | bind e i nam => exact bind_keeps c t e i nam
  | udpConnect e i d n => exact udpConnect_keeps h e i d n
  | tcpConnect e i d n => exact tcpConnect_keeps hc h e i d n
  | sendto e i d n => exact sendto_keeps c t e i d n
  | disconnect i => exact disconnect_keeps c t i
  | drop i => exact drop_keeps t i
  | free i => exact free_keeps t i
  | timewait i tw =>
    show Keeps t (timewait t i tw)
    unfold timewait
    cases hp : t.pcb i with
    | none => exact Keeps.of_pcb rfl
    | some p =>
      simp only
      split
      · exact Keeps.of_pcb rfl
      · exact setPcb_keeps hp (fun a b => ⟨a, b⟩)
  | accept e o la lp fa fp => exact accept_keeps c t e o la lp fa fp
  | bind6 e i low port v4 => exact absurd hl.2 (by simp)

end Verif.Pcb6

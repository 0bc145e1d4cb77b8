import Verif.Pcb6.Ops
/-! # The invariant over every history of calls on sockets of both families -/
namespace Verif.Pcb6
open Verif.Pcb

/-! ## The numbering of sockets only grows -/

theorem pcbconnect_next (c : Cfg) (e : Env) (t : Tab) (i : Nat) (p : Pcb) (d n : Nat) :
    (pcbconnect c e t i p d n).2.next = t.next := by
  unfold pcbconnect
  have hs := connectSetup_same c e t p.opts p.laddr p.lport d n
  simp only
  generalize connectSetup c e t p.opts p.laddr p.lport d n = r at hs
  obtain ⟨r1, r2⟩ := r
  cases r1 with
  | error x => exact hs.2.2.2
  | ok an =>
    obtain ⟨la, lp, fa⟩ := an
    simp only
    split
    · cases hins : inshash c e r2 i { p with laddr := la, lport := lp } with
      | none => exact hs.2.2.2
      | some u => exact (inshash_pcb hins).2.trans hs.2.2.2
    · exact hs.2.2.2

theorem sendto_next (c : Cfg) (e : Env) (t : Tab) (i d n : Nat) : (sendto c e t i d n).2.next = t.next := by
  unfold sendto
  cases hp : t.pcb i with
  | none => rfl
  | some p =>
    simp only
    split
    · rfl
    split
    · rfl
    split
    · have hs := connectSetup_same c e t p.opts p.laddr p.lport d n
      generalize connectSetup c e t p.opts p.laddr p.lport d n = r at hs
      obtain ⟨r1, r2⟩ := r
      cases r1 with
      | error x => exact hs.2.2.2
      | ok an =>
        obtain ⟨la, lp, fa⟩ := an
        simp only
        split
        · cases hins : inshash c e r2 i { p with lport := lp } with
          | none => exact hs.2.2.2
          | some u => exact (inshash_pcb hins).2.trans hs.2.2.2
        · exact hs.2.2.2
    · rfl

theorem tcpConnect_next (c : Cfg) (e : Env) (t : Tab) (i d n : Nat) : (tcpConnect c e t i d n).2.next = t.next := by
  unfold tcpConnect
  cases hp : t.pcb i with
  | none => rfl
  | some p =>
    simp only
    split
    · rfl
    split
    · rfl
    have hb : (if p.lport = 0 then pcbbind c e t i p none else (none, t)).2.next = t.next := by
      split
      · exact (pcbbind_one c e t i p none).1
      · rfl
    generalize (if p.lport = 0 then pcbbind c e t i p none else (none, t)) = b at hb
    obtain ⟨b1, b2⟩ := b
    cases b1 with
    | some x => exact hb
    | none =>
      simp only at hb ⊢
      cases hq : b2.pcb i with
      | none => exact hb
      | some q =>
        simp only
        have hs := connectSetup_same c e b2 q.opts q.laddr q.lport d n
        generalize connectSetup c e b2 q.opts q.laddr q.lport d n = r at hs
        obtain ⟨r1, r2⟩ := r
        cases r1 with
        | error x => exact hs.2.2.2.trans hb
        | ok an => exact hs.2.2.2.trans hb

theorem free_next (t : Tab) (i : Nat) : (free t i).next = t.next := by
  unfold free
  split
  · rfl
  · simp only; split <;> rfl

theorem disconnect_next (c : Cfg) (t : Tab) (i : Nat) : (disconnect c t i).2.next = t.next := by
  unfold disconnect
  split
  · rfl
  · split
    · rfl
    split <;> rfl

theorem step4_next (c : Cfg) (t : Tab) (l : Pcb.Label) (hl : Label4Ok l) : t.next ≤ (Pcb.step c t l).next := by
  cases l with
  | socket o => exact Nat.le_succ _
  | setopt i o =>
    show t.next ≤ (setopt t i o).next
    unfold setopt
    split <;> exact Nat.le_refl _
  | bind e i nam =>
    show t.next ≤ (apiBind c e t i nam).2.next
    unfold apiBind
    split
    · exact Nat.le_refl _
    · split
      · exact Nat.le_refl _
      · exact Nat.le_of_eq (pcbbind_one ..).1.symm
  | udpConnect e i d n =>
    show t.next ≤ (udpConnect c e t i d n).2.next
    unfold udpConnect
    split
    · exact Nat.le_refl _
    · split
      · exact Nat.le_refl _
      split
      · exact Nat.le_refl _
      · exact Nat.le_of_eq (pcbconnect_next ..).symm
  | tcpConnect e i d n => exact Nat.le_of_eq (tcpConnect_next ..).symm
  | sendto e i d n => exact Nat.le_of_eq (sendto_next ..).symm
  | disconnect i => exact Nat.le_of_eq (disconnect_next ..).symm
  | drop i =>
    show t.next ≤ (Pcb.drop t i).next
    unfold Pcb.drop
    split
    · exact Nat.le_refl _
    · split <;> exact Nat.le_refl _
  | free i => exact Nat.le_of_eq (free_next ..).symm
  | timewait i tw =>
    show t.next ≤ (timewait t i tw).next
    unfold timewait
    split
    · exact Nat.le_refl _
    · split <;> exact Nat.le_refl _
  | accept e o la lp fa fp =>
    show t.next ≤ (accept c e t o la lp fa fp).2.next
    rw [accept_next]; exact Nat.le_succ _
  | bind6 e i low port v4 => exact absurd hl.2 (by simp)

/-! ## The calls -/

/-- An IPv4 function on the table. -/
theorem Inv6.base_step {c : Cfg} {t : Tab6} (h : Inv6 c t) {b : Tab} (hb : Inv c b) (hk : Keeps t.base b)
    (hn : t.base.next ≤ b.next) : Inv6 c ⟨b, t.x⟩ := by
  refine ⟨hb, ?_, fun j hj => h.fresh j (Nat.le_trans hn hj)⟩
  intro j p hp h1 h2
  rcases hk j p hp h1 h2 with h3 | ⟨q, h3, h4, h5⟩
  · rw [h.fresh j h3]; exact ⟨rfl, rfl⟩
  · exact h.blank j q h3 h4 h5

theorem setFam_spec {c : Cfg} {t : Tab6} (h : Inv6 c t) {i : Nat} {p : Pcb} (hp : t.base.pcb i = some p)
    (v4 v6 : Bool) :
    Inv6 c (setFam t i p v4 v6) ∧ (setFam t i p v4 v6).base.pcb = upd t.base.pcb i (some { p with v4 := v4 }) ∧
      (setFam t i p v4 v6).x = upd t.x i { t.x i with v6 := v6 } ∧
      (setFam t i p v4 v6).base.next = t.base.next := by
  have g := h.base.good i p hp
  have hb : Inv c (t.base.setPcb i { p with v4 := v4 }) := setPcb_inv h.base hp rfl rfl rfl rfl
    ⟨g.port, g.wild, g.blank, g.reuse2, g.tw, g.drop⟩
  refine ⟨h.upd (u := setFam t i p v4 v6) hb (h.base.ti.lt hp) rfl rfl rfl ?_, rfl, rfl, rfl⟩
  intro h1 h2
  exact h.blank i p hp h1 h2

/-- Live. -/
theorem live_of {p : Pcb} (h : ¬ (p.timewait = true ∨ p.dropped = true)) :
    p.timewait = false ∧ p.dropped = false := by
  constructor
  · cases hx : p.timewait with
    | false => rfl
    | true => exact absurd (Or.inl hx) h
  · cases hx : p.dropped with
    | false => rfl
    | true => exact absurd (Or.inr hx) h

theorem bind6_inv {c : Cfg} (hc : CfgOk c) {e : Env6} {t : Tab6} (h : Inv6 c t) (i : Nat) (a : A6) (n : Nat) :
    Inv6 c (bind6 c e t i a n).2.1 := by
  unfold bind6
  cases hp : t.base.pcb i with
  | none => exact h
  | some p =>
    simp only
    split
    · exact h
    split
    · exact h
    rename_i hl
    obtain ⟨_, hd⟩ := live_of hl
    split
    · obtain ⟨h1, h2, _, _⟩ := setFam_spec h hp true false
      have hp1 : (setFam t i p true false).base.pcb i = some { p with v4 := true } := by rw [h2, upd_self]
      have hone := pcbbind_one c e.e4 (setFam t i p true false).base i { p with v4 := true } (some (a.lo, n))
      have hi : Inv c (pcbbind c e.e4 (setFam t i p true false).base i { p with v4 := true } (some (a.lo, n))).2 := by
        rcases pcbbind_spec hc (e := e.e4) h1.base hp1 hd (some (a.lo, n)) with ⟨x, _, hs⟩ | ⟨_, _, _, _, _, hi, _⟩
        · exact h1.base.of_same hs
        · exact hi
      exact h1.base_step hi hone.keeps (Nat.le_of_eq hone.1.symm)
    · generalize (!(t.x i).v6only && a == any6) = v
      obtain ⟨h1, h2, _, _⟩ := setFam_spec h hp v true
      have hp1 : (setFam t i p v true).base.pcb i = some { p with v4 := v } := by rw [h2, upd_self]
      rcases pcbbind6_spec hc (e := e) h1 hp1 hd (some (a, n)) with ⟨x, _, hs⟩ | ⟨_, _, _, _, b, m, _, _, hb, _⟩
      · exact h1.of_same hs
      · exact hb.1

/-- The destination is not one whose last word is 0 (which the hash and the IPv4 functions take for no
destination). -/
def DstOk6 (e : Env6) (dst : A6) : Prop := (realDst e dst).lo ≠ 0

theorem conn6_spec {c : Cfg} {t : Tab6} (h : Inv6 c t) {i : Nat} {p : Pcb} (hp : t.base.pcb i = some p)
    (hd : p.dropped = false) (hin : p.inHash = true) {la fa : A6} {fport : Nat} (hf : fa.lo ≠ 0) :
    Inv6 c (conn6 c t i p la fa fport) ∧
      (conn6 c t i p la fa fport).base.pcb = upd t.base.pcb i (some { p with laddr := la.lo, faddr := fa.lo, fport := fport }) ∧
      (conn6 c t i p la fa fport).x = upd t.x i { t.x i with lhi := la.hi, fhi := fa.hi } ∧
      (conn6 c t i p la fa fport).base.next = t.base.next := by
  have g := h.base.good i p hp
  have hb : Inv c (rehash c t.base i { p with laddr := la.lo, faddr := fa.lo, fport := fport }) :=
    ⟨rehash_TI h.base.ti hp hin hin rfl, good_upd (t := t.base) rfl h.base.good (by
      intro q hq; cases hq
      exact ⟨g.port, fun hx => absurd hx hf, (by intro hx; simp only at hx; rw [hin] at hx; cases hx), g.reuse2,
        fun _ => hf, g.drop⟩)⟩
  refine ⟨h.upd (u := conn6 c t i p la fa fport) hb (h.base.ti.lt hp) rfl rfl rfl ?_, rfl, rfl, rfl⟩
  intro hx; simp only at hx; rw [hin] at hx; cases hx

/-- A live socket with a port, or with an address, is bound. -/
theorem Inv6.bound_or {c : Cfg} {t : Tab6} (h : Inv6 c t) {i : Nat} {p : Pcb} (hp : t.base.pcb i = some p)
    (hd : p.dropped = false) : p.inHash = true ∨ (la6 (t.x i) p = any6 ∧ fa6 (t.x i) p = any6 ∧ p.lport = 0) := by
  cases hx : p.inHash with
  | true => exact Or.inl rfl
  | false =>
    have h1 := (h.base.good i p hp).blank hx hd
    have h2 := h.blank i p hp hx hd
    refine Or.inr ⟨?_, ?_, h1.2.1⟩
    · simp only [la6, any6, h1.1, h2.1]
    · simp only [fa6, any6, h1.2.2, h2.2]

/-- The connection of a socket after `connect`. -/
structure Connected (c : Cfg) (t u : Tab6) (i : Nat) (p : Pcb) (la fa : A6) (n fport : Nat) : Prop where
  inv : Inv6 c u
  pcb : ∃ an, u.base.pcb = upd t.base.pcb i (some { p with
    laddr := la.lo, lport := n, faddr := fa.lo, fport := fport, inHash := true, anon := an })
  x : u.x = upd t.x i { t.x i with lhi := la.hi, fhi := fa.hi }
  next : u.base.next = t.base.next

/-- What `ofp_in6_pcbconnect` does to a live block. -/
theorem pcbconnect6_spec {c : Cfg} (hc : CfgOk c) {e : Env6} {t : Tab6} (h : Inv6 c t) {i : Nat} {p : Pcb}
    (hp : t.base.pcb i = some p) (hd : p.dropped = false) (dst : A6) (dport : Nat) (hdst : DstOk6 e dst) :
    (∃ x, (pcbconnect6 c e t i p dst dport).1 = some x ∧ Same6 t (pcbconnect6 c e t i p dst dport).2) ∨
    ((pcbconnect6 c e t i p dst dport).1 = none ∧
      ∃ la n, Connected c t (pcbconnect6 c e t i p dst dport).2 i p la (realDst e dst) n dport ∧
        n ≠ 0 ∧ dport ≠ 0 ∧ (la6 (t.x i) p ≠ any6 → la = la6 (t.x i) p) ∧
        (la6 (t.x i) p = any6 → selectSrc e any6 (realDst e dst) = some la) ∧ (p.lport ≠ 0 → n = p.lport) ∧
        (p.lport = 0 → Free6 t p.opts any6 n ∧ InRange c p.opts n) ∧
        ∀ j q, Bound t.base j q → (t.x j).v6 = true →
          ¬ (fa6 (t.x j) q = realDst e dst ∧ q.fport = dport ∧ la6 (t.x j) q = la ∧ q.lport = p.lport)) := by
  unfold pcbconnect6
  cases hs : pcbladdr6 e (la6 (t.x i) p) dst dport with
  | error x => exact Or.inl ⟨x, rfl, Same6.refl t⟩
  | ok s =>
    simp only
    have hs' : dport ≠ 0 ∧ selectSrc e (la6 (t.x i) p) (realDst e dst) = some s := by
      unfold pcbladdr6 at hs
      by_cases h0 : dport = 0
      · rw [if_pos h0] at hs; cases hs
      · rw [if_neg h0] at hs
        cases hx : selectSrc e (la6 (t.x i) p) (realDst e dst) with
        | none => rw [hx] at hs; cases hs
        | some y => rw [hx] at hs; cases hs; exact ⟨h0, rfl⟩
    generalize hla : (if la6 (t.x i) p = any6 then s else la6 (t.x i) p) = la
    have hla1 : la6 (t.x i) p ≠ any6 → la = la6 (t.x i) p := by intro hx; rw [← hla, if_neg hx]
    have hla2 : la6 (t.x i) p = any6 → selectSrc e any6 (realDst e dst) = some la := by
      intro hx; rw [← hla, if_pos hx, ← hx]; exact hs'.2
    by_cases hdup : (lookupHash6 c t (realDst e dst) dport la p.lport false).isSome = true
    · rw [if_pos hdup]; exact Or.inl ⟨_, rfl, Same6.refl t⟩
    rw [if_neg hdup]
    have hno : lookupExact6 c t (realDst e dst) dport la p.lport = none := by
      unfold lookupHash6 at hdup
      cases hx : lookupExact6 c t (realDst e dst) dport la p.lport with
      | none => rfl
      | some k => rw [hx] at hdup; simp at hdup
    have huniq : ∀ j q, Bound t.base j q → (t.x j).v6 = true →
          ¬ (fa6 (t.x j) q = realDst e dst ∧ q.fport = dport ∧ la6 (t.x j) q = la ∧ q.lport = p.lport) :=
      fun j q hb h6 => lookupExact6_none h.base.ti hno j q hb h6
    by_cases hbl : la6 (t.x i) p = any6 ∧ p.lport = 0
    · rw [if_pos hbl]
      rcases pcbbind6_spec hc (e := e) h hp hd none with ⟨x, h1, h2⟩ | ⟨h1, _, _, hin, a, n, hn, hfree, hb, ha, _, hr⟩
      · simp only [h1]; exact Or.inl ⟨x, rfl, h2⟩
      · obtain ⟨hbi, ⟨an, hbp⟩, hbx, hbn⟩ := hb
        have ha := ha rfl
        subst ha
        have hself : (pcbbind6 c e t i p none).2.1.base.pcb i =
            some { p with laddr := any6.lo, lport := n, inHash := true, anon := an } := by rw [hbp, upd_self]
        simp only [h1, hself]
        obtain ⟨c1, c2, c3, c4⟩ := conn6_spec hbi hself hd rfl (la := la) (fa := realDst e dst) (fport := dport) hdst
        refine Or.inr ⟨trivial, la, n, ⟨c1, ⟨an, ?_⟩, ?_, c4.trans hbn⟩, hn, hs'.1, hla1, hla2,
          fun hx => absurd hbl.2 hx, fun _ => ⟨hfree, hr (Or.inl rfl)⟩, huniq⟩
        · rw [c2, hbp, upd_upd]
        · rw [c3, hbx, upd_upd, upd_self]
    · rw [if_neg hbl]
      have hin : p.inHash = true := by
        rcases h.bound_or hp hd with hx | hx
        · exact hx
        · exact absurd ⟨hx.1, hx.2.2⟩ hbl
      have hlp := (h.base.good i p hp).port hin
      obtain ⟨c1, c2, c3, c4⟩ := conn6_spec h hp hd hin (la := la) (fa := realDst e dst) (fport := dport) hdst
      refine Or.inr ⟨rfl, la, p.lport, ⟨c1, ⟨p.anon, ?_⟩, c3, c4⟩, hlp, hs'.1, hla1, hla2, fun _ => rfl,
        fun hx => absurd hx hlp, huniq⟩
      rw [c2]
      congr 2
      rw [← hin]

theorem udpConnect6_inv {c : Cfg} (hc : CfgOk c) {e : Env6} {t : Tab6} (h : Inv6 c t) (i : Nat) (dst : A6) (dport : Nat)
    (hdst : if dst.mapped then DstOk e.e4 dst.lo else DstOk6 e dst) : Inv6 c (udpConnect6 c e t i dst dport).2 := by
  unfold udpConnect6
  cases hp : t.base.pcb i with
  | none => exact h
  | some p =>
    simp only
    split
    · exact h
    rename_i hl
    obtain ⟨_, hd⟩ := live_of hl
    cases hm : dst.mapped with
    | true =>
      rw [hm] at hdst
      simp only [if_true] at hdst ⊢
      split
      · exact h
      split
      · exact h
      obtain ⟨h1, h2, _, _⟩ := setFam_spec h hp true false
      have hp1 : (setFam t i p true false).base.pcb i = some { p with v4 := true } := by rw [h2, upd_self]
      have hone := pcbconnect_one c e.e4 (setFam t i p true false).base i { p with v4 := true } dst.lo dport
        (Good.bound_or (h1.base.good i _ hp1) hd)
      have hi : Inv c (pcbconnect c e.e4 (setFam t i p true false).base i { p with v4 := true } dst.lo dport).2 := by
        rcases pcbconnect_spec hc (e := e.e4) h1.base hp1 hd dst.lo dport hdst with ⟨x, _, hs⟩ | ⟨_, hi, _⟩
        · exact h1.base.of_same hs
        · exact hi
      exact h1.base_step hi hone.keeps (Nat.le_of_eq hone.1.symm)
    | false =>
      rw [hm] at hdst
      simp only [Bool.false_eq_true, if_false] at hdst ⊢
      split
      · exact h
      obtain ⟨h1, h2, _, _⟩ := setFam_spec h hp false true
      have hp1 : (setFam t i p false true).base.pcb i = some { p with v4 := false } := by rw [h2, upd_self]
      rcases pcbconnect6_spec hc (e := e) h1 hp1 hd dst dport hdst with ⟨x, _, hs⟩ | ⟨_, la, n, hcn, _⟩
      · exact h1.of_same hs
      · exact hcn.inv

/-- What `connect` does to a stream socket. -/
theorem tcpConnect6_spec {c : Cfg} (hc : CfgOk c) {e : Env6} {t : Tab6} (h : Inv6 c t) {i : Nat} {p : Pcb}
    (hp : t.base.pcb i = some p) (dst : A6) (dport : Nat) (hdst : DstOk6 e dst) :
    Inv6 c (tcpConnect6 c e t i dst dport).2 ∧
    ((tcpConnect6 c e t i dst dport).1 = none →
      ∃ la n, Connected c (setFam t i p false true) (tcpConnect6 c e t i dst dport).2 i { p with v4 := false } la
          (realDst e dst) n dport ∧
        n ≠ 0 ∧ (la6 (t.x i) p ≠ any6 → la = la6 (t.x i) p) ∧
        (p.lport ≠ 0 → n = p.lport) ∧ (p.lport = 0 → InRange c p.opts n) ∧
        ∀ j q, j ≠ i → Bound t.base j q → (t.x j).v6 = true →
          ¬ (fa6 (t.x j) q = realDst e dst ∧ q.fport = dport ∧ la6 (t.x j) q = la ∧ q.lport = n)) := by
  unfold tcpConnect6
  rw [hp]
  simp only
  split
  · exact ⟨h, by intro hx; cases hx⟩
  split
  · exact ⟨h, by intro hx; cases hx⟩
  rename_i hl
  obtain ⟨_, hd⟩ := live_of hl
  split
  · exact ⟨h, by intro hx; cases hx⟩
  obtain ⟨h1, h2, h3, h4⟩ := setFam_spec h hp false true
  have hp1 : (setFam t i p false true).base.pcb i = some { p with v4 := false } := by rw [h2, upd_self]
  have hx1 : (setFam t i p false true).x i = { t.x i with v6 := true } := by rw [h3, upd_self]
  have key : ∀ (b1 : Option E6) (u : Tab6), (b1 = none → Inv6 c u ∧ ∃ n an, n ≠ 0 ∧ (p.lport ≠ 0 → n = p.lport) ∧
      (p.lport = 0 → InRange c p.opts n) ∧
      u.base.pcb = upd t.base.pcb i (some { p with v4 := false, lport := n, inHash := true, anon := an }) ∧
      u.x = (setFam t i p false true).x ∧ u.base.next = t.base.next) → (b1 ≠ none → Inv6 c u) →
      Inv6 c (match b1, u.base.pcb i with
      | some x, _ => (some x, u)
      | none, none => (some (.e .einval), u)
      | none, some q =>
        match pcbladdr6 e (la6 (u.x i) q) dst dport with
        | .error x => (some x, u)
        | .ok s =>
          if (lookupHash6 c u (realDst e dst) dport (if la6 (u.x i) q = any6 then s else la6 (u.x i) q) q.lport
              false).isSome then (some (.e .eaddrinuse), u)
          else (none, conn6 c u i q (if la6 (u.x i) q = any6 then s else la6 (u.x i) q) (realDst e dst) dport)).2 ∧
      ((match b1, u.base.pcb i with
      | some x, _ => (some x, u)
      | none, none => (some (.e .einval), u)
      | none, some q =>
        match pcbladdr6 e (la6 (u.x i) q) dst dport with
        | .error x => (some x, u)
        | .ok s =>
          if (lookupHash6 c u (realDst e dst) dport (if la6 (u.x i) q = any6 then s else la6 (u.x i) q) q.lport
              false).isSome then (some (.e .eaddrinuse), u)
          else (none, conn6 c u i q (if la6 (u.x i) q = any6 then s else la6 (u.x i) q) (realDst e dst) dport)).1 = none →
      ∃ la n, Connected c (setFam t i p false true) (match b1, u.base.pcb i with
      | some x, _ => (some x, u)
      | none, none => (some (.e .einval), u)
      | none, some q =>
        match pcbladdr6 e (la6 (u.x i) q) dst dport with
        | .error x => (some x, u)
        | .ok s =>
          if (lookupHash6 c u (realDst e dst) dport (if la6 (u.x i) q = any6 then s else la6 (u.x i) q) q.lport
              false).isSome then (some (.e .eaddrinuse), u)
          else (none, conn6 c u i q (if la6 (u.x i) q = any6 then s else la6 (u.x i) q) (realDst e dst) dport)).2 i
            { p with v4 := false } la (realDst e dst) n dport ∧
        n ≠ 0 ∧ (la6 (t.x i) p ≠ any6 → la = la6 (t.x i) p) ∧
        (p.lport ≠ 0 → n = p.lport) ∧ (p.lport = 0 → InRange c p.opts n) ∧
        ∀ j q, j ≠ i → Bound t.base j q → (t.x j).v6 = true →
          ¬ (fa6 (t.x j) q = realDst e dst ∧ q.fport = dport ∧ la6 (t.x j) q = la ∧ q.lport = n)) := by
    intro b1 u hb hbad
    cases b1 with
    | some x => exact ⟨hbad (by simp), by intro hx; cases hx⟩
    | none =>
      obtain ⟨hu, n, an, hn0, hn1, hn2, hup, hux, hun⟩ := hb rfl
      have hself : u.base.pcb i = some { p with v4 := false, lport := n, inHash := true, anon := an } := by
        rw [hup, upd_self]
      rw [hself]
      simp only
      have hxi : u.x i = { t.x i with v6 := true } := by rw [hux, hx1]
      have hlaq : la6 (u.x i) { p with v4 := false, lport := n, inHash := true, anon := an } = la6 (t.x i) p := by
        rw [hxi]; rfl
      rw [hlaq]
      cases hs : pcbladdr6 e (la6 (t.x i) p) dst dport with
      | error x => exact ⟨hu, by intro hx; cases hx⟩
      | ok s =>
        simp only
        generalize hla : (if la6 (t.x i) p = any6 then s else la6 (t.x i) p) = la
        by_cases hdup : (lookupHash6 c u (realDst e dst) dport la n false).isSome = true
        · rw [if_pos hdup]; exact ⟨hu, by intro hx; cases hx⟩
        rw [if_neg hdup]
        have hno : lookupExact6 c u (realDst e dst) dport la n = none := by
          unfold lookupHash6 at hdup
          cases hx : lookupExact6 c u (realDst e dst) dport la n with
          | none => rfl
          | some k => rw [hx] at hdup; simp at hdup
        obtain ⟨c1, c2, c3, c4⟩ := conn6_spec hu hself hd rfl (la := la) (fa := realDst e dst) (fport := dport) hdst
        refine ⟨c1, fun _ => ⟨la, n, ⟨c1, ⟨an, ?_⟩, ?_, ?_⟩, hn0, ?_, hn1, hn2, ?_⟩⟩
        · rw [c2, hup, upd_upd, h2, upd_upd]
        · rw [c3, hux]
        · rw [c4, hun]; exact h4.symm
        · intro hx; rw [← hla, if_neg hx]
        · intro j q hj hbq h6
          have hbu : Bound u.base j q := by
            refine ⟨?_, hbq.2⟩
            rw [hup, upd_ne _ _ hj]; exact hbq.1
          have hxj : u.x j = t.x j := by rw [hux, h3, upd_ne _ _ hj]
          have := lookupExact6_none hu.base.ti hno j q hbu (by rw [hxj]; exact h6)
          rw [hxj] at this
          exact this
  have hA : ((if p.lport = 0 then pcbbind6 c e (setFam t i p false true) i { p with v4 := false } none
      else (none, setFam t i p false true, 0)).1 = none →
      Inv6 c (if p.lport = 0 then pcbbind6 c e (setFam t i p false true) i { p with v4 := false } none
        else (none, setFam t i p false true, 0)).2.1 ∧ ∃ n an, n ≠ 0 ∧ (p.lport ≠ 0 → n = p.lport) ∧
      (p.lport = 0 → InRange c p.opts n) ∧
      (if p.lport = 0 then pcbbind6 c e (setFam t i p false true) i { p with v4 := false } none
        else (none, setFam t i p false true, 0)).2.1.base.pcb = upd t.base.pcb i (some { p with
          v4 := false, lport := n, inHash := true, anon := an }) ∧
      (if p.lport = 0 then pcbbind6 c e (setFam t i p false true) i { p with v4 := false } none
        else (none, setFam t i p false true, 0)).2.1.x = (setFam t i p false true).x ∧
      (if p.lport = 0 then pcbbind6 c e (setFam t i p false true) i { p with v4 := false } none
        else (none, setFam t i p false true, 0)).2.1.base.next = t.base.next) ∧
      ((if p.lport = 0 then pcbbind6 c e (setFam t i p false true) i { p with v4 := false } none
        else (none, setFam t i p false true, 0)).1 ≠ none →
      Inv6 c (if p.lport = 0 then pcbbind6 c e (setFam t i p false true) i { p with v4 := false } none
        else (none, setFam t i p false true, 0)).2.1) := by
    by_cases hl0 : p.lport = 0
    · rw [if_pos hl0]
      refine ⟨?_, ?_⟩
      · intro hb1
        rcases pcbbind6_spec hc (e := e) h1 hp1 hd none with ⟨x, hb2, _⟩ | ⟨_, _, hla, _, a, n, hn, _, hb, ha, _, hr⟩
        · rw [hb1] at hb2; cases hb2
        · obtain ⟨hbi, ⟨an, hbp⟩, hbx, hbn⟩ := hb
          have ha := ha rfl
          subst ha
          refine ⟨hbi, n, an, hn, fun hx => absurd hl0 hx, fun _ => hr (Or.inl rfl), ?_, ?_, hbn.trans h4⟩
          · rw [hbp, h2, upd_upd]
            have : any6.lo = p.laddr := (any6_lo hla).symm
            rw [this]
          · rw [hbx]
            funext j
            by_cases hj : j = i
            · subst hj
              rw [upd_self]
              have : any6.hi = ((setFam t j p false true).x j).lhi := by
                have := congrArg A6.hi hla
                exact this.symm
              rw [this]
            · rw [upd_ne _ _ hj]
      · intro hb1
        rcases pcbbind6_spec hc (e := e) h1 hp1 hd none with ⟨x, _, hs⟩ | ⟨hb2, _⟩
        · exact h1.of_same hs
        · exact absurd hb2 hb1
    · rw [if_neg hl0]
      refine ⟨?_, by intro hx; exact absurd rfl hx⟩
      intro _
      have hin : p.inHash = true := by
        rcases h.bound_or hp hd with hx | hx
        · exact hx
        · exact absurd hx.2.2 hl0
      refine ⟨h1, p.lport, p.anon, hl0, fun _ => rfl, fun hx => absurd hx hl0, ?_, rfl, h4⟩
      rw [h2, ← hin]
  generalize (if p.lport = 0 then pcbbind6 c e (setFam t i p false true) i { p with v4 := false } none
      else (none, setFam t i p false true, 0)) = b at hA
  obtain ⟨b1, u, k⟩ := b
  exact key b1 u hA.1 hA.2

theorem listen6_inv {c : Cfg} (hc : CfgOk c) {e : Env6} {t : Tab6} (h : Inv6 c t) (i : Nat) :
    Inv6 c (listen6 c e t i).2 := by
  unfold listen6
  cases hp : t.base.pcb i with
  | none => exact h
  | some p =>
    simp only
    split
    · exact h
    rename_i hl
    obtain ⟨_, hd⟩ := live_of hl
    split
    · generalize (!(t.x i).v6only) = v
      obtain ⟨h1, h2, _, _⟩ := setFam_spec h hp v (t.x i).v6
      have hp1 : (setFam t i p v (t.x i).v6).base.pcb i = some { p with v4 := v } := by rw [h2, upd_self]
      rcases pcbbind6_spec hc (e := e) h1 hp1 hd none with ⟨x, _, hs⟩ | ⟨_, _, _, _, b, m, _, _, hb, _⟩
      · exact h1.of_same hs
      · exact hb.1
    · exact h

theorem sendto6_inv {c : Cfg} (hc : CfgOk c) {e : Env6} {t : Tab6} (h : Inv6 c t) (i : Nat) (dst : A6) (dport : Nat) :
    Inv6 c (sendto6 c e t i dst dport).2.1 := by
  unfold sendto6
  cases hp : t.base.pcb i with
  | none => exact h
  | some p =>
    simp only
    split
    · exact h
    rename_i hl
    obtain ⟨_, hd⟩ := live_of hl
    split
    · exact h.base_step (sendto_both hc (e := e.e4) h.base i dst.lo dport).1 (sendto_keeps c t.base e.e4 i dst.lo dport)
        (Nat.le_of_eq (sendto_next ..).symm)
    split
    · exact h
    split
    · exact h
    split
    · exact h
    cases (if dst = any6 then e.primary else selectSrc e (la6 (t.x i) p) dst) with
    | none => exact h
    | some s =>
      simp only
      split
      · rename_i hl0
        have hin : p.inHash = false := by
          cases hx : p.inHash with
          | false => rfl
          | true => exact absurd hl0 ((h.base.good i p hp).port hx)
        rcases setport6_spec hc (e := e) h hp hd hin (la6 (t.x i) p) with ⟨x, h1, h2, _⟩ | ⟨h1, n, h2, h3, h4, h5⟩
        · simp only [h1]; exact h.of_same h2
        · obtain ⟨hbi, ⟨an, hbp⟩, _⟩ := h5
          have hself : (setport6 c e t i p (la6 (t.x i) p)).2.base.pcb i = some { p with
              laddr := (la6 (t.x i) p).lo, lport := n, inHash := true, anon := an } := by rw [hbp, upd_self]
          simp only [h1, hself]
          exact hbi
      · exact h

theorem disconnect6_inv {c : Cfg} {t : Tab6} (h : Inv6 c t) (i : Nat) : Inv6 c (disconnect6 c t i).2 := by
  unfold disconnect6
  cases hp : t.base.pcb i with
  | none => exact h
  | some p =>
    simp only
    split
    · exact h
    rename_i hl
    obtain ⟨htw, hd⟩ := live_of hl
    split
    · exact h.base_step (disconnect_both h.base i).1 (disconnect_keeps c t.base i) (Nat.le_of_eq (disconnect_next ..).symm)
    split
    · exact h
    rename_i hf
    have g := h.base.good i p hp
    have hin : p.inHash = true := by
      rcases h.bound_or hp hd with hx | hx
      · exact hx
      · exact absurd hx.2.1 hf
    have gm : ∀ a, Good { p with faddr := 0, fport := 0, laddr := a } := fun a =>
      ⟨g.port, fun _ => rfl, (by intro hx; simp only at hx; rw [hin] at hx; cases hx), g.reuse2,
       (by intro hx; simp only at hx; rw [htw] at hx; cases hx), g.drop⟩
    have h1 : Inv c (rehash c t.base i { p with faddr := 0, fport := 0 }) :=
      ⟨rehash_TI h.base.ti hp hin hin rfl, good_upd (t := t.base) rfl h.base.good (by intro q hq; cases hq; exact gm p.laddr)⟩
    have h2 := setPcb_inv h1 (p0 := { p with faddr := 0, fport := 0 })
      (p := { p with faddr := 0, fport := 0, laddr := 0 }) (upd_self _ _ _) rfl rfl rfl rfl (gm 0)
    refine h.upd (u := ⟨(rehash c t.base i { p with faddr := 0, fport := 0 }).setPcb i
          { p with faddr := 0, fport := 0, laddr := 0 }, upd t.x i { t.x i with lhi := 0, fhi := 0 }⟩)
      h2 (h.base.ti.lt hp) (p := { p with faddr := 0, fport := 0, laddr := 0 }) ?_ rfl rfl (fun _ _ => ⟨rfl, rfl⟩)
    show upd (upd t.base.pcb i _) i _ = _
    rw [upd_upd]

/-- The contents of a new IPv6 socket. -/
def newPcb (o : Opts) (v6only : Bool) : Pcb := ⟨0, 0, 0, 0, false, false, false, none, false, !v6only, false, o⟩

theorem socket6_spec {c : Cfg} {t : Tab6} (h : Inv6 c t) (o : Opts) (v6only : Bool) :
    Inv6 c (socket6 t o v6only) ∧ (socket6 t o v6only).base.next = t.base.next + 1 ∧
      (socket6 t o v6only).base.pcb = upd t.base.pcb t.base.next (some (newPcb o v6only)) ∧
      (socket6 t o v6only).x = upd t.x t.base.next ⟨0, 0, true, true, v6only⟩ := by
  have hi := socket_inv h.base o
  have hp : (t.base.alloc o).pcb t.base.next = some ⟨0, 0, 0, 0, false, false, false, none, false, true, false, o⟩ := by
    simp only [Tab.alloc, upd_self]
  have hpcb : (t.base.alloc o).pcb = upd t.base.pcb t.base.next
      (some ⟨0, 0, 0, 0, false, false, false, none, false, true, false, o⟩) := rfl
  have he : socket6 t o v6only = ⟨(t.base.alloc o).setPcb t.base.next (newPcb o v6only),
      upd t.x t.base.next ⟨0, 0, true, true, v6only⟩⟩ := by
    unfold socket6; simp only [hp]; rfl
  rw [he]
  have hb : Inv c ((t.base.alloc o).setPcb t.base.next (newPcb o v6only)) := setPcb_inv hi hp rfl rfl rfl rfl
    ⟨(by intro hx; cases hx), fun _ => rfl, fun _ _ => ⟨rfl, rfl, rfl⟩, rfl, (by intro hx; cases hx), (by intro hx; cases hx)⟩
  have hup : ((t.base.alloc o).setPcb t.base.next (newPcb o v6only)).pcb =
      upd t.base.pcb t.base.next (some (newPcb o v6only)) := by
    show upd (upd t.base.pcb t.base.next _) _ _ = _
    rw [upd_upd]
  refine ⟨⟨hb, ?_, ?_⟩, rfl, hup, rfl⟩
  · intro j q hj h1 h2
    rw [hup] at hj
    show (upd t.x t.base.next _ j).lhi = 0 ∧ (upd t.x t.base.next _ j).fhi = 0
    by_cases hji : j = t.base.next
    · subst hji; rw [upd_self]; exact ⟨rfl, rfl⟩
    · rw [upd_ne _ _ hji] at hj ⊢; exact h.blank j q hj h1 h2
  · intro j hj
    have hj : t.base.next + 1 ≤ j := hj
    show upd t.x t.base.next _ j = _
    rw [upd_ne _ _ (by omega)]
    exact h.fresh j (by omega)

theorem free_inv6 {c : Cfg} {t : Tab6} (h : Inv6 c t) (i : Nat) : Inv6 c { t with base := free t.base i } :=
  h.base_step (free_both h.base i).1 (free_keeps t.base i) (Nat.le_of_eq (free_next ..).symm)

theorem accept6_inv {c : Cfg} (hc : CfgOk c) {e : Env6} {t : Tab6} (h : Inv6 c t) (o : Opts) (v6only : Bool) (la : A6)
    (lport : Nat) (fa : A6) (fport : Nat) (hl : lport ≠ 0) (hf : DstOk6 e fa) :
    Inv6 c (accept6 c e t o v6only la lport fa fport).2 := by
  unfold accept6
  obtain ⟨h1, h2, h3, h4⟩ := socket6_spec h o v6only
  have hp : (socket6 t o v6only).base.pcb t.base.next = some (newPcb o v6only) := by rw [h3, upd_self]
  simp only [hp]
  cases hu : ins6 c e (socket6 t o v6only) t.base.next (newPcb o v6only) la lport with
  | none => exact free_inv6 h1 _
  | some u =>
    simp only
    obtain ⟨hi, hup, _⟩ := ins6_spec h1 hp rfl
      ⟨fun _ => hl, fun _ => rfl, (by intro hx; cases hx), rfl, (by intro hx; cases hx), (by intro hx; cases hx)⟩ hu
    have hself : u.base.pcb t.base.next = some { newPcb o v6only with laddr := la.lo, lport := lport, inHash := true } := by
      rw [hup, upd_self]
    rcases pcbconnect6_spec hc (e := e) hi hself rfl fa fport hf with ⟨x, hx, hs⟩ | ⟨hx, a, n, hcn, _⟩
    · simp only [hx]; exact free_inv6 (hi.of_same hs) _
    · simp only [hx]; exact hcn.inv

theorem accept4_inv {c : Cfg} (hc : CfgOk c) {e : Env6} {t : Tab6} (h : Inv6 c t) (o : Opts) (v6only : Bool)
    (la lport fa fport : Nat) (hl : lport ≠ 0) (hf : DstOk e.e4 fa) :
    Inv6 c (accept4 c e t o v6only la lport fa fport).2 := by
  unfold accept4
  simp only
  have hb := (accept_both hc (e := e.e4) h.base o la lport fa fport hl hf).1
  have hk := accept_keeps c t.base e.e4 o la lport fa fport
  have hn := accept_next c t.base e.e4 o la lport fa fport
  have h1 := h.base_step hb hk (by omega)
  refine ⟨hb, ?_, ?_⟩
  · intro j q hj h3 h4
    show (upd t.x t.base.next _ j).lhi = 0 ∧ (upd t.x t.base.next _ j).fhi = 0
    by_cases hji : j = t.base.next
    · subst hji; rw [upd_self]; exact ⟨rfl, rfl⟩
    · rw [upd_ne _ _ hji]; exact h1.blank j q hj h3 h4
  · intro j hj
    have hj : (accept c e.e4 t.base o la lport fa fport).2.next ≤ j := hj
    show upd t.x t.base.next _ j = _
    rw [upd_ne _ _ (by omega)]
    exact h.fresh j (by omega)

/-- Calls whose destinations are not mistaken for none. -/
def Label.Ok : Label → Prop
  | .udpConnect6 e _ d _ => if d.mapped then DstOk e.e4 d.lo else DstOk6 e d
  | .tcpConnect6 e _ d _ => DstOk6 e d
  | .accept6 e _ _ _ lp fa _ => lp ≠ 0 ∧ DstOk6 e fa
  | .accept4 e _ _ _ lp fa _ => lp ≠ 0 ∧ DstOk e.e4 fa
  | .v4 l => Label4Ok l
  | _ => True

theorem step_inv6 {c : Cfg} (hc : CfgOk c) {t : Tab6} (h : Inv6 c t) (l : Label) (hl : l.Ok) : Inv6 c (step c t l) := by
  cases l with
  | socket6 o v => exact (socket6_spec h o v).1
  | bind6 e i a n => exact bind6_inv hc h i a n
  | udpConnect6 e i d n => exact udpConnect6_inv hc h i d n hl
  | tcpConnect6 e i d n =>
    show Inv6 c (tcpConnect6 c e t i d n).2
    cases hp : t.base.pcb i with
    | none => unfold tcpConnect6; rw [hp]; exact h
    | some p => exact (tcpConnect6_spec hc h hp d n hl).1
  | listen6 e i => exact listen6_inv hc h i
  | sendto6 e i d n => exact sendto6_inv hc h i d n
  | disconnect6 i => exact disconnect6_inv h i
  | accept6 e o v la lp fa fp => exact accept6_inv hc h o v la lp fa fp hl.1 hl.2
  | accept4 e o v la lp fa fp => exact accept4_inv hc h o v la lp fa fp hl.1 hl.2
  | v4 l => exact h.base_step (step_both hc h.base l hl.1).1 (step4_keeps hc h.base l hl) (step4_next c t.base l hl)

/-- The tables that histories of calls produce. -/
inductive Reach6 (c : Cfg) : Tab6 → Prop
  | empty : Reach6 c Tab6.empty
  | step (t : Tab6) (l : Label) : Reach6 c t → l.Ok → Reach6 c (step c t l)

theorem Reach6.inv {c : Cfg} (hc : CfgOk c) {t : Tab6} (h : Reach6 c t) : Inv6 c t := by
  induction h with
  | empty => exact empty_inv6 c
  | step t l _ hl ih => exact step_inv6 hc ih l hl

theorem Reach6.run {c : Cfg} {ls : List Label} (h : ∀ l ∈ ls, l.Ok) : Reach6 c (run c Tab6.empty ls) := by
  have key : ∀ ls t, Reach6 c t → (∀ l ∈ ls, l.Ok) → Reach6 c (Pcb6.run c t ls) := by
    intro ls
    induction ls with
    | nil => intro t ht _; exact ht
    | cons l ls ih =>
      intro t ht hl
      exact ih _ (.step t l ht (hl l (by simp))) (fun x hx => hl x (List.mem_cons_of_mem _ hx))
  exact key ls _ .empty h

end Verif.Pcb6

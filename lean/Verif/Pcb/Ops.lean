import Verif.Pcb.Lookup
/-! # Port choice, conflicts, and the invariant over histories -/
namespace Verif.Pcb

/-! ## The port search -/

theorem lportLoop_some (used : Nat → Bool) (lo hi : Nat) (hlh : lo ≤ hi) : ∀ (k lp n x : Nat),
    lportLoop used lo hi k lp = (some n, x) → lo ≤ n ∧ n ≤ hi ∧ used n = false
  | 0, _, _, _, h => by cases h
  | k + 1, lp, n, x, h => by
    unfold lportLoop at h
    simp only at h
    generalize hm : (if (lp + 1) % 65536 < lo ∨ (lp + 1) % 65536 > hi then lo else (lp + 1) % 65536) = m at h
    have hmr : lo ≤ m ∧ m ≤ hi := by rw [← hm]; split <;> omega
    cases hu : used m with
    | true =>
      rw [hu] at h
      exact lportLoop_some used lo hi hlh k _ n x h
    | false =>
      rw [hu] at h
      simp only [Bool.false_eq_true, if_false, Prod.mk.injEq, Option.some.injEq] at h
      obtain ⟨h, _⟩ := h
      subst h
      exact ⟨hmr.1, hmr.2, hu⟩

/-- Steps from `lp` to `n` going round the range. -/
def dist (lo hi lp n : Nat) : Nat := if n > lp then n - lp else n + (hi - lo + 1) - lp

theorem lportLoop_none_in (used : Nat → Bool) (lo hi : Nat) (hhi : hi < 65536) : ∀ (k lp x : Nat),
    lo ≤ lp → lp ≤ hi → lportLoop used lo hi k lp = (none, x) →
    ∀ n, lo ≤ n → n ≤ hi → dist lo hi lp n ≤ k → used n = true
  | 0, lp, x, h1, h2, h, n, h3, h4, h5 => by
    unfold dist at h5
    split at h5 <;> omega
  | k + 1, lp, x, h1, h2, h, n, h3, h4, h5 => by
    unfold lportLoop at h
    simp only at h
    generalize hm : (if (lp + 1) % 65536 < lo ∨ (lp + 1) % 65536 > hi then lo else (lp + 1) % 65536) = m at h
    have hm' : m = if lp = hi then lo else lp + 1 := by
      rw [← hm]
      by_cases he : lp = hi
      · rw [if_pos he]
        subst he
        by_cases hx : lp + 1 < 65536
        · rw [Nat.mod_eq_of_lt hx]
          rw [if_pos (by omega)]
        · have : lp + 1 = 65536 := by omega
          rw [this]
          split <;> omega
      · rw [if_neg he, Nat.mod_eq_of_lt (by omega), if_neg (by omega)]
    split at h
    · rename_i hu
      by_cases hnm : n = m
      · rw [hnm]; exact hu
      · have ih := lportLoop_none_in used lo hi hhi k m x (by rw [hm']; split <;> omega)
          (by rw [hm']; split <;> omega) h n h3 h4
        refine ih ?_
        unfold dist at h5 ⊢
        rw [hm'] at hnm ⊢
        by_cases he : lp = hi
        · rw [if_pos he] at hnm ⊢
          split at h5 <;> split <;> omega
        · rw [if_neg he] at hnm ⊢
          split at h5 <;> split <;> omega
    · cases h

theorem lportLoop_none (used : Nat → Bool) (lo hi : Nat) (hlh : lo ≤ hi) (hhi : hi < 65536) (lp x : Nat)
    (h : lportLoop used lo hi (hi - lo + 1) lp = (none, x)) : ∀ n, lo ≤ n → n ≤ hi → used n = true := by
  intro n h3 h4
  unfold lportLoop at h
  simp only at h
  generalize hm : (if (lp + 1) % 65536 < lo ∨ (lp + 1) % 65536 > hi then lo else (lp + 1) % 65536) = m at h
  have hmr : lo ≤ m ∧ m ≤ hi := by rw [← hm]; split <;> omega
  split at h
  · rename_i hu
    by_cases hnm : n = m
    · rw [hnm]; exact hu
    · refine lportLoop_none_in used lo hi hhi (hi - lo) m x hmr.1 hmr.2 h n h3 h4 ?_
      unfold dist
      split <;> omega
  · cases h

/-- The bounds of the range, in order. -/
def Range.minPort (c : Cfg) (r : Range) : Nat := min (r.bounds c).1 (r.bounds c).2
def Range.maxPort (c : Cfg) (r : Range) : Nat := max (r.bounds c).1 (r.bounds c).2

/-- The parameters are usable: ports are 16 bit numbers other than 0. -/
def CfgOk (c : Cfg) : Prop := ∀ r : Range, 1 ≤ r.minPort c ∧ r.maxPort c < 65536

theorem pcbLport_spec {c : Cfg} (hc : CfgOk c) (e : Env) (t : Tab) (o : Opts) (la : Nat) (wild : Bool) :
    Same t (pcbLport c e t o la wild).2 ∧
    (match (pcbLport c e t o la wild).1 with
     | .ok n => (rangeOf o).minPort c ≤ n ∧ n ≤ (rangeOf o).maxPort c ∧ lookupLocal c t la n wild = none
     | .error x => x = .eaddrnotavail ∧ ∀ n, (rangeOf o).minPort c ≤ n → n ≤ (rangeOf o).maxPort c →
         (lookupLocal c t la n wild).isSome = true) := by
  have hr := hc (rangeOf o)
  unfold Range.minPort Range.maxPort at hr
  unfold pcbLport
  simp only
  have e1 : (if ((rangeOf o).bounds c).1 > ((rangeOf o).bounds c).2 then ((rangeOf o).bounds c).2
      else ((rangeOf o).bounds c).1) = (rangeOf o).minPort c := by unfold Range.minPort; split <;> omega
  have e2 : (if ((rangeOf o).bounds c).1 > ((rangeOf o).bounds c).2 then ((rangeOf o).bounds c).1
      else ((rangeOf o).bounds c).2) = (rangeOf o).maxPort c := by unfold Range.maxPort; split <;> omega
  have hlh : (rangeOf o).minPort c ≤ (rangeOf o).maxPort c := by unfold Range.minPort Range.maxPort; omega
  have hhi : (rangeOf o).maxPort c < 65536 := hr.2
  rw [e1, e2]
  generalize (if (c.random && ((rangeOf o).bounds c).1 != ((rangeOf o).bounds c).2) = true then
    ((rangeOf o).minPort c + e.rnd % ((rangeOf o).maxPort c - (rangeOf o).minPort c)) % 65536 else t.lastOf (rangeOf o)) = lp
  generalize hres : lportLoop (fun n => (lookupLocal c t la n wild).isSome) ((rangeOf o).minPort c)
    ((rangeOf o).maxPort c) ((rangeOf o).maxPort c - (rangeOf o).minPort c + 1) lp = res
  obtain ⟨a, b⟩ := res
  cases a with
  | none =>
    refine ⟨setLast_same _ _ _, rfl, ?_⟩
    intro n h1 h2
    exact lportLoop_none _ _ _ hlh hhi lp b hres n h1 h2
  | some n =>
    refine ⟨setLast_same _ _ _, ?_⟩
    have := lportLoop_some _ _ _ hlh _ lp n b hres
    simp only at this ⊢
    refine ⟨this.1, this.2.1, ?_⟩
    simpa using this.2.2

/-! ## What a successful choice of address and port means -/

/-- Local address `a` and port `n` are free for a socket with options `o`: without `SO_REUSEADDR` and
`SO_REUSEPORT` no bound block of that port has an overlapping address; with one of them no unconnected block
is bound to exactly that address and port. -/
def Free (t : Tab) (o : Opts) (a n : Nat) : Prop :=
  ∀ i p, Bound t i p → p.v4 = true → p.lport = n →
    if o.reuseaddr = false ∧ o.reuseport = false then ¬ Overlap a p.laddr
    else ¬ (p.faddr = 0 ∧ p.laddr = a)

theorem lookupLocal_free {c : Cfg} {t : Tab} (h : Inv c t) {o : Opts} {a n : Nat}
    (hn : lookupLocal c t a n (!o.reuseaddr && !o.reuseport) = none) : Free t o a n := by
  intro i p hb h4 hl
  unfold lookupLocal at hn
  split at hn
  · rename_i hw
    have hw : o.reuseaddr = false ∧ o.reuseport = false := by simpa using hw
    rw [if_pos hw]
    intro ho
    exact lookupLocalWild_none h hn i p hb h4 ⟨hl, ho⟩
  · rename_i hw
    have hw : ¬ (o.reuseaddr = false ∧ o.reuseport = false) := by simpa using hw
    rw [if_neg hw]
    rintro ⟨h1, h2⟩
    exact lookupLocalExact_none h hn i p hb h4 ⟨h1, h2, hl⟩

theorem lookupLocal_some {c : Cfg} {t : Tab} (h : Inv c t) {o : Opts} {a n i : Nat}
    (hn : lookupLocal c t a n (!o.reuseaddr && !o.reuseport) = some i) :
    ¬ Free t o a n ∧ ∃ p, Bound t i p ∧ p.v4 = true ∧ p.lport = n ∧ Overlap a p.laddr := by
  unfold lookupLocal at hn
  split at hn
  · rename_i hw
    have hw : o.reuseaddr = false ∧ o.reuseport = false := by simpa using hw
    obtain ⟨p, hb, h4, hl, ho, _⟩ := lookupLocalWild_some h hn
    refine ⟨fun hf => ?_, p, hb, h4, hl, ho⟩
    have := hf i p hb h4 hl
    rw [if_pos hw] at this
    exact this ho
  · rename_i hw
    have hw : ¬ (o.reuseaddr = false ∧ o.reuseport = false) := by simpa using hw
    obtain ⟨p, hb, h4, h1, h2, hl⟩ := lookupLocalExact_some h hn
    refine ⟨fun hf => ?_, p, hb, h4, hl, Or.inr (Or.inr h2.symm)⟩
    have := hf i p hb h4 hl
    rw [if_neg hw] at this
    exact this ⟨h1, h2⟩

/-- No conflict found means free: `INP_REUSEPORT` is never set, so a second binding is never shared. -/
theorem bindConflict_false {c : Cfg} {e : Env} {t : Tab} (h : Inv c t) {o : Opts} {a n : Nat}
    (hn : bindConflict c e t o a n = false) : Free t o a n := by
  unfold bindConflict at hn
  by_cases hf : foreignConflict c e t o a n = true
  · rw [if_pos hf] at hn; cases hn
  rw [if_neg hf] at hn
  cases hl : lookupLocal c t a n (!o.reuseaddr && !o.reuseport) with
  | none => exact lookupLocal_free h hl
  | some i =>
    exfalso
    rw [hl] at hn
    simp only at hn
    by_cases hw : o.reuseaddr = false ∧ o.reuseport = false
    · obtain ⟨_, p, hb, _⟩ := lookupLocal_some h hl
      rw [hb.1] at hn
      simp only [reuseMask, hw.1, hw.2, Bool.and_false, Bool.false_eq_true, if_false, blocks] at hn
      cases ht : p.timewait with
      | true =>
        rw [ht] at hn
        cases hx : p.tw with
        | none => rw [hx] at hn; simp at hn
        | some ar => rw [hx] at hn; simp at hn
      | false => rw [ht] at hn; simp at hn
    · have hw' : (!o.reuseaddr && !o.reuseport) = false := by
        cases h1 : o.reuseaddr <;> cases h2 : o.reuseport <;> simp_all
      rw [hw'] at hl
      obtain ⟨p, hb, h4, h1, h2, h3⟩ := lookupLocalExact_some h (by simpa [lookupLocal] using hl)
      rw [hb.1] at hn
      have hg := h.good i p hb.1
      have : p.timewait = false := by
        cases ht : p.timewait with
        | false => rfl
        | true => exact absurd h1 (hg.tw ht)
      simp [blocks, this, hg.reuse2] at hn

/-- `OFP_EADDRINUSE` means: not free, or a socket of another user overlaps. -/
theorem bindConflict_true {c : Cfg} {e : Env} {t : Tab} (h : Inv c t) {o : Opts} {a n : Nat}
    (hn : bindConflict c e t o a n = true) :
    ¬ Free t o a n ∨ ∃ i p, Bound t i p ∧ p.lport = n ∧ Overlap a p.laddr ∧ p.opts.uid ≠ o.uid := by
  unfold bindConflict at hn
  by_cases hf : foreignConflict c e t o a n = true
  · right
    unfold foreignConflict at hf
    cases hm : e.mcast a with
    | true => rw [hm] at hf; cases hf
    | false =>
      rw [hm] at hf
      simp only [Bool.false_eq_true, if_false] at hf
      cases hl : lookupLocal c t a n true with
      | none => rw [hl] at hf; cases hf
      | some i =>
        rw [hl] at hf
        obtain ⟨p, hb, h4, h5, h6, _⟩ := lookupLocalWild_some h (by simpa [lookupLocal] using hl)
        simp only [hb.1] at hf
        simp at hf
        exact ⟨i, p, hb, h5, h6, fun he => hf.2 he.symm⟩
  · rw [if_neg hf] at hn
    left
    cases hl : lookupLocal c t a n (!o.reuseaddr && !o.reuseport) with
    | none => rw [hl] at hn; cases hn
    | some i => exact (lookupLocal_some h hl).1

/-- The result of `ofp_in_pcbbind_setup`. -/
theorem bindSetup_spec {c : Cfg} (hc : CfgOk c) {e : Env} {t : Tab} (h : Inv c t) (o : Opts)
    (nam : Option (Nat × Nat)) (la : Nat) :
    Same t (bindSetup c e t o nam la).2 ∧
    ∀ a n, (bindSetup c e t o nam la).1 = .ok (a, n) →
      n ≠ 0 ∧ Free t o a n ∧ (nam = none → a = la) ∧
      (∀ addr port, nam = some (addr, port) → a = addr ∧ (port ≠ 0 → n = port)) ∧
      ((nam = none ∨ ∃ addr, nam = some (addr, 0)) → (rangeOf o).minPort c ≤ n ∧ n ≤ (rangeOf o).maxPort c) := by
  unfold bindSetup
  simp only
  have auto : ∀ x, Same t (pcbLport c e t o x (!o.reuseaddr && !o.reuseport)).2 ∧
      ∀ a n, ((pcbLport c e t o x (!o.reuseaddr && !o.reuseport)).1.map fun n => (x, n)) = .ok (a, n) →
        a = x ∧ n ≠ 0 ∧ Free t o a n ∧ (rangeOf o).minPort c ≤ n ∧ n ≤ (rangeOf o).maxPort c := by
    intro x
    have hs := pcbLport_spec hc e t o x (!o.reuseaddr && !o.reuseport)
    refine ⟨hs.1, ?_⟩
    intro a n he
    have h2 := hs.2
    cases hr : (pcbLport c e t o x (!o.reuseaddr && !o.reuseport)).1 with
    | error y => rw [hr] at he; cases he
    | ok m =>
      rw [hr] at he h2
      simp only at h2
      simp only [Except.map] at he
      cases he
      have := (hc (rangeOf o)).1
      exact ⟨rfl, by omega, lookupLocal_free h h2.2.2, h2.1, h2.2.1⟩
  by_cases hp : e.primary = none
  · rw [if_pos hp]
    exact ⟨Same.refl t, by intro a n he; cases he⟩
  rw [if_neg hp]
  by_cases hq : nam.isSome = true ∧ la ≠ 0
  · rw [if_pos hq]
    exact ⟨Same.refl t, by intro a n he; cases he⟩
  rw [if_neg hq]
  cases nam with
  | none =>
    simp only
    refine ⟨(auto la).1, ?_⟩
    intro a n he
    obtain ⟨h1, h2, h3, h4, h5⟩ := (auto la).2 a n he
    exact ⟨h2, h3, fun _ => h1, (by intro _ _ hx; cases hx), fun _ => ⟨h4, h5⟩⟩
  | some np =>
    obtain ⟨addr, port⟩ := np
    simp only
    by_cases hl : e.mcast addr = false ∧ addr ≠ 0 ∧ o.bindany = false ∧ e.isLocal addr = false
    · rw [if_pos hl]
      exact ⟨Same.refl t, by intro a n he; cases he⟩
    rw [if_neg hl]
    by_cases hpo : port ≠ 0
    · rw [if_pos hpo]
      by_cases hcf : bindConflict c e t o addr port = true
      · rw [if_pos hcf]
        exact ⟨Same.refl t, by intro a n he; cases he⟩
      · rw [if_neg hcf]
        refine ⟨Same.refl t, ?_⟩
        intro a n he
        cases he
        refine ⟨hpo, bindConflict_false h (by simpa using hcf), (by intro hx; cases hx), ?_, ?_⟩
        · intro a p hx; cases hx; exact ⟨rfl, fun _ => rfl⟩
        · rintro (hx | ⟨b, hx⟩)
          · cases hx
          · cases hx; exact absurd rfl hpo
    · rw [if_neg hpo]
      refine ⟨(auto addr).1, ?_⟩
      intro a n he
      obtain ⟨h1, h2, h3, h4, h5⟩ := (auto addr).2 a n he
      refine ⟨h2, h3, (by intro hx; cases hx), ?_, fun _ => ⟨h4, h5⟩⟩
      intro a' p hx
      cases hx
      exact ⟨h1, fun hp' => absurd hp' hpo⟩

/-- The result of `ofp_in_pcbconnect_setup`. -/
theorem connectSetup_spec {c : Cfg} (hc : CfgOk c) {e : Env} {t : Tab} (h : Inv c t) (o : Opts)
    (la lp dst dport : Nat) :
    Same t (connectSetup c e t o la lp dst dport).2 ∧
    ∀ a n f, (connectSetup c e t o la lp dst dport).1 = .ok (a, n, f) →
      dport ≠ 0 ∧ (la ≠ 0 → a = la) ∧ (lp ≠ 0 → n = lp) ∧ n ≠ 0 ∧
      f = (if dst = 0 then e.primary.getD 0 else dst) ∧
      (lp = 0 → Free t o a n ∧ (rangeOf o).minPort c ≤ n ∧ n ≤ (rangeOf o).maxPort c) ∧
      (∀ j q, Bound t j q → q.v4 = true → ¬ (q.faddr = f ∧ q.fport = dport ∧ q.laddr = a ∧ q.lport = lp)) := by
  unfold connectSetup
  by_cases hd : dport = 0
  · rw [if_pos hd]
    exact ⟨Same.refl t, by intro a n f he; cases he⟩
  rw [if_neg hd]
  simp only
  generalize hf : (if dst = 0 then e.primary.getD 0 else dst) = fa
  cases hr : (if la = 0 then e.route fa else some la) with
  | none => exact ⟨Same.refl t, by intro a n f he; cases he⟩
  | some x =>
    simp only
    by_cases hx : (lookupHash c t fa dport x lp false).isSome = true
    · rw [if_pos hx]
      exact ⟨Same.refl t, by intro a n f he; cases he⟩
    rw [if_neg hx]
    have hno : lookupExact c t fa dport x lp = none := by
      unfold lookupHash at hx
      cases he : lookupExact c t fa dport x lp with
      | none => rfl
      | some i => rw [he] at hx; simp at hx
    have hla : la ≠ 0 → x = la := by
      intro h0; rw [if_neg h0] at hr; cases hr; rfl
    by_cases hl : lp = 0
    · rw [if_pos hl]
      have hs := bindSetup_spec hc (e := e) h o none x
      refine ⟨hs.1, ?_⟩
      intro a n f he
      cases hb : (bindSetup c e t o none x).1 with
      | error y => rw [hb] at he; cases he
      | ok q =>
        rw [hb] at he
        simp only [Except.map] at he
        cases he
        obtain ⟨h1, h2, h3, _, h5⟩ := hs.2 q.1 q.2 (by rw [hb])
        have h3 := h3 rfl
        refine ⟨hd, fun h0 => by rw [h3]; exact hla h0, fun h0 => absurd hl h0, h1, rfl, fun _ => ⟨h2, h5 (Or.inl rfl)⟩, ?_⟩
        intro j r hb' h4
        rw [h3]
        exact lookupExact_none h hno j r hb' h4
    · rw [if_neg hl]
      refine ⟨Same.refl t, ?_⟩
      intro a n f he
      cases he
      exact ⟨hd, hla, fun _ => rfl, hl, rfl, fun h0 => absurd h0 hl, fun j q hb h4 =>
        lookupExact_none h hno j q hb h4⟩

end Verif.Pcb

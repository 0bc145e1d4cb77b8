import Verif.Pcb6.Keep
/-! # The lookups of IPv6 find exactly what is there -/
namespace Verif.Pcb6
open Verif.Pcb

/-- Two local IPv6 addresses can take the same packet. -/
def Overlap6 (a b : A6) : Prop := a = any6 ∨ b = any6 ∨ a = b

/-- How far a block is from an unconnected one bound to exactly `la`. -/
def distance6 (la : A6) (x : X) (p : Pcb) : Nat :=
  (if fa6 x p = any6 then 0 else 1) + (if la6 x p = la then 0 else 1)

theorem find6_some {t : Tab} {l : List Nat} {f : Nat → Pcb → Bool} {i : Nat}
    (h : (l.find? fun i => match t.pcb i with | none => false | some p => f i p) = some i) :
    i ∈ l ∧ ∃ p, t.pcb i = some p ∧ f i p = true := by
  refine ⟨List.mem_of_find?_eq_some h, ?_⟩
  have := List.find?_some h
  revert this
  cases t.pcb i with
  | none => intro h; cases h
  | some p => intro h; exact ⟨p, rfl, h⟩

theorem find6_none {t : Tab} {l : List Nat} {f : Nat → Pcb → Bool}
    (h : (l.find? fun i => match t.pcb i with | none => false | some p => f i p) = none) :
    ∀ i ∈ l, ∀ p, t.pcb i = some p → f i p = false := by
  intro i hi p hp
  have := List.find?_eq_none.1 h i hi
  rw [hp] at this
  simpa using this

theorem any6_lo {a : A6} (h : a = any6) : a.lo = 0 := by rw [h]; rfl

theorem lookupExact6_some {c : Cfg} {t : Tab6} (h : TI c t.base) {fa la : A6} {fp lp i : Nat}
    (hr : lookupExact6 c t fa fp la lp = some i) :
    ∃ p, Bound t.base i p ∧ (t.x i).v6 = true ∧ fa6 (t.x i) p = fa ∧ p.fport = fp ∧ la6 (t.x i) p = la ∧
      p.lport = lp := by
  obtain ⟨hm, p, hp, hf⟩ := find6_some (f := fun i p =>
    (t.x i).v6 && fa6 (t.x i) p == fa && la6 (t.x i) p == la && p.fport == fp && p.lport == lp) hr
  obtain ⟨q, hq, _⟩ := (h.hmem _ i).1 hm
  have : q = p := by have := hq.1; rw [hp] at this; cases this; rfl
  subst this
  simp at hf
  exact ⟨q, hq, hf.1.1.1.1, hf.1.1.1.2, hf.1.2, hf.1.1.2, hf.2⟩

theorem lookupExact6_none {c : Cfg} {t : Tab6} (h : TI c t.base) {fa la : A6} {fp lp : Nat}
    (hr : lookupExact6 c t fa fp la lp = none) (i : Nat) (p : Pcb) (hb : Bound t.base i p)
    (h6 : (t.x i).v6 = true) :
    ¬ (fa6 (t.x i) p = fa ∧ p.fport = fp ∧ la6 (t.x i) p = la ∧ p.lport = lp) := by
  rintro ⟨h1, h2, h3, h4⟩
  have hf : fa.lo = p.faddr := by rw [← h1]; rfl
  have hm := (h.hmem (c.H fa.lo lp fp) i).2 ⟨p, hb, by rw [hf, h2, h4]⟩
  have := find6_none (f := fun i p =>
    (t.x i).v6 && fa6 (t.x i) p == fa && la6 (t.x i) p == la && p.fport == fp && p.lport == lp) hr i hm p hb.1
  simp [h6, h1, h2, h3, h4] at this

theorem lookupLocalExact6_some {c : Cfg} {t : Tab6} (h : TI c t.base) {la : A6} {lp i : Nat}
    (hr : lookupLocalExact6 c t la lp = some i) :
    ∃ p, Bound t.base i p ∧ (t.x i).v6 = true ∧ fa6 (t.x i) p = any6 ∧ la6 (t.x i) p = la ∧ p.lport = lp := by
  obtain ⟨hm, p, hp, hf⟩ := find6_some (f := fun i p =>
    (t.x i).v6 && fa6 (t.x i) p == any6 && la6 (t.x i) p == la && p.lport == lp) hr
  obtain ⟨q, hq, _⟩ := (h.hmem _ i).1 hm
  have : q = p := by have := hq.1; rw [hp] at this; cases this; rfl
  subst this
  simp at hf
  exact ⟨q, hq, hf.1.1.1, hf.1.1.2, hf.1.2, hf.2⟩

theorem lookupLocalExact6_none {c : Cfg} {t : Tab6} (h : Inv c t.base) {la : A6} {lp : Nat}
    (hr : lookupLocalExact6 c t la lp = none) (i : Nat) (p : Pcb) (hb : Bound t.base i p)
    (h6 : (t.x i).v6 = true) :
    ¬ (fa6 (t.x i) p = any6 ∧ la6 (t.x i) p = la ∧ p.lport = lp) := by
  rintro ⟨h1, h2, h3⟩
  have hf : p.faddr = 0 := any6_lo h1
  have hfp := (h.good i p hb.1).wild hf
  have hm := (h.ti.hmem (c.H 0 lp 0) i).2 ⟨p, hb, by rw [hf, hfp, h3]⟩
  have := find6_none (f := fun i p =>
    (t.x i).v6 && fa6 (t.x i) p == any6 && la6 (t.x i) p == la && p.lport == lp) hr i hm p hb.1
  simp [h6, h1, h2, h3] at this

theorem wildCost6_spec (la : A6) (x : X) (p : Pcb) :
    (wildCost6 la x p = none ↔ ¬ (x.v6 = true ∧ Overlap6 la (la6 x p))) ∧
    (∀ w, wildCost6 la x p = some w → w = distance6 la x p ∧ w ≤ 2) := by
  unfold wildCost6 Overlap6 distance6
  cases x.v6 <;> by_cases h1 : la6 x p = any6 <;> by_cases h2 : la = any6 <;> by_cases h3 : la6 x p = la <;>
    by_cases h4 : fa6 x p = any6 <;> simp_all [eq_comm] <;> omega

/-- The candidates of the best-fit search. -/
def Cand6 (t : Tab6) (la : A6) (i : Nat) (w : Nat) : Prop :=
  ∃ p, t.base.pcb i = some p ∧ wildCost6 la (t.x i) p = some w

theorem bestLoop6_spec (t : Tab6) (la : A6) : ∀ (l : List Nat) (m : Option Nat) (mw : Nat),
    (∀ i, m = some i → Cand6 t la i mw) →
    (bestLoop6 t la l m mw = m ∧ ∀ i ∈ l, ∀ w, Cand6 t la i w → mw ≤ w) ∨
    (∃ i ∈ l, ∃ w, bestLoop6 t la l m mw = some i ∧ Cand6 t la i w ∧ w < mw ∧
      ∀ j ∈ l, ∀ w', Cand6 t la j w' → w ≤ w')
  | [], m, mw, _ => by left; exact ⟨rfl, by simp⟩
  | x :: xs, m, mw, hm => by
    unfold bestLoop6
    have skip : ∀ (hno : ∀ w, Cand6 t la x w → mw ≤ w) (hpos : ∀ w, Cand6 t la x w → mw ≤ w),
        (bestLoop6 t la xs m mw = m ∧ ∀ i ∈ x :: xs, ∀ w, Cand6 t la i w → mw ≤ w) ∨
        (∃ i ∈ x :: xs, ∃ w, bestLoop6 t la xs m mw = some i ∧ Cand6 t la i w ∧ w < mw ∧
          ∀ j ∈ x :: xs, ∀ w', Cand6 t la j w' → w ≤ w') := by
      intro hno _
      rcases bestLoop6_spec t la xs m mw hm with ⟨h1, h2⟩ | ⟨i, hi, w, h1, h2, h3, h4⟩
      · left
        refine ⟨h1, ?_⟩
        intro i hi w hw
        rcases List.mem_cons.1 hi with rfl | hi
        · exact hno w hw
        · exact h2 i hi w hw
      · right
        refine ⟨i, List.mem_cons_of_mem _ hi, w, h1, h2, h3, ?_⟩
        intro j hj w' hw'
        rcases List.mem_cons.1 hj with rfl | hj
        · have := hno w' hw'; omega
        · exact h4 j hj w' hw'
    cases hp : t.base.pcb x with
    | none =>
      have hno : ∀ w, Cand6 t la x w → mw ≤ w := by
        rintro w ⟨p, h1, _⟩; rw [hp] at h1; cases h1
      exact skip hno hno
    | some p =>
      simp only
      cases hw : wildCost6 la (t.x x) p with
      | none =>
        have hno : ∀ w, Cand6 t la x w → mw ≤ w := by
          rintro w ⟨q, h1, h2⟩; rw [hp] at h1; cases h1; rw [hw] at h2; cases h2
        exact skip hno hno
      | some w =>
        have huniq : ∀ w', Cand6 t la x w' → w' = w := by
          rintro w' ⟨q, h1, h2⟩; rw [hp] at h1; cases h1; rw [hw] at h2; cases h2; rfl
        simp only
        by_cases hlt : w < mw
        · rw [if_pos hlt]
          by_cases h0 : w = 0
          · rw [if_pos h0]
            right
            exact ⟨x, by simp, w, rfl, ⟨p, hp, hw⟩, hlt, by intro j _ w' _; omega⟩
          · rw [if_neg h0]
            have hm' : ∀ i, some x = some i → Cand6 t la i w := by
              intro i hi; cases hi; exact ⟨p, hp, hw⟩
            right
            rcases bestLoop6_spec t la xs (some x) w hm' with ⟨h1, h2⟩ | ⟨i, hi, w1, h1, h2, h3, h4⟩
            · refine ⟨x, by simp, w, h1, ⟨p, hp, hw⟩, hlt, ?_⟩
              intro j hj w' hw'
              rcases List.mem_cons.1 hj with rfl | hj
              · exact Nat.le_of_eq (huniq w' hw').symm
              · exact h2 j hj w' hw'
            · refine ⟨i, List.mem_cons_of_mem _ hi, w1, h1, h2, by omega, ?_⟩
              intro j hj w' hw'
              rcases List.mem_cons.1 hj with rfl | hj
              · have := huniq w' hw'; omega
              · exact h4 j hj w' hw'
        · rw [if_neg hlt]
          have hno : ∀ w', Cand6 t la x w' → mw ≤ w' := by
            intro w' hw'; have := huniq w' hw'; omega
          exact skip hno hno

theorem lookupLocal6_wild_some {c : Cfg} {t : Tab6} (h : TI c t.base) {la : A6} {lp i : Nat}
    (hr : lookupLocal6 c t la lp true = some i) :
    ∃ p, Bound t.base i p ∧ (t.x i).v6 = true ∧ p.lport = lp ∧ Overlap6 la (la6 (t.x i) p) ∧
      ∀ j q, Bound t.base j q → (t.x j).v6 = true → q.lport = lp → Overlap6 la (la6 (t.x j) q) →
        distance6 la (t.x i) p ≤ distance6 la (t.x j) q := by
  unfold lookupLocal6 at hr
  simp only [if_true] at hr
  cases hf : findHead c t.base lp with
  | none => rw [hf] at hr; cases hr
  | some hd =>
    rw [hf] at hr
    simp only at hr
    rcases bestLoop6_spec t la hd.pcbs none 3 (by simp) with ⟨h1, _⟩ | ⟨j, hj, w, h1, ⟨p, hp, hw⟩, _, h4⟩
    · rw [h1] at hr; cases hr
    · rw [h1] at hr; cases hr
      obtain ⟨q, hq, hql⟩ := (findHead_mem h lp i).1 ⟨hd, hf, hj⟩
      have : q = p := by have := hq.1; rw [hp] at this; cases this; rfl
      subst this
      have hs := wildCost6_spec la (t.x i) q
      have hc : (t.x i).v6 = true ∧ Overlap6 la (la6 (t.x i) q) := by
        by_contra hn
        have := hs.1.2 hn
        rw [hw] at this; cases this
      refine ⟨q, hq, hc.1, hql, hc.2, ?_⟩
      intro k r hk hv hl ho
      have hs' := wildCost6_spec la (t.x k) r
      cases hwr : wildCost6 la (t.x k) r with
      | none => exact absurd ⟨hv, ho⟩ (hs'.1.1 hwr)
      | some w' =>
        obtain ⟨hd', hf', hm⟩ := (findHead_mem h lp k).2 ⟨r, hk, hl⟩
        rw [hf] at hf'; cases hf'
        have := h4 k hm w' ⟨r, hk.1, hwr⟩
        rw [← (hs.2 w hw).1, ← (hs'.2 w' hwr).1]
        exact this

theorem lookupLocal6_wild_none {c : Cfg} {t : Tab6} (h : TI c t.base) {la : A6} {lp : Nat}
    (hr : lookupLocal6 c t la lp true = none) (i : Nat) (p : Pcb) (hb : Bound t.base i p)
    (h6 : (t.x i).v6 = true) : ¬ (p.lport = lp ∧ Overlap6 la (la6 (t.x i) p)) := by
  rintro ⟨hl, ho⟩
  obtain ⟨hd, hf, hm⟩ := (findHead_mem h lp i).2 ⟨p, hb, hl⟩
  unfold lookupLocal6 at hr
  simp only [if_true] at hr
  rw [hf] at hr
  simp only at hr
  have hs := wildCost6_spec la (t.x i) p
  cases hw : wildCost6 la (t.x i) p with
  | none => exact absurd ⟨h6, ho⟩ (hs.1.1 hw)
  | some w =>
    rcases bestLoop6_spec t la hd.pcbs none 3 (by simp) with ⟨_, h2⟩ | ⟨j, hj, w', h1, _⟩
    · have := h2 i hm w ⟨p, hb.1, hw⟩
      have := (hs.2 w hw).2
      omega
    · rw [h1] at hr; cases hr

/-- An unconnected IPv6 block for this port. -/
def Wild6 (t : Tab6) (a : A6) (lp i : Nat) : Prop :=
  ∃ p, t.base.pcb i = some p ∧ (t.x i).v6 = true ∧ fa6 (t.x i) p = any6 ∧ p.lport = lp ∧ la6 (t.x i) p = a

/-- The loop gives the last block of each kind. -/
theorem wildLoop6_spec (t : Tab6) (la : A6) (hla : la ≠ any6) (lp : Nat) : ∀ (l : List Nat) (e w : Option Nat),
    (((wildLoop6 t la lp l e w).1 = e ∧ ∀ i ∈ l, ¬ Wild6 t la lp i) ∨
      ∃ i ∈ l, (wildLoop6 t la lp l e w).1 = some i ∧ Wild6 t la lp i) ∧
    (((wildLoop6 t la lp l e w).2 = w ∧ ∀ i ∈ l, ¬ Wild6 t any6 lp i) ∨
      ∃ i ∈ l, (wildLoop6 t la lp l e w).2 = some i ∧ Wild6 t any6 lp i)
  | [], e, w => by
    exact ⟨Or.inl ⟨rfl, by simp⟩, Or.inl ⟨rfl, by simp⟩⟩
  | x :: xs, e, w => by
    have lift : ∀ {a : A6} {r s : Option Nat}, ¬ Wild6 t a lp x →
        ((r = s ∧ ∀ i ∈ xs, ¬ Wild6 t a lp i) ∨ ∃ i ∈ xs, r = some i ∧ Wild6 t a lp i) →
        ((r = s ∧ ∀ i ∈ x :: xs, ¬ Wild6 t a lp i) ∨ ∃ i ∈ x :: xs, r = some i ∧ Wild6 t a lp i) := by
      rintro a r s hn (⟨h1, h2⟩ | ⟨i, hi, h1⟩)
      · left
        refine ⟨h1, ?_⟩
        intro i hi
        rcases List.mem_cons.1 hi with rfl | hi
        · exact hn
        · exact h2 i hi
      · exact Or.inr ⟨i, List.mem_cons_of_mem _ hi, h1⟩
    have hit : ∀ {a : A6} {r s : Option Nat}, Wild6 t a lp x →
        ((r = some x ∧ ∀ i ∈ xs, ¬ Wild6 t a lp i) ∨ ∃ i ∈ xs, r = some i ∧ Wild6 t a lp i) →
        ((r = s ∧ ∀ i ∈ x :: xs, ¬ Wild6 t a lp i) ∨ ∃ i ∈ x :: xs, r = some i ∧ Wild6 t a lp i) := by
      rintro a r s hx (⟨h1, h2⟩ | ⟨i, hi, h1⟩)
      · exact Or.inr ⟨x, by simp, h1, hx⟩
      · exact Or.inr ⟨i, List.mem_cons_of_mem _ hi, h1⟩
    unfold wildLoop6
    cases hp : t.base.pcb x with
    | none =>
      have hn : ∀ a, ¬ Wild6 t a lp x := by rintro a ⟨p, h1, _⟩; rw [hp] at h1; cases h1
      have ih := wildLoop6_spec t la hla lp xs e w
      exact ⟨lift (hn la) ih.1, lift (hn any6) ih.2⟩
    | some p =>
      simp only
      by_cases h1 : (t.x x).v6 = false ∨ fa6 (t.x x) p ≠ any6 ∨ p.lport ≠ lp
      · rw [if_pos h1]
        have hn : ∀ a, ¬ Wild6 t a lp x := by
          rintro a ⟨q, h2, h3, h4, h5, _⟩
          rw [hp] at h2; cases h2
          rcases h1 with h1 | h1 | h1
          · rw [h3] at h1; cases h1
          · exact h1 h4
          · exact h1 h5
        have ih := wildLoop6_spec t la hla lp xs e w
        exact ⟨lift (hn la) ih.1, lift (hn any6) ih.2⟩
      · rw [if_neg h1]
        have h6 : (t.x x).v6 = true := by
          cases hv : (t.x x).v6 with
          | true => rfl
          | false => exact absurd (Or.inl hv) h1
        have hfa : fa6 (t.x x) p = any6 := by by_contra hh; exact h1 (Or.inr (Or.inl hh))
        have hlp : p.lport = lp := by by_contra hh; exact h1 (Or.inr (Or.inr hh))
        have hW : ∀ a, Wild6 t a lp x ↔ la6 (t.x x) p = a := by
          intro a
          constructor
          · rintro ⟨q, h2, _, _, _, h7⟩; rw [hp] at h2; cases h2; exact h7
          · intro h7; exact ⟨p, hp, h6, hfa, hlp, h7⟩
        by_cases h2 : la6 (t.x x) p = la
        · rw [if_pos h2]
          have ih := wildLoop6_spec t la hla lp xs (some x) w
          refine ⟨hit ((hW la).2 h2) ih.1, lift ?_ ih.2⟩
          rw [hW, h2]; exact hla
        · rw [if_neg h2]
          by_cases h3 : la6 (t.x x) p = any6
          · rw [if_pos h3]
            have ih := wildLoop6_spec t la hla lp xs e (some x)
            exact ⟨lift (by rw [hW]; exact h2) ih.1, hit ((hW any6).2 h3) ih.2⟩
          · rw [if_neg h3]
            have ih := wildLoop6_spec t la hla lp xs e w
            exact ⟨lift (by rw [hW]; exact h2) ih.1, lift (by rw [hW]; exact h3) ih.2⟩

/-- A socket takes an IPv6 packet from `fa`, `fp` to `la`, `lp`: it is an IPv6 socket and is connected to the sender,
bound to the destination address, or bound to any address. -/
def Takes6 (fa : A6) (fp : Nat) (la : A6) (lp : Nat) (x : X) (p : Pcb) : Class → Prop
  | .connection => x.v6 = true ∧ fa6 x p = fa ∧ p.fport = fp ∧ la6 x p = la ∧ p.lport = lp
  | .address => x.v6 = true ∧ fa6 x p = any6 ∧ la6 x p = la ∧ p.lport = lp
  | .any => x.v6 = true ∧ fa6 x p = any6 ∧ la6 x p = any6 ∧ p.lport = lp

/-- The lookup of an incoming IPv6 packet finds a bound socket of the best class there is. -/
theorem lookupHash6_best {c : Cfg} {t : Tab6} (h : Inv c t.base) (fa : A6) (fp : Nat) (la : A6) (hla : la ≠ any6)
    (lp : Nat) :
    match lookupHash6 c t fa fp la lp true with
    | none => ∀ i p k, Bound t.base i p → ¬ Takes6 fa fp la lp (t.x i) p k
    | some i => ∃ p k, Bound t.base i p ∧ Takes6 fa fp la lp (t.x i) p k ∧
        ∀ j q k', Bound t.base j q → Takes6 fa fp la lp (t.x j) q k' → k.rank ≤ k'.rank := by
  unfold lookupHash6
  cases he : lookupExact6 c t fa fp la lp with
  | some i =>
    simp only
    obtain ⟨p, hb, h1⟩ := lookupExact6_some h.ti he
    exact ⟨p, .connection, hb, h1, by intro j q k' _ _; exact Nat.zero_le _⟩
  | none =>
    have hno : ∀ j q, Bound t.base j q → ¬ Takes6 fa fp la lp (t.x j) q .connection := by
      intro j q hb hm
      exact lookupExact6_none h.ti he j q hb hm.1 hm.2
    simp only [if_true]
    have hin : ∀ {a j q}, Bound t.base j q → (t.x j).v6 = true → fa6 (t.x j) q = any6 → la6 (t.x j) q = a →
        q.lport = lp → j ∈ t.base.hash (c.H 0 lp 0) ∧ Wild6 t a lp j := by
      intro a j q hb h6 h1 h2 h3
      exact ⟨wild_bound h hb (any6_lo h1) h3, q, hb.1, h6, h1, h3, h2⟩
    have hout : ∀ {a i}, i ∈ t.base.hash (c.H 0 lp 0) → Wild6 t a lp i →
        ∃ p, Bound t.base i p ∧ (t.x i).v6 = true ∧ fa6 (t.x i) p = any6 ∧ la6 (t.x i) p = a ∧ p.lport = lp := by
      rintro a i hm ⟨p, h1, h2, h3, h4, h5⟩
      obtain ⟨q, hq, _⟩ := (h.ti.hmem _ i).1 hm
      have : q = p := by have := hq.1; rw [h1] at this; cases this; rfl
      subst this
      exact ⟨q, hq, h2, h3, h5, h4⟩
    obtain ⟨hA, hB⟩ := wildLoop6_spec t la hla lp (t.base.hash (c.H 0 lp 0)) none none
    rcases hA with ⟨h3, h4⟩ | ⟨i, hi, h3, h4⟩
    · rw [h3]
      simp only
      have hna : ∀ j q, Bound t.base j q → ¬ Takes6 fa fp la lp (t.x j) q .address := by
        rintro j q hb ⟨a, b, d, f⟩
        have := hin hb a b d f
        exact h4 j this.1 this.2
      rcases hB with ⟨h5, h6⟩ | ⟨i, hi, h5, h6⟩
      · rw [h5]
        simp only
        intro j q k hb hm
        cases k with
        | connection => exact hno j q hb hm
        | address => exact hna j q hb hm
        | any =>
          have := hin hb hm.1 hm.2.1 hm.2.2.1 hm.2.2.2
          exact h6 j this.1 this.2
      · rw [h5]
        simp only
        obtain ⟨p, hb, h7⟩ := hout hi h6
        refine ⟨p, .any, hb, h7, ?_⟩
        intro j q k' hbq hm
        cases k' with
        | connection => exact absurd hm (hno j q hbq)
        | address => exact absurd hm (hna j q hbq)
        | any => exact Nat.le_refl _
    · rw [h3]
      simp only
      obtain ⟨p, hb, h7⟩ := hout hi h4
      refine ⟨p, .address, hb, h7, ?_⟩
      intro j q k' hbq hm
      cases k' with
      | connection => exact absurd hm (hno j q hbq)
      | address => exact Nat.le_refl _
      | any => exact by decide

end Verif.Pcb6

import Verif.Pcb.Inv
import Mathlib.Data.List.Nodup
/-! # What the lookups find, for every hash function -/
namespace Verif.Pcb

/-- What holds of every block of a reachable table. -/
structure Good (p : Pcb) : Prop where
  /-- a bound block has a port -/
  port : p.inHash = true → p.lport ≠ 0
  /-- no foreign address, no foreign port -/
  wild : p.faddr = 0 → p.fport = 0
  /-- an unbound block that was not dropped is blank -/
  blank : p.inHash = false → p.dropped = false → p.laddr = 0 ∧ p.lport = 0 ∧ p.faddr = 0
  /-- no function sets `INP_REUSEPORT` -/
  reuse2 : p.reuse2 = false
  /-- only connected blocks wait -/
  tw : p.timewait = true → p.faddr ≠ 0
  /-- a dropped block is off the chains -/
  drop : p.dropped = true → p.inHash = false

/-- The invariant of the table. -/
structure Inv (c : Cfg) (t : Tab) : Prop where
  ti : TI c t
  good : ∀ i p, t.pcb i = some p → Good p

/-- Two local addresses can take the same packet. -/
def Overlap (a b : Nat) : Prop := a = 0 ∨ b = 0 ∨ a = b

/-- How far a block is from an unconnected one bound to exactly `laddr`. -/
def distance (laddr : Nat) (p : Pcb) : Nat :=
  (if p.faddr = 0 then 0 else 1) + (if p.laddr = laddr then 0 else 1)

theorem find_some {t : Tab} {l : List Nat} {f : Pcb → Bool} {i : Nat}
    (h : (l.find? fun i => match t.pcb i with | none => false | some p => f p) = some i) :
    i ∈ l ∧ ∃ p, t.pcb i = some p ∧ f p = true := by
  refine ⟨List.mem_of_find?_eq_some h, ?_⟩
  have := List.find?_some h
  revert this
  cases t.pcb i with
  | none => intro h; cases h
  | some p => intro h; exact ⟨p, rfl, h⟩

theorem find_none {t : Tab} {l : List Nat} {f : Pcb → Bool}
    (h : (l.find? fun i => match t.pcb i with | none => false | some p => f p) = none) :
    ∀ i ∈ l, ∀ p, t.pcb i = some p → f p = false := by
  intro i hi p hp
  have := List.find?_eq_none.1 h i hi
  rw [hp] at this
  simpa using this

/-- The exact lookup finds a connection with these four numbers, if there is one. -/
theorem lookupExact_some {c : Cfg} {t : Tab} (h : Inv c t) {fa fp la lp i : Nat}
    (hr : lookupExact c t fa fp la lp = some i) :
    ∃ p, Bound t i p ∧ p.v4 = true ∧ p.faddr = fa ∧ p.fport = fp ∧ p.laddr = la ∧ p.lport = lp := by
  obtain ⟨hm, p, hp, hf⟩ := find_some (f := fun p =>
    p.v4 && p.faddr == fa && p.laddr == la && p.fport == fp && p.lport == lp) hr
  obtain ⟨q, hq, _⟩ := (h.ti.hmem _ i).1 hm
  have : q = p := by have := hq.1; rw [hp] at this; cases this; rfl
  subst this
  simp at hf
  exact ⟨q, hq, hf.1.1.1.1, hf.1.1.1.2, hf.1.2, hf.1.1.2, hf.2⟩

theorem lookupExact_none {c : Cfg} {t : Tab} (h : Inv c t) {fa fp la lp : Nat}
    (hr : lookupExact c t fa fp la lp = none) (i : Nat) (p : Pcb) (hb : Bound t i p) (h4 : p.v4 = true) :
    ¬ (p.faddr = fa ∧ p.fport = fp ∧ p.laddr = la ∧ p.lport = lp) := by
  rintro ⟨rfl, rfl, rfl, rfl⟩
  have hm := (h.ti.hmem (c.H p.faddr p.lport p.fport) i).2 ⟨p, hb, rfl⟩
  have := find_none (f := fun q =>
    q.v4 && q.faddr == p.faddr && q.laddr == p.laddr && q.fport == p.fport && q.lport == p.lport) hr i hm p hb.1
  simp [h4] at this

theorem lookupLocalExact_some {c : Cfg} {t : Tab} (h : Inv c t) {la lp i : Nat}
    (hr : lookupLocalExact c t la lp = some i) :
    ∃ p, Bound t i p ∧ p.v4 = true ∧ p.faddr = 0 ∧ p.laddr = la ∧ p.lport = lp := by
  obtain ⟨hm, p, hp, hf⟩ := find_some (f := fun p =>
    p.v4 && p.faddr == 0 && p.laddr == la && p.lport == lp) hr
  obtain ⟨q, hq, _⟩ := (h.ti.hmem _ i).1 hm
  have : q = p := by have := hq.1; rw [hp] at this; cases this; rfl
  subst this
  simp at hf
  exact ⟨q, hq, hf.1.1.1, hf.1.1.2, hf.1.2, hf.2⟩

theorem lookupLocalExact_none {c : Cfg} {t : Tab} (h : Inv c t) {la lp : Nat}
    (hr : lookupLocalExact c t la lp = none) (i : Nat) (p : Pcb) (hb : Bound t i p) (h4 : p.v4 = true) :
    ¬ (p.faddr = 0 ∧ p.laddr = la ∧ p.lport = lp) := by
  rintro ⟨h1, rfl, rfl⟩
  have hfp := (h.good i p hb.1).wild h1
  have hm := (h.ti.hmem (c.H 0 p.lport 0) i).2 ⟨p, hb, by rw [h1, hfp]⟩
  have := find_none (f := fun q => q.v4 && q.faddr == 0 && q.laddr == p.laddr && q.lport == p.lport) hr i hm p hb.1
  simp [h4, h1] at this

theorem wildCost_spec (la : Nat) (p : Pcb) :
    (wildCost la p = none ↔ ¬ (p.v4 = true ∧ Overlap la p.laddr)) ∧
    (∀ w, wildCost la p = some w → w = distance la p ∧ w ≤ 2) := by
  unfold wildCost Overlap distance
  cases p.v4 <;> by_cases h1 : p.laddr = 0 <;> by_cases h2 : la = 0 <;> by_cases h3 : p.laddr = la <;>
    by_cases h4 : p.faddr = 0 <;> simp_all <;> omega

/-- The candidates of the best-fit search. -/
def Cand (t : Tab) (la : Nat) (i : Nat) (w : Nat) : Prop := ∃ p, t.pcb i = some p ∧ wildCost la p = some w

theorem bestLoop_spec (t : Tab) (la : Nat) : ∀ (l : List Nat) (m : Option Nat) (mw : Nat),
    (∀ i, m = some i → Cand t la i mw) →
    (bestLoop t la l m mw = m ∧ ∀ i ∈ l, ∀ w, Cand t la i w → mw ≤ w) ∨
    (∃ i ∈ l, ∃ w, bestLoop t la l m mw = some i ∧ Cand t la i w ∧ w < mw ∧
      ∀ j ∈ l, ∀ w', Cand t la j w' → w ≤ w')
  | [], m, mw, _ => by left; exact ⟨rfl, by simp⟩
  | x :: xs, m, mw, hm => by
    unfold bestLoop
    have skip : ∀ (hno : ∀ w, Cand t la x w → mw ≤ w) (hpos : ∀ w, Cand t la x w → mw ≤ w),
        (bestLoop t la xs m mw = m ∧ ∀ i ∈ x :: xs, ∀ w, Cand t la i w → mw ≤ w) ∨
        (∃ i ∈ x :: xs, ∃ w, bestLoop t la xs m mw = some i ∧ Cand t la i w ∧ w < mw ∧
          ∀ j ∈ x :: xs, ∀ w', Cand t la j w' → w ≤ w') := by
      intro hno _
      rcases bestLoop_spec t la xs m mw hm with ⟨h1, h2⟩ | ⟨i, hi, w, h1, h2, h3, h4⟩
      · left
        refine ⟨h1, ?_⟩
        intro i hi w hw
        rcases List.mem_cons.1 hi with rfl | hi
        · exact hno w hw
        · exact h2 i hi w hw
      · right
        refine ⟨i, List.mem_cons_of_mem _ hi, w, h1, h2, h3, ?_⟩
        intro j hj w' hw'
        rcases List.mem_cons.1 hj with rfl | hj
        · have := hno w' hw'; omega
        · exact h4 j hj w' hw'
    cases hp : t.pcb x with
    | none =>
      have hno : ∀ w, Cand t la x w → mw ≤ w := by
        rintro w ⟨p, h1, _⟩; rw [hp] at h1; cases h1
      exact skip hno hno
    | some p =>
      simp only
      cases hw : wildCost la p with
      | none =>
        have hno : ∀ w, Cand t la x w → mw ≤ w := by
          rintro w ⟨q, h1, h2⟩; rw [hp] at h1; cases h1; rw [hw] at h2; cases h2
        exact skip hno hno
      | some w =>
        have huniq : ∀ w', Cand t la x w' → w' = w := by
          rintro w' ⟨q, h1, h2⟩; rw [hp] at h1; cases h1; rw [hw] at h2; cases h2; rfl
        simp only
        by_cases hlt : w < mw
        · rw [if_pos hlt]
          by_cases h0 : w = 0
          · rw [if_pos h0]
            right
            exact ⟨x, by simp, w, rfl, ⟨p, hp, hw⟩, hlt, by intro j _ w' _; omega⟩
          · rw [if_neg h0]
            have hm' : ∀ i, some x = some i → Cand t la i w := by
              intro i hi; cases hi; exact ⟨p, hp, hw⟩
            right
            rcases bestLoop_spec t la xs (some x) w hm' with ⟨h1, h2⟩ | ⟨i, hi, w1, h1, h2, h3, h4⟩
            · refine ⟨x, by simp, w, h1, ⟨p, hp, hw⟩, hlt, ?_⟩
              intro j hj w' hw'
              rcases List.mem_cons.1 hj with rfl | hj
              · exact Nat.le_of_eq (huniq w' hw').symm
              · exact h2 j hj w' hw'
            · refine ⟨i, List.mem_cons_of_mem _ hi, w1, h1, h2, by omega, ?_⟩
              intro j hj w' hw'
              rcases List.mem_cons.1 hj with rfl | hj
              · have := huniq w' hw'; omega
              · exact h4 j hj w' hw'
        · rw [if_neg hlt]
          have hno : ∀ w', Cand t la x w' → mw ≤ w' := by
            intro w' hw'; have := huniq w' hw'; omega
          exact skip hno hno

theorem findHead_mem {c : Cfg} {t : Tab} (h : TI c t) (lp i : Nat) :
    (∃ hd, findHead c t lp = some hd ∧ i ∈ hd.pcbs) ↔ ∃ p, Bound t i p ∧ p.lport = lp := by
  rw [← h.pmem lp i]
  unfold findHead
  constructor
  · rintro ⟨hd, hf, hi⟩
    have h2 := List.find?_some hf
    exact ⟨hd, List.mem_of_find?_eq_some hf, by simpa using h2, hi⟩
  · rintro ⟨x, hx, hxp, hi⟩
    cases hf : (t.port (c.P lp)).find? (fun h => h.port == lp) with
    | none =>
      have := List.find?_eq_none.1 hf x hx
      simp [hxp] at this
    | some y =>
      have h2 := List.find?_some hf
      have h2 : y.port = lp := by simpa using h2
      have hy := List.mem_of_find?_eq_some hf
      have : y = x := by
        have := h.ports (c.P lp)
        exact List.inj_on_of_nodup_map this hy hx (by rw [h2, hxp])
      subst this
      exact ⟨y, rfl, hi⟩

theorem lookupLocalWild_some {c : Cfg} {t : Tab} (h : Inv c t) {la lp i : Nat}
    (hr : lookupLocalWild c t la lp = some i) :
    ∃ p, Bound t i p ∧ p.v4 = true ∧ p.lport = lp ∧ Overlap la p.laddr ∧
      ∀ j q, Bound t j q → q.v4 = true → q.lport = lp → Overlap la q.laddr → distance la p ≤ distance la q := by
  unfold lookupLocalWild at hr
  cases hf : findHead c t lp with
  | none => rw [hf] at hr; cases hr
  | some hd =>
    rw [hf] at hr
    simp only at hr
    rcases bestLoop_spec t la hd.pcbs none 6 (by simp) with ⟨h1, _⟩ | ⟨j, hj, w, h1, ⟨p, hp, hw⟩, _, h4⟩
    · rw [h1] at hr; cases hr
    · rw [h1] at hr; cases hr
      obtain ⟨q, hq, hql⟩ := (findHead_mem h.ti lp i).1 ⟨hd, hf, hj⟩
      have : q = p := by have := hq.1; rw [hp] at this; cases this; rfl
      subst this
      have hs := wildCost_spec la q
      have hc : q.v4 = true ∧ Overlap la q.laddr := by
        by_contra hn
        have := hs.1.2 hn
        rw [hw] at this; cases this
      refine ⟨q, hq, hc.1, hql, hc.2, ?_⟩
      intro k r hk hv hl ho
      have hs' := wildCost_spec la r
      cases hwr : wildCost la r with
      | none => exact absurd ⟨hv, ho⟩ (hs'.1.1 hwr)
      | some w' =>
        obtain ⟨hd', hf', hm⟩ := (findHead_mem h.ti lp k).2 ⟨r, hk, hl⟩
        rw [hf] at hf'; cases hf'
        have := h4 k hm w' ⟨r, hk.1, hwr⟩
        rw [← (hs.2 w hw).1, ← (hs'.2 w' hwr).1]
        exact this

theorem lookupLocalWild_none {c : Cfg} {t : Tab} (h : Inv c t) {la lp : Nat}
    (hr : lookupLocalWild c t la lp = none) (i : Nat) (p : Pcb) (hb : Bound t i p) (h4 : p.v4 = true) :
    ¬ (p.lport = lp ∧ Overlap la p.laddr) := by
  rintro ⟨hl, ho⟩
  obtain ⟨hd, hf, hm⟩ := (findHead_mem h.ti lp i).2 ⟨p, hb, hl⟩
  unfold lookupLocalWild at hr
  rw [hf] at hr
  simp only at hr
  have hs := wildCost_spec la p
  cases hw : wildCost la p with
  | none => exact absurd ⟨h4, ho⟩ (hs.1.1 hw)
  | some w =>
    rcases bestLoop_spec t la hd.pcbs none 6 (by simp) with ⟨_, h2⟩ | ⟨j, hj, w', h1, _⟩
    · have := h2 i hm w ⟨p, hb.1, hw⟩
      have := (hs.2 w hw).2
      omega
    · rw [h1] at hr; cases hr

/-- An unconnected block for this port. -/
def Wild (t : Tab) (la lp i : Nat) : Prop := ∃ p, t.pcb i = some p ∧ p.faddr = 0 ∧ p.lport = lp ∧ p.laddr = la

theorem wildLoop_spec (t : Tab) (la lp : Nat) : ∀ (l : List Nat) (e w : Option Nat),
    (∀ i, e = some i → (wildLoop t la lp l e w).1 = some i) ∧
    (e = none → ((wildLoop t la lp l e w).1 = none ∧ (∀ i ∈ l, ¬ Wild t la lp i) ∧
        (((wildLoop t la lp l e w).2 = w ∧ (∀ i ∈ l, ¬ (Wild t 0 lp i))) ∨
          ∃ i ∈ l, (wildLoop t la lp l e w).2 = some i ∧ Wild t 0 lp i)) ∨
      ∃ i ∈ l, (wildLoop t la lp l e w).1 = some i ∧ Wild t la lp i)
  | [], e, w => by
    refine ⟨fun i h => h, fun h => Or.inl ⟨h, by simp, Or.inl ⟨rfl, by simp⟩⟩⟩
  | x :: xs, e, w => by
    have skip (hno : ∀ a, Wild t a lp x → a ≠ la ∧ a ≠ 0) :
        (∀ i, e = some i → (wildLoop t la lp xs e w).1 = some i) ∧
        (e = none → ((wildLoop t la lp xs e w).1 = none ∧ (∀ i ∈ x :: xs, ¬ Wild t la lp i) ∧
            (((wildLoop t la lp xs e w).2 = w ∧ (∀ i ∈ x :: xs, ¬ (Wild t 0 lp i))) ∨
              ∃ i ∈ x :: xs, (wildLoop t la lp xs e w).2 = some i ∧ Wild t 0 lp i)) ∨
          ∃ i ∈ x :: xs, (wildLoop t la lp xs e w).1 = some i ∧ Wild t la lp i) := by
      obtain ⟨h1, h2⟩ := wildLoop_spec t la lp xs e w
      refine ⟨h1, fun he => ?_⟩
      rcases h2 he with ⟨h3, h4, h5⟩ | ⟨i, hi, h3⟩
      · left
        refine ⟨h3, ?_, ?_⟩
        · intro i hi hw
          rcases List.mem_cons.1 hi with rfl | hi
          · exact (hno la hw).1 rfl
          · exact h4 i hi hw
        · rcases h5 with ⟨h5, h6⟩ | ⟨i, hi, h6⟩
          · left
            refine ⟨h5, ?_⟩
            intro i hi hw
            rcases List.mem_cons.1 hi with rfl | hi
            · exact (hno 0 hw).2 rfl
            · exact h6 i hi hw
          · exact Or.inr ⟨i, List.mem_cons_of_mem _ hi, h6⟩
      · exact Or.inr ⟨i, List.mem_cons_of_mem _ hi, h3⟩
    unfold wildLoop
    cases hp : t.pcb x with
    | none => exact skip (by rintro a ⟨p, h1, _⟩; rw [hp] at h1; cases h1)
    | some p =>
      simp only
      by_cases h1 : p.faddr ≠ 0 ∨ p.lport ≠ lp
      · rw [if_pos h1]
        refine skip ?_
        rintro a ⟨q, h2, h3, h4, _⟩
        rw [hp] at h2; cases h2
        rcases h1 with h1 | h1
        · exact absurd h3 h1
        · exact absurd h4 h1
      · rw [if_neg h1]
        have h1' : p.faddr = 0 ∧ p.lport = lp := by
          constructor <;> by_contra hh <;> exact h1 (by tauto)
        cases e with
        | some k =>
          simp only [Option.isSome_some, if_true]
          obtain ⟨h2, _⟩ := wildLoop_spec t la lp xs (some k) w
          exact ⟨h2, fun h => by cases h⟩
        | none =>
          simp only [Option.isSome_none, Bool.false_eq_true, if_false]
          refine ⟨fun i h => (by cases h), fun _ => ?_⟩
          by_cases h2 : p.laddr = la
          · rw [if_pos h2]
            right
            obtain ⟨h3, _⟩ := wildLoop_spec t la lp xs (some x) w
            exact ⟨x, by simp, h3 x rfl, p, hp, h1'.1, h1'.2, h2⟩
          · rw [if_neg h2]
            by_cases h3 : p.laddr = 0
            · rw [if_pos h3]
              have hx : Wild t 0 lp x := ⟨p, hp, h1'.1, h1'.2, h3⟩
              have hnx : ¬ Wild t la lp x := by
                rintro ⟨q, h4, _, _, h7⟩
                rw [hp] at h4; cases h4; exact h2 h7
              obtain ⟨_, h4⟩ := wildLoop_spec t la lp xs none (some x)
              rcases h4 rfl with ⟨h5, h6, h7⟩ | ⟨i, hi, h5⟩
              · left
                refine ⟨h5, ?_, ?_⟩
                · intro i hi
                  rcases List.mem_cons.1 hi with rfl | hi
                  · exact hnx
                  · exact h6 i hi
                · right
                  rcases h7 with ⟨h7, _⟩ | ⟨i, hi, h7⟩
                  · exact ⟨x, by simp, h7, hx⟩
                  · exact ⟨i, List.mem_cons_of_mem _ hi, h7⟩
              · exact Or.inr ⟨i, List.mem_cons_of_mem _ hi, h5⟩
            · rw [if_neg h3]
              refine (skip ?_).2 rfl
              rintro a ⟨q, h4, _, _, h7⟩
              rw [hp] at h4; cases h4
              exact ⟨fun h => h2 (h ▸ h7), fun h => h3 (h ▸ h7)⟩

/-- The three classes of a match, best first: the connection itself, an unconnected block bound to the
destination address, an unconnected block bound to any address. -/
inductive Class where
  | connection | address | any
deriving DecidableEq, Repr

/-- Block `p` matches a packet from `fa`, `fp` to `la`, `lp` in class `k`. -/
def Matches (fa fp la lp : Nat) (p : Pcb) : Class → Prop
  | .connection => p.v4 = true ∧ p.faddr = fa ∧ p.fport = fp ∧ p.laddr = la ∧ p.lport = lp
  | .address => p.faddr = 0 ∧ p.laddr = la ∧ p.lport = lp
  | .any => p.faddr = 0 ∧ p.laddr = 0 ∧ p.lport = lp

def Class.rank : Class → Nat
  | .connection => 0
  | .address => 1
  | .any => 2

theorem wild_bound {c : Cfg} {t : Tab} (h : Inv c t) {lp i : Nat} {p : Pcb} (hp : Bound t i p)
    (h1 : p.faddr = 0) (h2 : p.lport = lp) : i ∈ t.hash (c.H 0 lp 0) := by
  refine (h.ti.hmem _ i).2 ⟨p, hp, ?_⟩
  rw [h1, (h.good i p hp.1).wild h1, h2]

/-- **C67.**  The lookup of an incoming packet finds, for every hash function and every reachable table, a bound
block of the best class there is, and nothing only if no bound block matches. -/
theorem lookupHash_best {c : Cfg} {t : Tab} (h : Inv c t) (fa fp la lp : Nat) :
    match lookupHash c t fa fp la lp true with
    | none => ∀ i p k, Bound t i p → ¬ Matches fa fp la lp p k
    | some i => ∃ p k, Bound t i p ∧ Matches fa fp la lp p k ∧
        ∀ j q k', Bound t j q → Matches fa fp la lp q k' → k.rank ≤ k'.rank := by
  unfold lookupHash
  cases he : lookupExact c t fa fp la lp with
  | some i =>
    simp only
    obtain ⟨p, hb, h1⟩ := lookupExact_some h he
    exact ⟨p, .connection, hb, h1, by intro j q k' _ _; exact Nat.zero_le _⟩
  | none =>
    have hno := lookupExact_none h he
    have hno' : ∀ j q, Bound t j q → ¬ Matches fa fp la lp q .connection := by
      intro j q hb hm
      exact hno j q hb hm.1 hm.2
    simp only [if_true]
    have hw : ∀ {a i}, i ∈ t.hash (c.H 0 lp 0) → Wild t a lp i →
        ∃ p, Bound t i p ∧ p.faddr = 0 ∧ p.laddr = a ∧ p.lport = lp := by
      rintro a i hm ⟨p, h1, h2, h3, h4⟩
      obtain ⟨q, hq, _⟩ := (h.ti.hmem _ i).1 hm
      have : q = p := by have := hq.1; rw [h1] at this; cases this; rfl
      subst this
      exact ⟨q, hq, h2, h4, h3⟩
    obtain ⟨_, h2⟩ := wildLoop_spec t la lp (t.hash (c.H 0 lp 0)) none none
    rcases h2 rfl with ⟨h3, h4, h5⟩ | ⟨i, hi, h3, h4⟩
    · rw [h3]
      simp only
      have hna : ∀ j q, Bound t j q → ¬ Matches fa fp la lp q .address := by
        rintro j q hb ⟨a, b, d⟩
        exact h4 j (wild_bound h hb a d) ⟨q, hb.1, a, d, b⟩
      rcases h5 with ⟨h5, h6⟩ | ⟨i, hi, h5, h6⟩
      · rw [h5]
        simp only
        intro j q k hb hm
        cases k with
        | connection => exact hno' j q hb hm
        | address => exact hna j q hb hm
        | any =>
          obtain ⟨a, b, d⟩ := hm
          exact h6 j (wild_bound h hb a d) ⟨q, hb.1, a, d, b⟩
      · rw [h5]
        simp only
        obtain ⟨p, hb, h7⟩ := hw hi h6
        refine ⟨p, .any, hb, h7, ?_⟩
        intro j q k' hbq hm
        cases k' with
        | connection => exact absurd hm (hno' j q hbq)
        | address => exact absurd hm (hna j q hbq)
        | any => exact Nat.le_refl _
    · rw [h3]
      simp only
      obtain ⟨p, hb, h7⟩ := hw hi h4
      refine ⟨p, .address, hb, h7, ?_⟩
      intro j q k' hbq hm
      cases k' with
      | connection => exact absurd hm (hno' j q hbq)
      | address => exact Nat.le_refl _
      | any => exact by decide

end Verif.Pcb

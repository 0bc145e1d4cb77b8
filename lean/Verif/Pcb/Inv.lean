import Verif.Pcb.Model
import Mathlib.Tactic.ByContra
/-! # The chains: structural invariant and its preservation by the primitives -/
namespace Verif.Pcb

/-- The block with number `i` has the contents `p` and is bound (linked into the chains). -/
def Bound (t : Tab) (i : Nat) (p : Pcb) : Prop := t.pcb i = some p ∧ p.inHash = true

/-- The chains contain exactly the bound blocks, each in the place its fields say. -/
structure TI (c : Cfg) (t : Tab) : Prop where
  fresh : ∀ i, t.next ≤ i → t.pcb i = none
  hnodup : ∀ b, (t.hash b).Nodup
  hmem : ∀ b i, i ∈ t.hash b ↔ ∃ p, Bound t i p ∧ b = c.H p.faddr p.lport p.fport
  ports : ∀ b, ((t.port b).map Head.port).Nodup
  home : ∀ b h, h ∈ t.port b → c.P h.port = b ∧ h.pcbs ≠ [] ∧ h.pcbs.Nodup
  pmem : ∀ q i, (∃ h ∈ t.port (c.P q), h.port = q ∧ i ∈ h.pcbs) ↔ ∃ p, Bound t i p ∧ p.lport = q

/-- Same table up to the port counters. -/
def Same (t u : Tab) : Prop := u.pcb = t.pcb ∧ u.hash = t.hash ∧ u.port = t.port ∧ u.next = t.next

theorem Same.refl (t : Tab) : Same t t := ⟨rfl, rfl, rfl, rfl⟩
theorem Same.trans {t u v : Tab} (h : Same t u) (g : Same u v) : Same t v := by
  obtain ⟨a, b, d, f⟩ := h
  obtain ⟨a', b', d', f'⟩ := g
  exact ⟨a'.trans a, b'.trans b, d'.trans d, f'.trans f⟩

theorem setLast_same (t : Tab) (r : Range) (v : Nat) : Same t (t.setLast r v) := by
  cases r <;> exact ⟨rfl, rfl, rfl, rfl⟩

theorem TI.of_same {c : Cfg} {t u : Tab} (h : TI c t) (s : Same t u) : TI c u := by
  obtain ⟨a, b, d, f⟩ := s
  constructor
  · rw [a, f]; exact h.fresh
  · rw [b]; exact h.hnodup
  · intro x i; rw [b, h.hmem]; simp only [Bound, a]
  · rw [d]; exact h.ports
  · rw [d]; exact h.home
  · intro q i; rw [d, h.pmem]; simp only [Bound, a]

theorem empty_TI (c : Cfg) : TI c Tab.empty := by
  constructor <;> simp [Tab.empty, Bound]

theorem upd_self {α : Type} (f : Nat → α) (i : Nat) (v : α) : upd f i v i = v := by simp [upd]
theorem upd_ne {α : Type} (f : Nat → α) {i j : Nat} (v : α) (h : j ≠ i) : upd f i v j = f j := by simp [upd, h]

theorem TI.lt {c : Cfg} {t : Tab} (h : TI c t) {i : Nat} {p : Pcb} (hp : t.pcb i = some p) : i < t.next := by
  by_contra hn
  have := h.fresh i (by omega)
  rw [this] at hp; cases hp

theorem alloc_TI {c : Cfg} {t : Tab} (h : TI c t) (o : Opts) : TI c (t.alloc o) := by
  have hn : t.pcb t.next = none := h.fresh _ (Nat.le_refl _)
  have hb : ∀ i p, Bound (t.alloc o) i p ↔ Bound t i p := by
    intro i p
    by_cases hi : i = t.next
    · subst hi
      simp only [Bound, Tab.alloc, upd_self, hn]
      constructor
      · rintro ⟨h1, h2⟩
        cases h1; simp at h2
      · rintro ⟨h1, _⟩; cases h1
    · simp only [Bound, Tab.alloc, upd_ne _ _ hi]
  constructor
  · intro i hi
    simp only [Tab.alloc] at hi ⊢
    rw [upd_ne _ _ (by omega)]
    exact h.fresh i (by omega)
  · exact h.hnodup
  · intro b i; simp only [hb]; exact h.hmem b i
  · exact h.ports
  · exact h.home
  · intro q i; simp only [hb]; exact h.pmem q i

/-- Changing a block without touching its key. -/
theorem setPcb_TI {c : Cfg} {t : Tab} (h : TI c t) {i : Nat} {p0 p : Pcb} (hp : t.pcb i = some p0)
    (h1 : p.inHash = p0.inHash) (h2 : p.faddr = p0.faddr) (h3 : p.lport = p0.lport) (h4 : p.fport = p0.fport) :
    TI c (t.setPcb i p) := by
  have key : ∀ (j : Nat) (P : Pcb → Prop), (∀ q q' : Pcb, q.inHash = q'.inHash → q.faddr = q'.faddr →
      q.lport = q'.lport → q.fport = q'.fport → P q → P q') →
      ((∃ q, Bound (t.setPcb i p) j q ∧ P q) ↔ ∃ q, Bound t j q ∧ P q) := by
    intro j P hP
    by_cases hj : j = i
    · subst hj
      simp only [Bound, Tab.setPcb, upd_self, hp]
      constructor
      · rintro ⟨q, ⟨h5, h6⟩, h7⟩
        cases h5
        exact ⟨p0, ⟨rfl, by rw [← h1]; exact h6⟩, hP _ _ h1 h2 h3 h4 h7⟩
      · rintro ⟨q, ⟨h5, h6⟩, h7⟩
        cases h5
        exact ⟨p, ⟨rfl, by rw [h1]; exact h6⟩, hP _ _ h1.symm h2.symm h3.symm h4.symm h7⟩
    · simp only [Bound, Tab.setPcb, upd_ne _ _ hj]
  constructor
  · intro j hj
    have := h.lt hp
    simp only [Tab.setPcb] at hj ⊢
    rw [upd_ne _ _ (by omega)]
    exact h.fresh j hj
  · exact h.hnodup
  · intro b j
    rw [key j (fun q => b = c.H q.faddr q.lport q.fport)
      (by intro q q' a b d f hx; rw [← b, ← d, ← f]; exact hx)]
    exact h.hmem b j
  · exact h.ports
  · exact h.home
  · intro q j
    rw [key j (fun x => x.lport = q) (by intro x x' a b d f hx; rw [← d]; exact hx)]
    exact h.pmem q j

theorem addHead_none {l i : Nat} : ∀ {hs : List Head}, addHead l i hs = none → ∀ h ∈ hs, h.port ≠ l
  | [], _, _, hm => by cases hm
  | h :: hs, he, x, hm => by
    unfold addHead at he
    split at he
    · cases he
    · rename_i hx
      rw [Option.map_eq_none_iff] at he
      rcases List.mem_cons.1 hm with rfl | hm
      · simpa using hx
      · exact addHead_none he x hm

theorem addHead_some {l i : Nat} : ∀ {hs hs' : List Head}, addHead l i hs = some hs' →
    (hs.map Head.port).Nodup →
    hs'.map Head.port = hs.map Head.port ∧
      (∀ h', h' ∈ hs' ↔ (h' ∈ hs ∧ h'.port ≠ l) ∨ ∃ h ∈ hs, h.port = l ∧ h' = ⟨h.port, i :: h.pcbs⟩) ∧
      ∃ h ∈ hs, h.port = l
  | [], hs', he, _ => by cases he
  | h :: hs, hs', he, hn => by
    unfold addHead at he
    simp only [List.map_cons, List.nodup_cons] at hn
    split at he
    · rename_i hx
      have hx : h.port = l := by simpa using hx
      cases he
      refine ⟨by simp, ?_, h, by simp, hx⟩
      intro h'
      have hne : ∀ y ∈ hs, y.port ≠ l := by
        intro y hy he
        exact hn.1 (by rw [hx, ← he]; exact List.mem_map_of_mem hy)
      simp only [List.mem_cons]
      constructor
      · rintro (rfl | hm)
        · right; exact ⟨h, Or.inl rfl, hx, rfl⟩
        · left; exact ⟨Or.inr hm, hne _ hm⟩
      · rintro (⟨rfl | hm, h2⟩ | ⟨y, rfl | hy, h2, h3⟩)
        · exact absurd hx h2
        · exact Or.inr hm
        · exact Or.inl h3
        · exact absurd h2 (hne y hy)
    · rename_i hx
      have hx : h.port ≠ l := by simpa using hx
      rw [Option.map_eq_some_iff] at he
      obtain ⟨r, hr, rfl⟩ := he
      obtain ⟨h1, h2, y, hy, hy'⟩ := addHead_some hr hn.2
      refine ⟨by simp [h1], ?_, y, List.mem_cons_of_mem _ hy, hy'⟩
      intro h'
      simp only [List.mem_cons, h2]
      constructor
      · rintro (rfl | ⟨h3, h4⟩ | ⟨z, hz, h3, h4⟩)
        · exact Or.inl ⟨Or.inl rfl, hx⟩
        · exact Or.inl ⟨Or.inr h3, h4⟩
        · exact Or.inr ⟨z, Or.inr hz, h3, h4⟩
      · rintro (⟨rfl | h3, h4⟩ | ⟨z, rfl | hz, h3, h4⟩)
        · exact Or.inl rfl
        · exact Or.inr (Or.inl ⟨h3, h4⟩)
        · exact absurd h3 hx
        · exact Or.inr (Or.inr ⟨z, hz, h3, h4⟩)

theorem inshash_pcb {c : Cfg} {e : Env} {t u : Tab} {i : Nat} {p : Pcb} (hu : inshash c e t i p = some u) :
    u.pcb = upd t.pcb i (some { p with inHash := true }) ∧ u.next = t.next := by
  unfold inshash at hu
  simp only [Option.map_eq_some_iff] at hu
  obtain ⟨hs, _, rfl⟩ := hu
  exact ⟨rfl, rfl⟩

theorem inshash_TI {c : Cfg} {e : Env} {t u : Tab} (h : TI c t) {i : Nat} {p0 p : Pcb} (hp : t.pcb i = some p0)
    (h0 : p0.inHash = false) (hu : inshash c e t i p = some u) : TI c u := by
  have hpu := inshash_pcb hu
  have nb : ∀ q, ¬ Bound t i q := by
    rintro q ⟨h1, h2⟩
    rw [hp] at h1; cases h1; rw [h0] at h2; cases h2
  have key : ∀ (j : Nat) (P : Pcb → Prop), (∃ q, Bound u j q ∧ P q) ↔
      (j = i ∧ P { p with inHash := true }) ∨ ∃ q, Bound t j q ∧ P q := by
    intro j P
    by_cases hj : j = i
    · subst hj
      simp only [Bound, hpu.1, upd_self]
      constructor
      · rintro ⟨q, ⟨h5, h6⟩, h7⟩
        cases h5
        exact Or.inl ⟨trivial, h7⟩
      · rintro (⟨_, h7⟩ | ⟨q, h5, h7⟩)
        · exact ⟨_, ⟨rfl, rfl⟩, h7⟩
        · exact absurd h5 (nb q)
    · simp only [Bound, hpu.1, upd_ne _ _ hj]
      simp [hj]
  have hnot : ∀ b, i ∉ t.hash b := by
    intro b hm
    obtain ⟨q, hq, _⟩ := (h.hmem b i).1 hm
    exact nb q hq
  have hnotp : ∀ b x, x ∈ t.port b → i ∉ x.pcbs := by
    intro b x hx hm
    have hh := h.home b x hx
    obtain ⟨q, hq, _⟩ := (h.pmem x.port i).1 ⟨x, by rw [hh.1]; exact hx, rfl, hm⟩
    exact nb q hq
  -- the port chain
  unfold inshash at hu
  simp only [Option.map_eq_some_iff] at hu
  obtain ⟨hs, hhs, rfl⟩ := hu
  have hport : (hs.map Head.port).Nodup ∧ (∀ x ∈ hs, c.P x.port = c.P p.lport ∧ x.pcbs ≠ [] ∧ x.pcbs.Nodup) ∧
      ∀ q j, (∃ x ∈ hs, x.port = q ∧ j ∈ x.pcbs) ↔
        (j = i ∧ q = p.lport) ∨ ∃ x ∈ t.port (c.P p.lport), x.port = q ∧ j ∈ x.pcbs := by
    have hn := h.ports (c.P p.lport)
    split at hhs
    · rename_i hs' ha
      cases hhs
      obtain ⟨h1, h2, y, hy, hy'⟩ := addHead_some ha hn
      refine ⟨by rw [h1]; exact hn, ?_, ?_⟩
      · intro x hx
        rcases (h2 x).1 hx with ⟨hx, _⟩ | ⟨z, hz, h3, rfl⟩
        · exact h.home _ x hx
        · have := h.home _ z hz
          refine ⟨by rw [h3], by simp, ?_⟩
          exact List.nodup_cons.2 ⟨hnotp _ z hz, this.2.2⟩
      · intro q j
        constructor
        · rintro ⟨x, hx, hxq, hj⟩
          rcases (h2 x).1 hx with ⟨hx, _⟩ | ⟨z, hz, h3, rfl⟩
          · exact Or.inr ⟨x, hx, hxq, hj⟩
          · rcases List.mem_cons.1 hj with rfl | hj
            · exact Or.inl ⟨rfl, by rw [← hxq]; exact h3⟩
            · exact Or.inr ⟨z, hz, hxq, hj⟩
        · rintro (⟨rfl, rfl⟩ | ⟨x, hx, hxq, hj⟩)
          · exact ⟨⟨y.port, j :: y.pcbs⟩, (h2 _).2 (Or.inr ⟨y, hy, hy', rfl⟩), hy', by simp⟩
          · by_cases hl : x.port = p.lport
            · exact ⟨⟨x.port, i :: x.pcbs⟩, (h2 _).2 (Or.inr ⟨x, hx, hl, rfl⟩), hxq,
                List.mem_cons_of_mem _ hj⟩
            · exact ⟨x, (h2 _).2 (Or.inl ⟨hx, hl⟩), hxq, hj⟩
    · rename_i ha
      split at hhs
      · cases hhs
        have hne := addHead_none ha
        refine ⟨?_, ?_, ?_⟩
        · simp only [List.map_cons, List.nodup_cons]
          refine ⟨?_, hn⟩
          intro hm
          obtain ⟨x, hx, hx'⟩ := List.mem_map.1 hm
          exact hne x hx hx'
        · intro x hx
          rcases List.mem_cons.1 hx with rfl | hx
          · simp
          · exact h.home _ x hx
        · intro q j
          simp only [List.mem_cons]
          constructor
          · rintro ⟨x, rfl | hx, hxq, hj⟩
            · left; simp at hj; exact ⟨hj, hxq.symm⟩
            · exact Or.inr ⟨x, hx, hxq, hj⟩
          · rintro (⟨rfl, rfl⟩ | ⟨x, hx, hxq, hj⟩)
            · exact ⟨_, Or.inl rfl, rfl, by simp⟩
            · exact ⟨x, Or.inr hx, hxq, hj⟩
      · cases hhs
  constructor
  · intro j hj
    have := h.lt hp
    rw [hpu.1, upd_ne _ _ (by simp only at hj; omega)]
    exact h.fresh j hj
  · intro b
    simp only [upd]
    split
    · rename_i hb; subst hb
      exact List.nodup_cons.2 ⟨hnot _, h.hnodup _⟩
    · exact h.hnodup b
  · intro b j
    rw [key j (fun q => b = c.H q.faddr q.lport q.fport), ← h.hmem b j]
    simp only [upd]
    split
    · rename_i hb; subst hb
      simp
    · rename_i hb
      simp [hb]
  · intro b
    simp only [upd]
    split
    · exact hport.1
    · exact h.ports b
  · intro b x hx
    simp only [upd] at hx
    split at hx
    · rename_i hb; subst hb
      exact hport.2.1 x hx
    · exact h.home b x hx
  · intro q j
    rw [key j (fun x => x.lport = q)]
    simp only [upd]
    split
    · rename_i hb
      rw [hport.2.2 q j, ← h.pmem q j, hb]
      simp only [eq_comm]
    · rename_i hb
      rw [h.pmem q j]
      constructor
      · exact Or.inr
      · rintro (⟨_, rfl⟩ | hx)
        · exact absurd rfl hb
        · exact hx

theorem erase_mem {l : List Nat} (hn : l.Nodup) (i j : Nat) : j ∈ l.erase i ↔ j ≠ i ∧ j ∈ l :=
  hn.mem_erase_iff

theorem rehash_TI {c : Cfg} {t : Tab} (h : TI c t) {i : Nat} {p0 p : Pcb} (hp : t.pcb i = some p0)
    (h0 : p0.inHash = true) (h1 : p.inHash = true) (hl : p.lport = p0.lport) : TI c (rehash c t i p) := by
  have key : ∀ (j : Nat) (P : Pcb → Prop), (∃ q, Bound (rehash c t i p) j q ∧ P q) ↔
      (j = i ∧ P p) ∨ (j ≠ i ∧ ∃ q, Bound t j q ∧ P q) := by
    intro j P
    by_cases hj : j = i
    · subst hj
      simp only [Bound, rehash, upd_self]
      constructor
      · rintro ⟨q, ⟨h5, h6⟩, h7⟩
        cases h5
        exact Or.inl ⟨trivial, h7⟩
      · rintro (⟨_, h7⟩ | ⟨hx, _⟩)
        · exact ⟨_, ⟨rfl, h1⟩, h7⟩
        · exact absurd rfl hx
    · simp only [Bound, rehash, upd_ne _ _ hj, unhash]
      simp [hj]
  constructor
  · intro j hj
    have := h.lt hp
    simp only [rehash, unhash] at hj ⊢
    rw [upd_ne _ _ (by omega)]
    exact h.fresh j hj
  · intro b
    simp only [rehash, unhash, upd]
    split
    · exact List.nodup_cons.2 ⟨by rw [erase_mem (h.hnodup _)]; simp, (h.hnodup _).erase _⟩
    · exact (h.hnodup b).erase _
  · intro b j
    rw [key j (fun q => b = c.H q.faddr q.lport q.fport), ← h.hmem b j]
    simp only [rehash, unhash, upd]
    split
    · rename_i hb; subst hb
      simp only [List.mem_cons, erase_mem (h.hnodup _)]
      simp
    · rename_i hb
      rw [erase_mem (h.hnodup _)]
      simp [hb]
  · exact h.ports
  · exact h.home
  · intro q j
    rw [key j (fun x => x.lport = q)]
    show (∃ h ∈ t.port (c.P q), h.port = q ∧ j ∈ h.pcbs) ↔ _
    rw [h.pmem q j]
    by_cases hj : j = i
    · subst hj
      simp only [Bound, hp]
      constructor
      · rintro ⟨x, ⟨h5, _⟩, h7⟩
        cases h5
        exact Or.inl ⟨by trivial, by rw [hl]; exact h7⟩
      · rintro (⟨_, h7⟩ | ⟨hx, _⟩)
        · exact ⟨_, ⟨rfl, h0⟩, by rw [← hl]; exact h7⟩
        · exact absurd rfl hx
    · simp [hj]

theorem rehash_pcb (c : Cfg) (t : Tab) (i : Nat) (p : Pcb) :
    (rehash c t i p).pcb = upd t.pcb i (some p) ∧ (rehash c t i p).next = t.next := ⟨rfl, rfl⟩

/-- Taking a bound block off the chains; its entry becomes `v`, which is not bound. -/
theorem remove_TI {c : Cfg} {t : Tab} (h : TI c t) {i : Nat} {p0 : Pcb} (hp : t.pcb i = some p0)
    (v : Option Pcb) (hv : ∀ p, v = some p → p.inHash = false) :
    TI c { unport (unhash t i) i with pcb := upd t.pcb i v } := by
  have key : ∀ (j : Nat) (P : Pcb → Prop),
      (∃ q, Bound { unport (unhash t i) i with pcb := upd t.pcb i v } j q ∧ P q) ↔
      (j ≠ i ∧ ∃ q, Bound t j q ∧ P q) := by
    intro j P
    by_cases hj : j = i
    · subst hj
      simp only [Bound, upd_self]
      constructor
      · rintro ⟨q, ⟨h5, h6⟩, h7⟩
        have := hv q h5
        rw [this] at h6; cases h6
      · rintro ⟨hx, _⟩
        exact absurd rfl hx
    · simp only [Bound, upd_ne _ _ hj]
      simp [hj]
  have hpm : ∀ b x', x' ∈ (unport (unhash t i) i).port b ↔
      (x' ∈ t.port b ∧ i ∉ x'.pcbs) ∨
      ∃ x ∈ t.port b, i ∈ x.pcbs ∧ x.pcbs.erase i ≠ [] ∧ x' = ⟨x.port, x.pcbs.erase i⟩ := by
    intro b x'
    simp only [unport, unhash, List.mem_filterMap]
    constructor
    · rintro ⟨x, hx, he⟩
      split at he
      · rename_i hi
        split at he
        · cases he
        · rename_i hne
          cases he
          exact Or.inr ⟨x, hx, hi, hne, rfl⟩
      · rename_i hi
        cases he
        exact Or.inl ⟨hx, hi⟩
    · rintro (⟨hx, hi⟩ | ⟨x, hx, hi, hne, rfl⟩)
      · exact ⟨x', hx, by simp [hi]⟩
      · exact ⟨x, hx, by simp [hi, hne]⟩
  have hsub : ∀ b, (((unport (unhash t i) i).port b).map Head.port).Sublist ((t.port b).map Head.port) := by
    intro b
    simp only [unport, unhash]
    induction t.port b with
    | nil => simp
    | cons x xs ih =>
      simp only [List.filterMap_cons]
      split
      · exact ih.trans (by simp)
      · rename_i y hy
        split at hy
        · split at hy
          · cases hy
          · cases hy; simpa using ih
        · cases hy; simpa using ih
  constructor
  · intro j hj
    have := h.lt hp
    simp only [unport, unhash] at hj ⊢
    rw [upd_ne _ _ (by omega)]
    exact h.fresh j hj
  · intro b
    exact (h.hnodup b).erase _
  · intro b j
    rw [key j (fun q => b = c.H q.faddr q.lport q.fport), ← h.hmem b j]
    exact erase_mem (h.hnodup b) i j
  · intro b
    exact (hsub b).nodup (h.ports b)
  · intro b x' hx'
    rcases (hpm b x').1 hx' with ⟨hx, _⟩ | ⟨x, hx, hi, hne, rfl⟩
    · exact h.home b x' hx
    · have := h.home b x hx
      exact ⟨this.1, hne, this.2.2.erase _⟩
  · intro q j
    rw [key j (fun x => x.lport = q), ← h.pmem q j]
    constructor
    · rintro ⟨x', hx', hq, hj⟩
      rcases (hpm _ x').1 hx' with ⟨hx, hi⟩ | ⟨x, hx, hi, hne, rfl⟩
      · exact ⟨fun he => hi (he ▸ hj), x', hx, hq, hj⟩
      · have hn := (h.home _ x hx).2.2
        have := (erase_mem hn i j).1 hj
        exact ⟨this.1, x, hx, hq, this.2⟩
    · rintro ⟨hj, x, hx, hq, hm⟩
      have hn := (h.home _ x hx).2.2
      by_cases hi : i ∈ x.pcbs
      · have hm' := (erase_mem hn i j).2 ⟨hj, hm⟩
        exact ⟨⟨x.port, x.pcbs.erase i⟩, (hpm _ _).2 (Or.inr ⟨x, hx, hi, List.ne_nil_of_mem hm', rfl⟩), hq, hm'⟩
      · exact ⟨x, (hpm _ _).2 (Or.inl ⟨hx, hi⟩), hq, hm⟩

/-- A block that is not bound changes to `v`, not bound. -/
theorem loose_TI {c : Cfg} {t : Tab} (h : TI c t) {i : Nat} {p0 : Pcb} (hp : t.pcb i = some p0)
    (h0 : p0.inHash = false) (v : Option Pcb) (hv : ∀ p, v = some p → p.inHash = false) :
    TI c { t with pcb := upd t.pcb i v } := by
  have key : ∀ (j : Nat) (q : Pcb), Bound { t with pcb := upd t.pcb i v } j q ↔ Bound t j q := by
    intro j q
    by_cases hj : j = i
    · subst hj
      simp only [Bound, upd_self, hp]
      constructor
      · rintro ⟨h5, h6⟩
        rw [hv q h5] at h6; cases h6
      · rintro ⟨h5, h6⟩
        cases h5; rw [h0] at h6; cases h6
    · simp only [Bound, upd_ne _ _ hj]
  constructor
  · intro j hj
    have := h.lt hp
    simp only at hj ⊢
    rw [upd_ne _ _ (by omega)]
    exact h.fresh j hj
  · exact h.hnodup
  · intro b j; simp only [key]; exact h.hmem b j
  · exact h.ports
  · exact h.home
  · intro q j; simp only [key]; exact h.pmem q j

end Verif.Pcb

import Verif.Ip6.Spec
/-! # Invariants of the IPv6 path -/
namespace Verif.Ip6
open Verif Radix

/-- Weight of the waiting packets of a record. -/
def hw (w : Nat × Pkt → Nat) (l : List (Nat × Pkt)) : Nat := (l.map w).sum
/-- Weight of all waiting packets. -/
def W (w : Nat × Pkt → Nat) (s : St) : Nat := ((List.range s.nnh).map (fun i => hw w (s.nh i).hold)).sum

theorem hw_one (l : List (Nat × Pkt)) : hw (fun _ => 1) l = l.length := by
  induction l with
  | nil => rfl
  | cons a l ih => simp only [hw, List.map_cons, List.sum_cons, List.length_cons] at *; omega

theorem hw_cnt (j : Nat) (l : List (Nat × Pkt)) :
    hw (fun x => if x.1 = j then 1 else 0) l = l.countP (fun x => decide (x.1 = j)) := by
  induction l with
  | nil => rfl
  | cons a l ih =>
    simp only [hw, List.map_cons, List.sum_cons, List.countP_cons] at *
    rw [ih]; by_cases h : a.1 = j <;> simp [h]; omega

theorem hw_reverse (w) (l : List (Nat × Pkt)) : hw w l.reverse = hw w l := by
  simp [hw, List.sum_reverse]

theorem waitingAll_eq (s : St) : waitingAll s = W (fun _ => 1) s := by
  unfold waitingAll W; congr 1; apply List.map_congr_left; intro i _; rw [hw_one]

theorem waiting_eq (j : Nat) (s : St) : waiting j s = W (fun x => if x.1 = j then 1 else 0) s := by
  unfold waiting W heldAt; congr 1; apply List.map_congr_left; intro i _; rw [hw_cnt]

theorem sum_update (f g : Nat → Nat) (i : Nat) (h : ∀ j, j ≠ i → g j = f j) : ∀ n, i < n →
    ((List.range n).map g).sum + f i = ((List.range n).map f).sum + g i := by
  intro n
  induction n with
  | zero => intro h; omega
  | succ n ih =>
    intro hi
    simp only [List.range_succ, List.map_append, List.sum_append, List.map_cons, List.map_nil, List.sum_cons,
      List.sum_nil]
    by_cases e : i = n
    · subst e
      have : (List.range i).map g = (List.range i).map f := by
        apply List.map_congr_left; intro j hj; exact h j (by have := List.mem_range.1 hj; omega)
      rw [this]; omega
    · have := ih (by omega); rw [h n (by omega)]; omega

@[simp] theorem emit_tab (s : St) (e) : (s.emit e).tab = s.tab := rfl
@[simp] theorem emit_nh (s : St) (e) : (s.emit e).nh = s.nh := rfl
@[simp] theorem emit_nnh (s : St) (e) : (s.emit e).nnh = s.nnh := rfl
@[simp] theorem emit_ents (s : St) (e) : (s.emit e).ents = s.ents := rfl
@[simp] theorem emit_next (s : St) (e) : (s.emit e).next = s.next := rfl
@[simp] theorem emit_evs (s : St) (e) : (s.emit e).evs = s.evs ++ [e] := rfl
@[simp] theorem alloc_tab (s : St) : s.alloc.tab = s.tab := rfl
@[simp] theorem alloc_nh (s : St) : s.alloc.nh = s.nh := rfl
@[simp] theorem alloc_nnh (s : St) : s.alloc.nnh = s.nnh := rfl
@[simp] theorem alloc_ents (s : St) : s.alloc.ents = s.ents := rfl
@[simp] theorem alloc_next (s : St) : s.alloc.next = s.next + 1 := rfl
@[simp] theorem alloc_evs (s : St) : s.alloc.evs = s.evs ++ [.alloc s.next] := rfl
@[simp] theorem setNh_tab (s : St) (i n) : (s.setNh i n).tab = s.tab := rfl
@[simp] theorem setNh_nnh (s : St) (i n) : (s.setNh i n).nnh = s.nnh := rfl
@[simp] theorem setNh_ents (s : St) (i n) : (s.setNh i n).ents = s.ents := rfl
@[simp] theorem setNh_next (s : St) (i n) : (s.setNh i n).next = s.next := rfl
@[simp] theorem setNh_evs (s : St) (i n) : (s.setNh i n).evs = s.evs := rfl
@[simp] theorem setNh_same (s : St) (i n) : (s.setNh i n).nh i = n := by simp [St.setNh]
theorem setNh_other (s : St) (i n j) (h : j ≠ i) : (s.setNh i n).nh j = s.nh j := by simp [St.setNh, h]

theorem W_setNh (w) (s : St) (i : Nat) (n : Nh) (hi : i < s.nnh) :
    W w (s.setNh i n) + hw w (s.nh i).hold = W w s + hw w n.hold := by
  have := sum_update (fun j => hw w (s.nh j).hold) (fun j => hw w ((s.setNh i n).nh j).hold) i
    (fun j hj => by show hw w ((s.setNh i n).nh j).hold = _; rw [setNh_other s i n j hj]) s.nnh hi
  simp only [setNh_same] at this
  exact this

theorem W_congr (w) (s s' : St) (h1 : s'.nh = s.nh) (h2 : s'.nnh = s.nnh) : W w s' = W w s := by
  unfold W; rw [h1, h2]

/-! ## The table -/

/-- The table entry an operation refers to. -/
theorem look_spec {nodes s T} (env : Env) (hi : Inv nodes s T) (a : Addr) (ha : a.length = 16) :
    Uses T a (look env s a) := by
  obtain ⟨r, e, h⟩ := lookup6_is_lpm hi.hist env.g a ha
  have : look env s a = r := by unfold look; rw [e]; cases r <;> rfl
  rw [this]; exact h

theorem uses_mem {T : Spec.Table Nat} {a i} (h : Uses T a (some i)) :
    ∃ n, n ≤ (Spec.bits6 a).length ∧ T ((Spec.bits6 a).take n) = some i := by
  rcases h with ⟨d, n, h1, h2, _, h4⟩ | ⟨_, h⟩
  · cases h4; exact ⟨n, h1, h2⟩
  · cases h

theorem Inv.dead {nodes s T} (hi : Inv nodes s T) : ∀ i, (∀ p, T p ≠ some i) → (s.nh i).hold = [] := by
  intro i h
  cases e : (s.nh i).hold with
  | nil => rfl
  | cons x l =>
    obtain ⟨_, p, hp, _⟩ := hi.fits i x (by rw [e]; exact List.mem_cons_self ..)
    exact absurd hp (h p)

theorem look_lt {nodes s T} {env : Env} (hi : Inv nodes s T) {a : Addr} (ha : a.length = 16) {i}
    (h : look env s a = some i) : i < s.nnh := by
  have := look_spec env hi a ha
  rw [h] at this
  obtain ⟨n, _, h2⟩ := uses_mem this
  exact hi.ids _ _ h2

theorem uses_unique {T : Spec.Table Nat} {a : Addr} {r r' : Option Nat} (h : Uses T a r) (h' : Uses T a r') : r = r' := by
  rcases h with ⟨d, n, h1, h2, h3, h4⟩ | ⟨h3, h4⟩ <;> rcases h' with ⟨d', n', h1', h2', h3', h4'⟩ | ⟨h3', h4'⟩
  · have : n = n' := by
      rcases Nat.lt_trichotomy n n' with h | h | h
      · rw [h3 n' h h1'] at h2'; cases h2'
      · exact h
      · rw [h3' n h h1] at h2; cases h2
    subst this; rw [h2] at h2'; cases h2'; rw [h4, h4']
  · rw [h3' n h1] at h2; cases h2
  · rw [h3 n' h1'] at h2'; cases h2'
  · rw [h4, h4']

theorem look_eq {nodes s T} {env : Env} (hi : Inv nodes s T) {a : Addr} (ha : a.length = 16) {r} (h : Uses T a r) :
    look env s a = r := uses_unique (look_spec env hi a ha) h

/-- The two outcomes of adding a route. -/
theorem addRoute_cases {nodes s T} (env : Env) (hi : Inv nodes s T) (dst : Addr) (hd : dst.length = 16) (len : Nat)
    (hl : len ≤ 128) (gw : Addr) (port vlan : Nat) (l : Bool) :
    (addRoute env s dst len gw port vlan l = s ∧ (T (pfx6 dst len) = none → s.tab.free < len)) ∨
    (T (pfx6 dst len) = none ∧ ∃ t, addRoute env s dst len gw port vlan l =
        { s with tab := t, nnh := s.nnh + 1,
                 nh := fun j => if j = s.nnh then ⟨gw, port, vlan, l, noMac, []⟩ else s.nh j } ∧
      Hist6 nodes t (T.add (pfx6 dst len) s.nnh)) := by
  obtain ⟨h1, h2, _⟩ := ops6_results hi.hist env.g dst hd len hl s.nnh
  unfold addRoute
  rcases he : insert6 env.g s.tab dst len s.nnh with ⟨t, r⟩
  rw [he] at h1 h2
  cases hT : T (pfx6 dst len) with
  | some y =>
    have := h1 y hT
    simp only [Prod.mk.injEq] at this
    obtain ⟨_, rfl⟩ := this
    exact Or.inl ⟨rfl, fun h => by cases h⟩
  | none =>
    rcases h2 hT with h | ⟨h, hf⟩
    · simp only at h; subst h
      exact Or.inr ⟨rfl, t, rfl, Hist6.addOk hi.hist hd hl he⟩
    · simp only [Prod.mk.injEq] at h
      obtain ⟨_, rfl⟩ := h
      exact Or.inl ⟨rfl, fun _ => hf⟩

/-- The invariant after a route was added. -/
theorem inv_added {nodes s T t} (hi : Inv nodes s T) {p} (hp : T p = none) (n : Nh) (hn : n.hold = [])
    (ht : Hist6 nodes t (T.add p s.nnh)) :
    Inv nodes { s with tab := t, nnh := s.nnh + 1, nh := fun j => if j = s.nnh then n else s.nh j } (T.add p s.nnh) := by
  refine ⟨ht, ?_, ?_, ?_⟩
  · intro q i h
    simp only [Spec.Table.add] at h
    split at h
    · cases h; exact Nat.lt_succ_self _
    · exact Nat.lt_succ_of_lt (hi.ids _ _ h)
  · intro q q' i h h'
    simp only [Spec.Table.add] at h h'
    split at h <;> split at h'
    · rename_i a b; rw [a, b]
    · cases h; exact absurd (hi.ids _ _ h') (Nat.lt_irrefl _)
    · cases h'; exact absurd (hi.ids _ _ h) (Nat.lt_irrefl _)
    · exact hi.inj _ _ _ h h'
  · intro i x h
    by_cases e : i = s.nnh
    · subst e
      simp only [if_true, hn, List.not_mem_nil] at h
    · simp only [e, if_false] at h
      obtain ⟨h1, q, h2, h3⟩ := hi.fits i x h
      refine ⟨h1, q, ?_, h3⟩
      simp only [Spec.Table.add]
      rw [if_neg]
      · exact h2
      · intro e; subst e; rw [hp] at h2; cases h2

theorem addRoute_inv {nodes s T} (env : Env) (hi : Inv nodes s T) (dst : Addr) (hd : dst.length = 16) (len : Nat)
    (hl : len ≤ 128) (gw : Addr) (port vlan : Nat) (l : Bool) :
    ∃ T', Inv nodes (addRoute env s dst len gw port vlan l) T' := by
  rcases addRoute_cases env hi dst hd len hl gw port vlan l with ⟨h, _⟩ | ⟨hn, t, h, ht⟩
  · rw [h]; exact ⟨T, hi⟩
  · rw [h]; exact ⟨_, inv_added hi hn ⟨gw, port, vlan, l, noMac, []⟩ rfl ht⟩

theorem addRoute_frame {nodes s T} (env : Env) (hi : Inv nodes s T) (dst : Addr) (hd : dst.length = 16) (len : Nat)
    (hl : len ≤ 128) (gw : Addr) (port vlan : Nat) (l : Bool) :
    (addRoute env s dst len gw port vlan l).next = s.next ∧ (addRoute env s dst len gw port vlan l).evs = s.evs ∧
    (addRoute env s dst len gw port vlan l).ents = s.ents ∧ (∀ w, W w (addRoute env s dst len gw port vlan l) = W w s) ∧
    s.nnh ≤ (addRoute env s dst len gw port vlan l).nnh ∧
    (∀ i, i < s.nnh → (addRoute env s dst len gw port vlan l).nh i = s.nh i) := by
  rcases addRoute_cases env hi dst hd len hl gw port vlan l with ⟨h, _⟩ | ⟨hn, t, h, ht⟩
  · rw [h]; exact ⟨rfl, rfl, rfl, fun _ => rfl, Nat.le_refl _, fun _ _ => rfl⟩
  · rw [h]
    refine ⟨rfl, rfl, rfl, ?_, Nat.le_succ _, ?_⟩
    · intro w
      unfold W
      simp only [List.range_succ, List.map_append, List.sum_append, List.map_cons, List.map_nil, List.sum_cons,
        List.sum_nil, if_true]
      have : (List.range s.nnh).map (fun i => hw w (if i = s.nnh then (⟨gw, port, vlan, l, noMac, []⟩ : Nh) else s.nh i).hold) =
          (List.range s.nnh).map (fun i => hw w (s.nh i).hold) := by
        apply List.map_congr_left
        intro i hi; rw [if_neg]; have := List.mem_range.1 hi; omega
      rw [this]; simp [hw]
    · intro i hlt; show (if i = s.nnh then _ else s.nh i) = _; rw [if_neg (by omega)]

/-- The invariant does not depend on buffers and events. -/
theorem Inv.congr {nodes s s' T} (hi : Inv nodes s T) (h1 : s'.tab = s.tab) (h2 : s'.nnh = s.nnh) (h3 : s'.nh = s.nh) :
    Inv nodes s' T :=
  ⟨h1 ▸ hi.hist, fun p i h => h2 ▸ hi.ids p i h, hi.inj, fun i x h => hi.fits i x (h3 ▸ h)⟩

theorem Inv.emit {nodes s T} (hi : Inv nodes s T) (e) : Inv nodes (s.emit e) T := hi.congr rfl rfl rfl
theorem Inv.alloc {nodes s T} (hi : Inv nodes s T) : Inv nodes s.alloc T := hi.congr rfl rfl rfl

/-- Changing the record of a route in the table. -/
theorem Inv.setLive {nodes s T} (hi : Inv nodes s T) {p i} (h : T p = some i) (n : Nh)
    (hn : ∀ x ∈ n.hold, x.2.dst.length = 16 ∧ p <+: Spec.bits6 x.2.dst) : Inv nodes (s.setNh i n) T := by
  refine ⟨hi.hist, hi.ids, hi.inj, ?_⟩
  intro j x hx
  by_cases e : j = i
  · subst e
    rw [setNh_same] at hx
    exact ⟨(hn x hx).1, p, h, (hn x hx).2⟩
  · rw [setNh_other _ _ _ _ e] at hx
    exact hi.fits j x hx

theorem freeHeld_frame (l : List (Nat × Pkt)) : ∀ s : St,
    (freeHeld l s).tab = s.tab ∧ (freeHeld l s).nnh = s.nnh ∧ (freeHeld l s).nh = s.nh ∧ (freeHeld l s).next = s.next ∧
    (freeHeld l s).ents = s.ents + l.length ∧ (freeHeld l s).evs = s.evs ++ l.map (fun x => Ev.free x.1) := by
  induction l with
  | nil => intro s; exact ⟨rfl, rfl, rfl, rfl, rfl, by simp [freeHeld]⟩
  | cons x l ih =>
    intro s
    obtain ⟨id, p⟩ := x
    obtain ⟨h1, h2, h3, h4, h5, h6⟩ := ih { s.emit (.free id) with ents := s.ents + 1 }
    refine ⟨h1, h2, h3, h4, ?_, ?_⟩
    · show (freeHeld l _).ents = _
      rw [h5]; simp only [List.length_cons]; omega
    · show (freeHeld l _).evs = _
      rw [h6]; simp

theorem delRoute_cases {nodes s T} (env : Env) (hi : Inv nodes s T) (dst : Addr) (hd : dst.length = 16) (len : Nat)
    (hl : len ≤ 128) :
    ∃ t, Hist6 nodes t (T.del (pfx6 dst len)) ∧
      ((T (pfx6 dst len) = none ∧ delRoute env s dst len = { s with tab := t }) ∨
       (∃ i, T (pfx6 dst len) = some i ∧ delRoute env s dst len =
          freeHeld (s.nh i).hold (({ s with tab := t } : St).setNh i { s.nh i with hold := [] }))) := by
  obtain ⟨_, _, h3⟩ := ops6_results hi.hist env.g dst hd len hl s.nnh
  unfold delRoute
  rcases he : remove6 env.g s.tab dst len with ⟨t, r⟩
  rw [he] at h3
  refine ⟨t, Hist6.del hi.hist hd hl he, ?_⟩
  simp only at h3
  cases hT : T (pfx6 dst len) with
  | none => rw [hT] at h3; simp only [Option.map_none] at h3; subst h3; exact Or.inl ⟨rfl, rfl⟩
  | some i => rw [hT] at h3; simp only [Option.map_some] at h3; subst h3; exact Or.inr ⟨i, rfl, rfl⟩

theorem delRoute_inv {nodes s T} (env : Env) (hi : Inv nodes s T) (dst : Addr) (hd : dst.length = 16) (len : Nat)
    (hl : len ≤ 128) : Inv nodes (delRoute env s dst len) (T.del (pfx6 dst len)) := by
  obtain ⟨t, ht, h⟩ := delRoute_cases env hi dst hd len hl
  rcases h with ⟨hn, h⟩ | ⟨i, hn, h⟩
  · rw [h]
    refine ⟨ht, ?_, ?_, ?_⟩
    · intro q j hq; simp only [Spec.Table.del] at hq; split at hq
      · cases hq
      · exact hi.ids _ _ hq
    · intro q q' j hq hq'; simp only [Spec.Table.del] at hq hq'
      split at hq
      · cases hq
      · split at hq'
        · cases hq'
        · exact hi.inj _ _ _ hq hq'
    · intro j x hx
      obtain ⟨h1, q, h2, h3⟩ := hi.fits j x hx
      refine ⟨h1, q, ?_, h3⟩
      simp only [Spec.Table.del]; rw [if_neg]
      · exact h2
      · intro e; subst e; rw [hn] at h2; cases h2
  · rw [h]
    obtain ⟨f1, f2, f3, _⟩ := freeHeld_frame (s.nh i).hold (({ s with tab := t } : St).setNh i { s.nh i with hold := [] })
    refine ⟨f1 ▸ ht, ?_, ?_, ?_⟩
    · intro q j hq; rw [f2]; simp only [Spec.Table.del] at hq; split at hq
      · cases hq
      · exact hi.ids _ _ hq
    · intro q q' j hq hq'; simp only [Spec.Table.del] at hq hq'
      split at hq
      · cases hq
      · split at hq'
        · cases hq'
        · exact hi.inj _ _ _ hq hq'
    · intro j x hx
      rw [f3] at hx
      by_cases e : j = i
      · subst e; simp at hx
      · rw [setNh_other _ _ _ _ e] at hx
        obtain ⟨h1, q, h2, h3⟩ := hi.fits j x hx
        refine ⟨h1, q, ?_, h3⟩
        simp only [Spec.Table.del]; rw [if_neg]
        · exact h2
        · intro e'; subst e'; rw [hn] at h2; cases h2; exact e rfl

end Verif.Ip6

import Verif.Ip6.Lemmas
/-! # What every operation of the IPv6 path preserves; who owns a packet buffer -/
namespace Verif.Ip6
open Verif Radix

/-- Buffer `j` was disposed of or waits: how often. -/
def phi (j : Nat) (s : St) : Nat := cnt j s.evs + waiting j s

/-- Is `j` a buffer allocated between `s` and `s'`? -/
def fresh (s s' : St) (j : Nat) : Nat := if s.next ≤ j ∧ j < s'.next then 1 else 0

/-- What packets never change: routes stay, records keep gateway, interface and flag, routes added are host routes to
neighbours. -/
structure Keep (nodes : Nat) (s : St) (T : Spec.Table Nat) (s' : St) (T' : Spec.Table Nat) : Prop where
  inv : Inv nodes s' T'
  next : s.next ≤ s'.next
  ents : s'.ents + waitingAll s' = s.ents + waitingAll s
  nnh : s.nnh ≤ s'.nnh
  ext : ∀ p i, T p = some i → T' p = some i
  attr : ∀ i, i < s.nnh → (s'.nh i).gw = (s.nh i).gw ∧ (s'.nh i).port = (s.nh i).port ∧ (s'.nh i).vlan = (s.nh i).vlan ∧
    (s'.nh i).isLocal = (s.nh i).isLocal
  added : ∀ p i, T p = none → T' p = some i →
    s.nnh ≤ i ∧ (s'.nh i).gw = any ∧ (s'.nh i).isLocal = false ∧ p.length = 128

theorem Keep.rfl' {nodes s T} (hi : Inv nodes s T) : Keep nodes s T s T :=
  ⟨hi, Nat.le_refl _, rfl, Nat.le_refl _, fun _ _ h => h, fun _ _ => ⟨rfl, rfl, rfl, rfl⟩,
    fun p i h h' => by rw [h] at h'; cases h'⟩

theorem Keep.trans {nodes s1 T1 s2 T2 s3 T3} (a : Keep nodes s1 T1 s2 T2) (b : Keep nodes s2 T2 s3 T3) :
    Keep nodes s1 T1 s3 T3 := by
  refine ⟨b.inv, Nat.le_trans a.next b.next, b.ents.trans a.ents, Nat.le_trans a.nnh b.nnh,
    fun p i h => b.ext p i (a.ext p i h), ?_, ?_⟩
  · intro i h
    obtain ⟨x1, x2, x3, x4⟩ := a.attr i h
    obtain ⟨y1, y2, y3, y4⟩ := b.attr i (Nat.lt_of_lt_of_le h a.nnh)
    exact ⟨y1.trans x1, y2.trans x2, y3.trans x3, y4.trans x4⟩
  · intro p i h h'
    cases e : T2 p with
    | none =>
      obtain ⟨x1, x2, x3, x4⟩ := b.added p i e h'
      exact ⟨Nat.le_trans a.nnh x1, x2, x3, x4⟩
    | some k =>
      have := b.ext p k e
      rw [this] at h'; cases h'
      obtain ⟨x1, x2, x3, x4⟩ := a.added p i h e
      obtain ⟨y1, _, _, y4⟩ := b.attr i (a.inv.ids p i e)
      exact ⟨x1, y1.trans x2, y4.trans x3, x4⟩

/-- Only the trace and the buffer counter differ. -/
theorem Keep.of_eq {nodes s T s'} (hi : Inv nodes s T) (h1 : s'.tab = s.tab) (h2 : s'.nnh = s.nnh) (h3 : s'.nh = s.nh)
    (h4 : s'.ents = s.ents) (h5 : s.next ≤ s'.next) : Keep nodes s T s' T := by
  refine ⟨hi.congr h1 h2 h3, h5, ?_, by omega, fun _ _ h => h, fun i _ => by rw [h3]; exact ⟨rfl, rfl, rfl, rfl⟩,
    fun p i h h' => by rw [h] at h'; cases h'⟩
  rw [waitingAll_eq, waitingAll_eq, W_congr _ s s' h3 h2, h4]

theorem Keep.emit {nodes s T} (hi : Inv nodes s T) (e) : Keep nodes s T (s.emit e) T :=
  Keep.of_eq hi rfl rfl rfl rfl (Nat.le_refl _)
theorem Keep.alloc {nodes s T} (hi : Inv nodes s T) : Keep nodes s T s.alloc T :=
  Keep.of_eq hi rfl rfl rfl rfl (Nat.le_succ _)

/-- Every buffer is accounted for: `δ` for those that existed, one for each new one. -/
def Exact (s s' : St) (δ : Nat → Nat) : Prop := ∀ j, phi j s' = phi j s + δ j + fresh s s' j
/-- At most. -/
def Most (s s' : St) (δ : Nat → Nat) : Prop := ∀ j, phi j s' ≤ phi j s + δ j + fresh s s' j

theorem fresh_trans {s1 s2 s3 : St} (h1 : s1.next ≤ s2.next) (h2 : s2.next ≤ s3.next) (j : Nat) :
    fresh s1 s2 j + fresh s2 s3 j = fresh s1 s3 j := by
  unfold fresh
  by_cases a : s1.next ≤ j <;> by_cases b : j < s2.next <;> by_cases c : j < s3.next <;> by_cases d : s2.next ≤ j <;>
    simp [a, b, c, d] <;> omega

theorem Exact.most {s s' δ} (h : Exact s s' δ) : Most s s' δ := fun j => Nat.le_of_eq (h j)

theorem Exact.trans {s1 s2 s3 δ δ'} (a : Exact s1 s2 δ) (b : Exact s2 s3 δ') (h1 : s1.next ≤ s2.next)
    (h2 : s2.next ≤ s3.next) : Exact s1 s3 (fun j => δ j + δ' j) := by
  intro j
  have := fresh_trans h1 h2 j
  have := a j; have := b j; show _ = _ + (δ j + δ' j) + _; omega

theorem Most.trans {s1 s2 s3 δ δ'} (a : Most s1 s2 δ) (b : Most s2 s3 δ') (h1 : s1.next ≤ s2.next)
    (h2 : s2.next ≤ s3.next) : Most s1 s3 (fun j => δ j + δ' j) := by
  intro j
  have := fresh_trans h1 h2 j
  have := a j; have := b j; show _ ≤ _ + (δ j + δ' j) + _; omega

theorem Exact.congr {s s' δ δ'} (h : Exact s s' δ) (e : ∀ j, δ j = δ' j) : Exact s s' δ' := by
  intro j; rw [← e]; exact h j
theorem Most.weaken {s s' δ δ'} (h : Most s s' δ) (e : ∀ j, δ j ≤ δ' j) : Most s s' δ' := by
  intro j; have := h j; have := e j; omega

theorem fresh_self (s : St) (j) : fresh s s j = 0 := by unfold fresh; rw [if_neg]; omega
theorem fresh_eq {s s' : St} (h : s'.next = s.next) (j) : fresh s s' j = 0 := by unfold fresh; rw [if_neg]; omega

theorem Exact.rfl' (s : St) : Exact s s (fun _ => 0) := by intro j; rw [fresh_self]; rfl

theorem cnt_emit (j : Nat) (l : List Ev) (e : Ev) : cnt j (l ++ [e]) = cnt j l + if e.ends = some j then 1 else 0 := by
  unfold cnt; rw [List.countP_append]; simp [List.countP_cons]

theorem waiting_congr (j) (s s' : St) (h1 : s'.nh = s.nh) (h2 : s'.nnh = s.nnh) : waiting j s' = waiting j s := by
  unfold waiting; rw [h1, h2]

theorem Exact.emit (s : St) (e : Ev) : Exact s (s.emit e) (fun j => if e.ends = some j then 1 else 0) := by
  intro j
  rw [fresh_eq (s := s) (s' := s.emit e) rfl]
  unfold phi
  rw [emit_evs, cnt_emit, waiting_congr j s (s.emit e) rfl rfl]
  show _ = _ + (if e.ends = some j then 1 else 0) + 0
  omega

/-- A new buffer is not accounted for until it is disposed of. -/
theorem phi_alloc (s : St) (j) : phi j s.alloc = phi j s := by
  unfold phi
  rw [alloc_evs, cnt_emit, waiting_congr j s s.alloc rfl rfl]; simp [Ev.ends]

theorem Exact.alloc {s s' : St} {δ : Nat → Nat} (h : Exact s.alloc s' δ) (hn : s.next < s'.next)
    (hd : ∀ j, δ j = if j = s.next then 1 else 0) : Exact s s' (fun _ => 0) := by
  intro j
  have := h j; rw [phi_alloc, hd] at this
  rw [this]; unfold fresh
  simp only [alloc_next]
  by_cases a : j = s.next
  · subst a; simp [hn]
  · by_cases b : s.next ≤ j
    · have : s.next + 1 ≤ j := by omega
      simp [a, b, this]
    · have : ¬ s.next + 1 ≤ j := by omega
      simp [a, b, this]

/-! ## Output -/

theorem addRoute_keep {nodes s T} (env : Env) (hi : Inv nodes s T) (dst : Addr) (hd : dst.length = 16) (port vlan : Nat) :
    ∃ T', Keep nodes s T (addRoute env s dst 128 any port vlan false) T' ∧
      Exact s (addRoute env s dst 128 any port vlan false) (fun _ => 0) ∧
      (∀ i, i < s.nnh → (addRoute env s dst 128 any port vlan false).nh i = s.nh i) := by
  obtain ⟨f1, f2, f3, f4, f5, f6⟩ := addRoute_frame env hi dst hd 128 (Nat.le_refl _) any port vlan false
  have hx : Exact s (addRoute env s dst 128 any port vlan false) (fun _ => 0) := by
    intro j; rw [fresh_eq f1]; unfold phi; rw [f2, waiting_eq, waiting_eq, f4]; rfl
  rcases addRoute_cases env hi dst hd 128 (Nat.le_refl _) any port vlan false with ⟨h, _⟩ | ⟨hn, t, h, ht⟩
  · refine ⟨T, ?_, hx, f6⟩
    rw [h]; exact Keep.rfl' hi
  · refine ⟨T.add (pfx6 dst 128) s.nnh, ⟨?_, f1 ▸ Nat.le_refl _, ?_, f5, ?_, ?_, ?_⟩, hx, f6⟩
    · rw [h]; exact inv_added hi hn ⟨any, port, vlan, false, noMac, []⟩ rfl ht
    · rw [f3, waitingAll_eq, waitingAll_eq, f4]
    · intro p i hp; simp only [Spec.Table.add]; rw [if_neg]
      · exact hp
      · intro e; subst e; rw [hn] at hp; cases hp
    · intro i hlt; rw [f6 i hlt]; exact ⟨rfl, rfl, rfl, rfl⟩
    · intro p i hp hp'
      simp only [Spec.Table.add] at hp'
      split at hp'
      · rename_i e; cases hp'
        rw [h]; subst e
        refine ⟨Nat.le_refl _, by simp, by simp, ?_⟩
        simp [pfx6, bits6_length, hd]
      · rw [hp] at hp'; cases hp'

/-- An operation that ends with a code: the packet was taken exactly if the code says so. -/
def Out (nodes : Nat) (s : St) (T : Spec.Table Nat) (id : Nat) (r : Code × St) : Prop :=
  r.1 ≠ .cont ∧ ∃ T', Keep nodes s T r.2 T' ∧ Exact s r.2 (fun j => if r.1 = .processed ∧ j = id then 1 else 0) ∧
    ∀ i, i < s.nnh → (r.2.nh i).mac = (s.nh i).mac

theorem Out.drop {nodes s T id} (hi : Inv nodes s T) : Out nodes s T id (.drop, s) :=
  ⟨(by intro h; cases h), T, Keep.rfl' hi, (Exact.rfl' s).congr (by intro j; simp), fun _ _ => rfl⟩

theorem Out.done {nodes s T id} (hi : Inv nodes s T) (e : Ev) (he : e.ends = some id) :
    Out nodes s T id (.processed, s.emit e) := by
  refine ⟨(by intro h; cases h), T, Keep.emit hi e, (Exact.emit s e).congr ?_, fun _ _ => rfl⟩
  intro j; rw [he]; by_cases h : id = j
  · subst h; simp
  · have : ¬ j = id := fun e => h e.symm
    simp [h, this]

theorem savePkt_out {nodes s T} (env : Env) (hi : Inv nodes s T) (id : Nat) (p : Pkt) (hp : p.dst.length = 16) :
    Out nodes s T id (savePkt env id p s) := by
  unfold savePkt
  split
  · exact Out.drop hi
  · rename_i i hl
    split
    · exact Out.drop hi
    · rename_i he
      have hlt := look_lt hi hp hl
      have hsp := look_spec env hi p.dst hp
      rw [hl] at hsp
      obtain ⟨n, hn, hT⟩ := uses_mem hsp
      have hW : ∀ w, W w (s.setNh i { s.nh i with hold := (id, p) :: (s.nh i).hold }) = W w s + w (id, p) := by
        intro w
        have := W_setNh w s i { s.nh i with hold := (id, p) :: (s.nh i).hold } hlt
        have h2 : hw w ((id, p) :: (s.nh i).hold) = w (id, p) + hw w (s.nh i).hold := by simp [hw]
        dsimp only at this ⊢
        rw [h2] at this
        omega
      refine ⟨(by intro h; cases h), T, ⟨?_, Nat.le_refl _, ?_, Nat.le_refl _, fun _ _ h => h, ?_, ?_⟩, ?_, ?_⟩
      · have : Inv nodes (s.setNh i { s.nh i with hold := (id, p) :: (s.nh i).hold }) T := by
          apply hi.setLive hT
          intro x hx
          simp only [List.mem_cons] at hx
          rcases hx with rfl | hx
          · exact ⟨hp, List.take_prefix _ _⟩
          · obtain ⟨h1, q, h2, h3⟩ := hi.fits i x hx
            rw [hi.inj _ _ _ hT h2]; exact ⟨h1, h3⟩
        exact this.congr rfl rfl rfl
      · rw [waitingAll_eq, waitingAll_eq]
        have : W (fun _ => 1) ({ (s.setNh i { s.nh i with hold := (id, p) :: (s.nh i).hold }).emit (.wait id i p) with
            ents := s.ents - 1 } : St) = W (fun _ => 1) s + 1 := by
          rw [← hW (fun _ => 1)]; exact W_congr _ _ _ rfl rfl
        rw [this]
        show s.ents - 1 + (W (fun _ => 1) s + 1) = _
        omega
      · intro j _
        by_cases e : j = i
        · subst e; simp
        · simp only [emit_nh]; rw [setNh_other _ _ _ _ e]; exact ⟨rfl, rfl, rfl, rfl⟩
      · intro q j h h'; rw [h] at h'; cases h'
      · intro j
        rw [fresh_eq (by rfl)]
        unfold phi
        have h1 : waiting j ({ (s.setNh i { s.nh i with hold := (id, p) :: (s.nh i).hold }).emit (.wait id i p) with
            ents := s.ents - 1 } : St) = waiting j s + if id = j then 1 else 0 := by
          rw [waiting_eq, waiting_eq, ← hW (fun x => if x.1 = j then 1 else 0)]; exact W_congr _ _ _ rfl rfl
        rw [h1]
        show cnt j (s.evs ++ [Ev.wait id i p]) + _ = _
        rw [cnt_emit]
        by_cases e : id = j
        · subst e; simp [Ev.ends]; omega
        · have : ¬ j = id := fun x => e x.symm
          simp [Ev.ends, e, this]
      · intro j _
        by_cases e : j = i
        · subst e; simp
        · simp only [emit_nh]; rw [setNh_other _ _ _ _ e]

theorem nsOutput_acct {nodes s T} (env : Env) (hi : Inv nodes s T) (d : Nat) (gw t : Addr) :
    (nsOutput env d gw t s).1 ≠ .cont ∧ Keep nodes s T (nsOutput env d gw t s).2 T ∧
      Exact s (nsOutput env d gw t s).2 (fun _ => 0) ∧ (nsOutput env d gw t s).2.nh = s.nh := by
  unfold nsOutput
  split
  · exact ⟨(by intro h; cases h), Keep.rfl' hi, Exact.rfl' s, rfl⟩
  · refine ⟨(by intro h; cases h), (Keep.alloc hi).trans (Keep.emit hi.alloc _), ?_, rfl⟩
    refine Exact.alloc (Exact.emit s.alloc _) (by simp) ?_
    intro j; simp only [Ev.ends, Option.some.injEq]
    by_cases h : s.next = j
    · simp [h]
    · have : ¬ j = s.next := fun e => h e.symm
      simp [h, this]

theorem resolve_out {nodes s T} (env : Env) (hi : Inv nodes s T) (id : Nat) (p : Pkt) (hp : p.dst.length = 16) (d : Nat)
    (gw : Addr) : Out nodes s T id (resolve env id p d gw s) := by
  obtain ⟨T1, k1, x1, m1⟩ := addRoute_keep env hi p.dst hp (env.dev d).port (env.dev d).vlan
  obtain ⟨n0, k2, x2, m2⟩ := nsOutput_acct env k1.inv d gw p.dst
  unfold resolve
  simp only
  generalize nsOutput env d gw p.dst (addRoute env s p.dst 128 any (env.dev d).port (env.dev d).vlan false) = r at *
  obtain ⟨c, s2⟩ := r
  simp only at n0 k2 x2 m2
  have k := k1.trans k2
  have x := x1.trans x2 k1.next k2.next
  cases c with
  | cont => exact absurd rfl n0
  | drop => exact ⟨(by intro h; cases h), T1, k, x.congr (by intro j; simp), fun i hlt => by
      show (s2.nh i).mac = _; rw [m2, m1 i hlt]⟩
  | processed =>
    obtain ⟨n3, T3, k3, x3, m3⟩ := savePkt_out env k2.inv id p hp
    refine ⟨n3, T3, k.trans k3, (x.trans x3 k.next k3.next).congr (by intro j; simp), ?_⟩
    intro i hlt
    show ((savePkt env id p s2).2.nh i).mac = _
    rw [m3 i (Nat.lt_of_lt_of_le hlt k.nnh), m2, m1 i hlt]

theorem outDev_out {nodes s T} (env : Env) (hi : Inv nodes s T) (id : Nat) (p : Pkt) (hp : p.dst.length = 16) (i d : Nat) :
    Out nodes s T id (outDev env id p i d s) := by
  unfold outDev
  repeat' split
  all_goals first
    | exact Out.drop hi
    | exact Out.done hi _ rfl
    | exact resolve_out env hi id p hp d _

theorem ip6Output_out {nodes s T} (env : Env) (hi : Inv nodes s T) (id : Nat) (p : Pkt) (hp : p.dst.length = 16)
    (nh : Option Nat) : Out nodes s T id (ip6Output env id p nh s) := by
  unfold ip6Output
  repeat' split
  all_goals first
    | exact Out.drop hi
    | exact Out.done hi _ rfl
    | exact outDev_out env hi id p hp _ _

theorem sendHeld_acct {nodes} (env : Env) (i : Nat) : ∀ (l : List (Nat × Pkt)) (s : St) (T), Inv nodes s T →
    (∀ x ∈ l, x.2.dst.length = 16) →
    ∃ T', Inv nodes (sendHeld env i l s) T' ∧ s.next ≤ (sendHeld env i l s).next ∧
      (sendHeld env i l s).ents + waitingAll (sendHeld env i l s) = s.ents + waitingAll s + l.length ∧
      s.nnh ≤ (sendHeld env i l s).nnh ∧ (∀ p i, T p = some i → T' p = some i) ∧
      (∀ k, k < s.nnh → ((sendHeld env i l s).nh k).gw = (s.nh k).gw ∧ ((sendHeld env i l s).nh k).port = (s.nh k).port ∧
        ((sendHeld env i l s).nh k).vlan = (s.nh k).vlan ∧ ((sendHeld env i l s).nh k).isLocal = (s.nh k).isLocal ∧
        ((sendHeld env i l s).nh k).mac = (s.nh k).mac) ∧
      (∀ p k, T p = none → T' p = some k → s.nnh ≤ k ∧ ((sendHeld env i l s).nh k).gw = any ∧
        ((sendHeld env i l s).nh k).isLocal = false ∧ p.length = 128) ∧
      Exact s (sendHeld env i l s) (fun j => l.countP (fun x => decide (x.1 = j))) := by
  intro l
  induction l with
  | nil =>
    intro s T hi _
    exact ⟨T, hi, Nat.le_refl _, by simp [sendHeld], Nat.le_refl _, fun _ _ h => h,
      fun _ _ => ⟨rfl, rfl, rfl, rfl, rfl⟩, fun p i h h' => (by rw [h] at h'; cases h'), (Exact.rfl' s).congr (by simp)⟩
  | cons x l ih =>
    intro s T hi hl
    obtain ⟨id, p⟩ := x
    obtain ⟨n0, T1, k1, x1, m1⟩ := ip6Output_out env hi id p (hl (id, p) (List.mem_cons_self ..)) (some i)
    unfold sendHeld
    simp only
    generalize ip6Output env id p (some i) s = r at *
    obtain ⟨c, s1⟩ := r
    simp only at n0 k1 x1 m1 ⊢
    generalize hs2 : ({ (if c = .drop then s1.emit (.free id) else s1) with
      ents := (if c = .drop then s1.emit (.free id) else s1).ents + 1 } : St) = s2
    have e1 : s2.tab = s1.tab := by subst hs2; split <;> rfl
    have e2 : s2.nnh = s1.nnh := by subst hs2; split <;> rfl
    have e3 : s2.nh = s1.nh := by subst hs2; split <;> rfl
    have e4 : s2.next = s1.next := by subst hs2; split <;> rfl
    have e5 : s2.ents = s1.ents + 1 := by subst hs2; split <;> rfl
    have hx : Exact s s2 (fun j => if id = j then 1 else 0) := by
      cases c with
      | cont => exact absurd rfl n0
      | drop =>
        have := x1.trans (Exact.emit s1 (.free id)) k1.next (Nat.le_refl _)
        intro j
        have h := this j
        subst hs2
        simp only [Ev.ends, Option.some.injEq, reduceCtorEq, false_and, if_false, Nat.zero_add] at h
        exact h
      | processed =>
        intro j
        have h := x1 j
        subst hs2
        simp only [true_and] at h
        have e : (if j = id then 1 else 0) = (if id = j then 1 else 0) := by
          by_cases e : id = j
          · simp [e]
          · have : ¬ j = id := fun x => e x.symm
            simp [e, this]
        rw [e] at h; exact h
    have hi2 : Inv nodes s2 T1 := k1.inv.congr e1 e2 e3
    obtain ⟨T', i1, i2, i3, i4, i5, i6, i7, i8⟩ := ih s2 T1 hi2 (fun y hy => hl y (List.mem_cons_of_mem _ hy))
    have hn1 : s.next ≤ s2.next := e4 ▸ k1.next
    have hw : waitingAll s2 = waitingAll s1 := by rw [waitingAll_eq, waitingAll_eq]; exact W_congr _ _ _ e3 e2
    refine ⟨T', i1, Nat.le_trans hn1 i2, ?_, Nat.le_trans (e2 ▸ k1.nnh) i4, fun p i h => i5 p i (k1.ext p i h), ?_, ?_, ?_⟩
    · rw [i3, hw, e5]; have := k1.ents; simp only [List.length_cons]; omega
    · intro k hk
      obtain ⟨a1, a2, a3, a4⟩ := k1.attr k hk
      obtain ⟨b1, b2, b3, b4, b5⟩ := i6 k (e2 ▸ Nat.lt_of_lt_of_le hk k1.nnh)
      rw [e3] at b1 b2 b3 b4 b5
      exact ⟨b1.trans a1, b2.trans a2, b3.trans a3, b4.trans a4, b5.trans (m1 k hk)⟩
    · intro q k h h'
      cases e : T1 q with
      | none =>
        obtain ⟨y1, y2, y3, y4⟩ := i7 q k e h'
        exact ⟨Nat.le_trans k1.nnh (e2 ▸ y1), y2, y3, y4⟩
      | some k' =>
        have := i5 q k' e
        rw [this] at h'; cases h'
        obtain ⟨y1, y2, y3, y4⟩ := k1.added q k h e
        obtain ⟨b1, _, _, b4, _⟩ := i6 k (e2 ▸ k1.inv.ids q k e)
        rw [e3] at b1 b4
        exact ⟨y1, b1.trans y2, b4.trans y3, y4⟩
    · refine (hx.trans i8 hn1 i2).congr ?_
      intro j
      simp only [List.countP_cons, decide_eq_true_eq]; omega

/-- An operation that takes no packet. -/
def Acct (nodes : Nat) (s : St) (T : Spec.Table Nat) (s' : St) : Prop :=
  ∃ T', Keep nodes s T s' T' ∧ Exact s s' (fun _ => 0)

theorem Acct.rfl' {nodes s T} (hi : Inv nodes s T) : Acct nodes s T s := ⟨T, Keep.rfl' hi, Exact.rfl' s⟩

/-- Learning the address of a neighbour. -/
theorem addMac_full {nodes s T} (env : Env) (hi : Inv nodes s T) (a : Addr) (ha : a.length = 16) (mac : Mac) :
    ∃ T', Keep nodes s T (addMac env a mac s) T' ∧ Exact s (addMac env a mac s) (fun _ => 0) ∧
      (∀ k, k < s.nnh → ((addMac env a mac s).nh k).mac = if look env s a = some k then mac else (s.nh k).mac) := by
  unfold addMac
  split
  · rename_i h
    exact ⟨T, Keep.rfl' hi, Exact.rfl' s, fun k _ => by simp [h]⟩
  · rename_i i hl
    have hlt := look_lt hi ha hl
    have hsp := look_spec env hi a ha
    rw [hl] at hsp
    obtain ⟨n, hn, hT⟩ := uses_mem hsp
    generalize hs1 : s.setNh i { s.nh i with mac := mac, hold := [] } = s1
    have hi1 : Inv nodes s1 T := by subst hs1; exact hi.setLive hT _ (by intro x hx; cases hx)
    have hW : ∀ w, W w s1 + hw w (s.nh i).hold = W w s := by
      intro w; subst hs1
      have := W_setNh w s i { s.nh i with mac := mac, hold := [] } hlt
      simp only [hw, List.map_nil, List.sum_nil] at this ⊢
      omega
    have b1 : s1.nnh = s.nnh := by subst hs1; rfl
    have b2 : s1.next = s.next := by subst hs1; rfl
    have b3 : s1.ents = s.ents := by subst hs1; rfl
    have b4 : s1.evs = s.evs := by subst hs1; rfl
    have b5 : ∀ k, (s1.nh k).gw = (s.nh k).gw ∧ (s1.nh k).port = (s.nh k).port ∧ (s1.nh k).vlan = (s.nh k).vlan ∧
        (s1.nh k).isLocal = (s.nh k).isLocal := by
      intro k; subst hs1
      by_cases e : k = i
      · subst e; simp
      · rw [setNh_other _ _ _ _ e]; exact ⟨rfl, rfl, rfl, rfl⟩
    have b6 : ∀ k, (s1.nh k).mac = if some i = some k then mac else (s.nh k).mac := by
      intro k; subst hs1
      by_cases e : k = i
      · subst e; simp
      · rw [setNh_other _ _ _ _ e, if_neg]; intro h; cases h; exact e rfl
    obtain ⟨T', i1, i2, i3, i4, i5, i6, i7, i8⟩ := sendHeld_acct env i (s.nh i).hold.reverse s1 T hi1
      (fun x hx => (hi.fits i x (List.mem_reverse.1 hx)).1)
    refine ⟨T', ⟨i1, b2 ▸ i2, ?_, b1 ▸ i4, i5, ?_, ?_⟩, ?_, ?_⟩
    · rw [i3, b3, waitingAll_eq s1, waitingAll_eq s, ← hW (fun _ => 1), hw_one, List.length_reverse]; omega
    · intro k hk
      obtain ⟨y1, y2, y3, y4, _⟩ := i6 k (b1 ▸ hk)
      obtain ⟨z1, z2, z3, z4⟩ := b5 k
      exact ⟨y1.trans z1, y2.trans z2, y3.trans z3, y4.trans z4⟩
    · intro p k h h'; obtain ⟨y1, y2⟩ := i7 p k h h'; exact ⟨b1 ▸ y1, y2⟩
    · intro j
      have h := i8 j
      have e : fresh s1 (sendHeld env i (s.nh i).hold.reverse s1) j = fresh s (sendHeld env i (s.nh i).hold.reverse s1) j := by
        unfold fresh; rw [b2]
      rw [h, e]
      have hp : phi j s1 + (s.nh i).hold.reverse.countP (fun x => decide (x.1 = j)) = phi j s := by
        unfold phi
        rw [b4, waiting_eq, waiting_eq, ← hW, ← hw_cnt, hw_reverse]; omega
      show phi j s1 + (s.nh i).hold.reverse.countP (fun x => decide (x.1 = j)) + _ = phi j s + 0 + _
      omega
    · intro k hk
      rw [(i6 k (b1 ▸ hk)).2.2.2.2, b6, hl]

theorem addMac_acct {nodes s T} (env : Env) (hi : Inv nodes s T) (a : Addr) (ha : a.length = 16) (mac : Mac) :
    Acct nodes s T (addMac env a mac s) := by
  obtain ⟨T', k, x, _⟩ := addMac_full env hi a ha mac; exact ⟨T', k, x⟩

theorem Acct.trans {nodes s T s' s''} (a : Acct nodes s T s') (b : ∀ T', Inv nodes s' T' → Acct nodes s' T' s'') :
    Acct nodes s T s'' := by
  obtain ⟨T1, k1, x1⟩ := a
  obtain ⟨T2, k2, x2⟩ := b T1 k1.inv
  exact ⟨T2, k1.trans k2, (x1.trans x2 k1.next k2.next).congr (by simp)⟩

theorem learn_acct {nodes s T} (env : Env) (hi : Inv nodes s T) (d : Nat) (a : Addr) (ha : a.length = 16) (mac : Mac) :
    Acct nodes s T (learn env d a mac s) := by
  unfold learn
  obtain ⟨T1, k1, x1, _⟩ := addRoute_keep env hi a ha (env.dev d).port (env.dev d).vlan
  exact Acct.trans ⟨T1, k1, x1⟩ (fun T' hi' => addMac_acct env hi' a ha mac)

/-! ## ICMPv6 -/

theorem Acct.emit {nodes s T} (hi : Inv nodes s T) (e : Ev) (he : e.ends = none) : Acct nodes s T (s.emit e) :=
  ⟨T, Keep.emit hi e, (Exact.emit s e).congr (by intro j; simp [he])⟩

theorem touch_acct {nodes s T} (hi : Inv nodes s T) (id : Nat) (p : Pkt) (n : Nat) : Acct nodes s T (touch id p n s) := by
  unfold touch; split
  · exact Acct.emit hi _ rfl
  · exact Acct.rfl' hi

theorem target_length (p : Pkt) (h : 24 ≤ p.body.length) : (target p).length = 16 := by
  unfold target; rw [List.length_take, List.length_drop]; omega

theorem nsInput_acct {nodes s T} (env : Env) (hi : Inv nodes s T) (d : Nat) (mac : Mac) (p : Pkt) (hp : p.src.length = 16) :
    Acct nodes s T (nsInput env d mac p s) := by
  unfold nsInput; split
  · exact learn_acct env hi d _ hp mac
  · exact Acct.rfl' hi

theorem naInput_acct {nodes s T} (env : Env) (hi : Inv nodes s T) (d : Nat) (mac : Mac) (p : Pkt) (hp : 24 ≤ p.body.length) :
    Acct nodes s T (naInput env d mac p s) := by
  unfold naInput; split
  · exact learn_acct env hi d _ (target_length p hp) mac
  · exact Acct.rfl' hi

theorem naOutput_acct {nodes s T} (env : Env) (hi : Inv nodes s T) (d : Nat) (dst t : Addr) (mac : Mac) :
    Acct nodes s T (naOutput env d dst t mac s) := by
  unfold naOutput
  split
  · exact Acct.rfl' hi
  · refine ⟨T, (Keep.alloc hi).trans (Keep.emit hi.alloc _), Exact.alloc (Exact.emit s.alloc _) (by simp) ?_⟩
    intro j; simp only [Ev.ends, Option.some.injEq]
    by_cases h : s.next = j
    · simp [h]
    · have : ¬ j = s.next := fun e => h e.symm
      simp [h, this]

/-- One disposal of `id` at most. -/
def Once (nodes : Nat) (s : St) (T : Spec.Table Nat) (id : Nat) (s' : St) : Prop :=
  ∃ T', Keep nodes s T s' T' ∧ Most s s' (fun j => if j = id then 1 else 0)

theorem Acct.once {nodes s T s' id} (h : Acct nodes s T s') : Once nodes s T id s' := by
  obtain ⟨T', k, x⟩ := h; exact ⟨T', k, x.most.weaken (by simp)⟩

theorem Once.free {nodes s T} (hi : Inv nodes s T) (id) (e : Ev) (he : e.ends = some id) : Once nodes s T id (s.emit e) := by
  refine ⟨T, Keep.emit hi e, (Exact.emit s e).most.weaken ?_⟩
  intro j; rw [he]; by_cases h : id = j
  · simp [h]
  · simp [h]

theorem Out.once {nodes s T id r} (h : Out nodes s T id r) : Once nodes s T id r.2 := by
  obtain ⟨_, T', k, x, _⟩ := h
  refine ⟨T', k, x.most.weaken ?_⟩
  intro j; by_cases a : r.1 = .processed <;> by_cases b : j = id <;> simp [a, b]

@[simp] theorem fillIcmp_dst (env p) : (fillIcmp env p).dst = p.dst := by unfold fillIcmp; dsimp only; split <;> rfl
@[simp] theorem fillIcmp_src (env p) : (fillIcmp env p).src = p.src := by unfold fillIcmp; dsimp only; split <;> rfl
theorem reply_dst (env p a) : (reply env p a).dst = p.src := by unfold reply; rw [fillIcmp_dst]

theorem reflect_once {nodes s T} (env : Env) (hi : Inv nodes s T) (id : Nat) (p : Pkt) (hp : p.src.length = 16) :
    Once nodes s T id (reflect env id p s) := by
  unfold reflect
  dsimp only
  split
  · split
    · exact (Acct.emit hi _ rfl).once
    · exact (ip6Output_out env hi id _ (by rw [reply_dst]; exact hp) _).once
  · split
    · exact Once.free hi id _ rfl
    · exact (ip6Output_out env hi id _ (by rw [reply_dst]; exact hp) _).once

theorem icmpError_once {nodes s T} (env : Env) (hi : Inv nodes s T) (id : Nat) (p : Pkt) (hp : p.src.length = 16)
    (type code param : Nat) : Once nodes s T id (icmpError env id p type code param s) := by
  unfold icmpError
  split
  · exact Once.free hi id _ rfl
  · split
    · exact Once.free hi id _ rfl
    · dsimp only
      generalize hs1 : (if p.bytes.length < quoteLen p then s.alloc.emit (.outside id) else s.alloc) = s1
      have hi1 : Inv nodes s1 T := by subst hs1; split; exact hi.alloc.emit _; exact hi.alloc
      have hk : Keep nodes s T s1 T := by
        subst hs1; split
        · exact (Keep.alloc hi).trans (Keep.emit hi.alloc _)
        · exact Keep.alloc hi
      have hn : s1.next = s.next + 1 := by subst hs1; split <;> rfl
      have hph : ∀ j, phi j s1 = phi j s := by
        intro j; subst hs1; split
        · have := Exact.emit s.alloc (.outside id) j
          rw [fresh_eq (by rfl)] at this
          simp only [Ev.ends, reduceCtorEq, if_false, Nat.add_zero] at this
          rw [this, phi_alloc]
        · exact phi_alloc s j
      obtain ⟨T', k, x⟩ := reflect_once env (hi1.emit (.free id)) s.next (errPkt env p type code param) hp
      have kk := (hk.trans (Keep.emit hi1 (.free id))).trans k
      refine ⟨T', kk, ?_⟩
      intro j
      have h := x j
      have h2 := Exact.emit s1 (.free id) j
      rw [fresh_eq (s := s1) (s' := s1.emit (.free id)) rfl, hph] at h2
      rw [h2] at h
      generalize reflect env s.next (errPkt env p type code param) (s1.emit (.free id)) = s' at *
      have e : (if j = s.next then 1 else 0) + fresh (s1.emit (.free id)) s' j = fresh s s' j := by
        have := k.next
        simp only [emit_next, hn] at this
        unfold fresh
        simp only [emit_next, hn]
        by_cases a : j = s.next
        · subst a; have h3 : s.next < s'.next := by omega
          simp [h3]
        · by_cases b : s.next ≤ j
          · have : s.next + 1 ≤ j := by omega
            simp [a, b, this]
          · have : ¬ s.next + 1 ≤ j := by omega
            simp [a, b, this]
      have e2 : (if (Ev.free id).ends = some j then 1 else 0) = (if j = id then 1 else 0) := by
        simp only [Ev.ends, Option.some.injEq]
        by_cases a : j = id
        · simp [a]
        · have : ¬ id = j := fun x => a x.symm
          simp [a, this]
      dsimp only at h
      rw [e2] at h
      show _ ≤ _ + (if j = id then 1 else 0) + _
      omega

end Verif.Ip6

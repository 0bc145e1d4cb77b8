import Verif.Ip6.Own
/-! # Accounting for whole operations -/
namespace Verif.Ip6
open Verif Radix

/-- Disposals of the packet according to the code returned. -/
def due (r : Code × St) (id j : Nat) : Nat := if r.1 = .processed ∧ j = id then 1 else 0

/-- Result of processing packet `id`: what holds always, what holds under `m` and under `x`. -/
def Res (nodes : Nat) (s : St) (T : Spec.Table Nat) (id : Nat) (m x : Prop) (r : Code × St) : Prop :=
  ∃ T', Keep nodes s T r.2 T' ∧ Most s r.2 (fun j => if j = id then 1 else 0) ∧ (m → Most s r.2 (due r id)) ∧
    (x → Exact s r.2 (due r id))

theorem due_le (r id j) : due r id j ≤ if j = id then 1 else 0 := by
  unfold due; by_cases a : r.1 = .processed <;> by_cases b : j = id <;> simp [a, b]

theorem Res.exact {nodes s T id m x r T'} (k : Keep nodes s T r.2 T') (h : Exact s r.2 (due r id)) :
    Res nodes s T id m x r := ⟨T', k, h.most.weaken (due_le r id), fun _ => h.most, fun _ => h⟩

theorem Acct.res {nodes s T id m x s'} (h : Acct nodes s T s') (c : Code) (hc : c ≠ .processed) :
    Res nodes s T id m x (c, s') := by
  obtain ⟨T', k, e⟩ := h
  exact Res.exact (r := (c, s')) k (e.congr (fun j => by simp [due, hc]))

theorem Out.res {nodes s T id m x r} (h : Out nodes s T id r) : Res nodes s T id m x r := by
  obtain ⟨_, T', k, e, _⟩ := h
  exact Res.exact k e

theorem Res.done {nodes s T id m x} (hi : Inv nodes s T) (e : Ev) (he : e.ends = some id) :
    Res nodes s T id m x (.processed, s.emit e) := (Out.done hi e he).res

theorem Once.res {nodes s T id m x s'} (h : Once nodes s T id s') (hx : ¬ x) : Res nodes s T id m x (.processed, s') := by
  obtain ⟨T', k, e⟩ := h
  exact ⟨T', k, e, fun _ => e.weaken (by intro j; simp [due]), fun h => absurd h hx⟩

theorem Once.res' {nodes s T id m x s' c} (h : Once nodes s T id s') (hm : ¬ m) (hx : ¬ x) :
    Res nodes s T id m x (c, s') := by
  obtain ⟨T', k, e⟩ := h
  exact ⟨T', k, e, fun h => absurd h hm, fun h => absurd h hx⟩

theorem notifyError_acct {nodes s T} (env : Env) (hi : Inv nodes s T) (p : Pkt) : Acct nodes s T (notifyError env p s) := by
  unfold notifyError
  split
  · exact Acct.rfl' hi
  · split
    · exact Acct.rfl' hi
    · exact Acct.emit hi _ rfl

theorem icmpType_res {nodes s T} (env : Env) (hi : Inv nodes s T) (id d : Nat) (mac : Mac) (p : Pkt)
    (hp : p.src.length = 16) (type code : Nat) (m : Prop) :
    Res nodes s T id m (type ≠ 128 ∧ type ≠ 129) (icmpType env id d mac p type code s) := by
  unfold icmpType
  split
  · split
    · exact (notifyError_acct env hi p).res _ (by intro h; cases h)
    · exact (Acct.rfl' hi).res _ (by intro h; cases h)
  · split
    · rename_i h
      split
      · exact (Acct.rfl' hi).res _ (by intro h; cases h)
      · exact (reflect_once env hi id { p with body := (p.body.set 0 129).set 1 0 } hp).res (fun hx => hx.1 h)
    · split
      · rename_i h
        split
        · exact (Acct.rfl' hi).res _ (by intro h; cases h)
        · exact (Acct.rfl' hi).once.res (fun hx => hx.2 h)
      · split
        · split
          · exact (Acct.rfl' hi).res _ (by intro h; cases h)
          · have h1 : Acct nodes s T (nsInput env d mac p (touch id p 25 s)) :=
              (touch_acct hi id p 25).trans (fun T' hi' => nsInput_acct env hi' d mac p hp)
            dsimp only
            split
            · exact h1.res _ (by intro h; cases h)
            · split
              · exact h1.res _ (by intro h; cases h)
              · have h2 := (h1.trans (fun T' hi' => touch_acct hi' id p 32)).trans
                  (fun T' hi' => naOutput_acct env hi' d p.src (target p) (optMac env p))
                obtain ⟨T2, k2, x2⟩ := h2
                refine Res.exact (r := (.processed, _)) (k2.trans (Keep.emit k2.inv (.free id))) ?_
                refine (x2.trans (Exact.emit _ (.free id)) k2.next (Nat.le_refl _)).congr ?_
                intro j
                simp only [Ev.ends, Option.some.injEq, due, true_and, Nat.zero_add]
                by_cases e : id = j
                · simp [e]
                · have : ¬ j = id := fun h => e h.symm
                  simp [e, this]
        · split
          · split
            · exact (Acct.rfl' hi).res _ (by intro h; cases h)
            · rename_i h
              have hl : 24 ≤ p.body.length := by omega
              exact ((touch_acct hi id p 25).trans (fun T' hi' => naInput_acct env hi' d mac p hl)).res _
                (by intro h; cases h)
          · repeat' split
            all_goals exact (Acct.rfl' hi).res _ (by intro h; cases h)

theorem icmpInput_res {nodes s T} (env : Env) (hi : Inv nodes s T) (id d : Nat) (mac : Mac) (p : Pkt)
    (hp : p.src.length = 16) (m : Prop) :
    Res nodes s T id m ((p.body.getD 0 0).toNat ≠ 128 ∧ (p.body.getD 0 0).toNat ≠ 129) (icmpInput env id d mac p s) := by
  unfold icmpInput
  split
  · exact (Acct.rfl' hi).res _ (by intro h; cases h)
  · split
    · exact icmpType_res env hi id d mac p hp _ _ m
    · exact (Acct.rfl' hi).res _ (by intro h; cases h)

theorem Res.imp {nodes s T id m x m' x' r} (h : Res nodes s T id m x r) (hm : m' → m) (hx : x' → x) :
    Res nodes s T id m' x' r := by
  obtain ⟨T', k, a, b, c⟩ := h
  exact ⟨T', k, a, fun h => b (hm h), fun h => c (hx h)⟩

/-- An event without a buffer. -/
theorem Res.note {nodes s T id m x s'} (h : Res nodes s T id m x (.cont, s')) (e : Ev) (he : e.ends = none) :
    Res nodes s T id m x (.cont, s'.emit e) := by
  obtain ⟨T', k, a, b, c⟩ := h
  have hph : ∀ j, phi j (s'.emit e) = phi j s' := by
    intro j
    have := Exact.emit s' e j
    rw [fresh_eq (by rfl)] at this
    simp only [he, reduceCtorEq, if_false, Nat.add_zero] at this
    exact this
  have hf : ∀ j, fresh s (s'.emit e) j = fresh s s' j := fun j => rfl
  refine ⟨T', k.trans (Keep.emit k.inv e), ?_, fun h => ?_, fun h => ?_⟩
  · intro j; show phi j (s'.emit e) ≤ _ + _ + fresh s (s'.emit e) j; rw [hph, hf]; exact a j
  · intro j; show phi j (s'.emit e) ≤ _ + _ + fresh s (s'.emit e) j; rw [hph, hf]; exact b h j
  · intro j; show phi j (s'.emit e) = _ + _ + fresh s (s'.emit e) j; rw [hph, hf]; exact c h j

theorem classify_res {nodes s T} (env : Env) (hi : Inv nodes s T) (id d : Nat) (mac : Mac) (p : Pkt)
    (hp : p.src.length = 16) : Res nodes s T id (¬ isExt p) (plain env p) (classify env id d mac p s) := by
  unfold classify
  split
  · rename_i h58
    have h := (icmpInput_res env hi id d mac p hp (¬ isExt p)).imp (x' := plain env p) (fun h => h) (fun h => h.2.2.1 h58)
    split
    · rename_i s1 he
      rw [he] at h
      exact h.note _ rfl
    · exact h
  · split
    · rename_i h17
      split
      · exact Res.done hi _ rfl
      · exact (Acct.rfl' hi).res _ (by intro h; cases h)
      · rename_i hu
        unfold udpNoPort
        split
        · exact (Acct.rfl' hi).res _ (by intro h; cases h)
        · split
          · exact (Acct.rfl' hi).res _ (by intro h; cases h)
          · rename_i hb hs
            refine (icmpError_once env hi id p hp 1 4 0).res ?_
            intro hx
            rcases hx.2.2.2 h17 with h | h | h
            · exact hs h
            · exact hb h
            · exact h hu
    · split
      · split
        · exact Res.done hi _ rfl
        · rename_i c h
          exact (Acct.rfl' hi).res _ (by intro h'; exact h h')
      · split
        · rename_i h
          refine (icmpError_once env hi id p hp 4 1 0).res' ?_ ?_
          · intro hm; apply hm; unfold isExt; omega
          · intro hx; apply hx.1; unfold isExt; omega
        · split
          · rename_i h
            exact (Acct.rfl' hi).once.res (fun hx => hx.2.1 h)
          · exact (Acct.rfl' hi).res _ (by intro h; cases h)

theorem process_res {nodes s T} (env : Env) (hi : Inv nodes s T) (id d : Nat) (mac : Mac) (p : Pkt)
    (hp : p.src.length = 16) (hd : p.dst.length = 16) :
    Res nodes s T id (¬ isExt p) (plain env p) (process env id d mac p s) := by
  unfold process
  repeat' split
  all_goals first
    | exact (Acct.rfl' hi).res _ (by intro h; cases h)
    | exact Res.done hi _ rfl
    | exact classify_res env hi id d mac p hp
    | exact (ip6Output_out env hi id p hd _).res

theorem parse_lengths (b : List UInt8) (h : 40 ≤ b.length) :
    (parse b).src.length = 16 ∧ (parse b).dst.length = 16 := by
  unfold parse; simp only [List.length_take, List.length_drop]; omega

/-- After processing: a packet that was not taken is freed or goes to the slow path. -/
theorem finish_eq (env : Env) (id : Nat) (r : Code × St) :
    (r.1 = .processed ∧ finish env id r = r.2) ∨
    (r.1 ≠ .processed ∧ ∃ e : Ev, e.ends = some id ∧ finish env id r = r.2.emit e) := by
  obtain ⟨c, s⟩ := r
  unfold finish
  cases c
  · right
    refine ⟨(by intro h; cases h), ?_⟩
    dsimp only
    split
    · exact ⟨_, rfl, rfl⟩
    · exact ⟨_, rfl, rfl⟩
  · exact Or.inl ⟨rfl, rfl⟩
  · exact Or.inr ⟨(by intro h; cases h), _, rfl, rfl⟩

/-- The accounting of one operation: `m`, `x` as above. -/
def Full (nodes : Nat) (s : St) (T : Spec.Table Nat) (m x : Prop) (s' : St) : Prop :=
  ∃ T', Keep nodes s T s' T' ∧ (∀ j, j < s.next → phi j s' ≤ phi j s) ∧ (∀ j, s'.next ≤ j → phi j s' ≤ phi j s) ∧
    (m → Most s s' (fun _ => 0)) ∧ (x → Exact s s' (fun _ => 0))

theorem fresh_alloc {s s' : St} (h : s.next < s'.next) (j : Nat) :
    (if j = s.next then 1 else 0) + fresh s.alloc s' j = fresh s s' j := by
  unfold fresh
  simp only [alloc_next]
  by_cases a : j = s.next
  · subst a; simp [h]
  · by_cases b : s.next ≤ j
    · have : s.next + 1 ≤ j := by omega
      simp [a, b, this]
    · have : ¬ s.next + 1 ≤ j := by omega
      simp [a, b, this]

theorem emit_once (s : St) (e : Ev) (id j : Nat) (he : e.ends = some id) :
    phi j (s.emit e) = phi j s + if j = id then 1 else 0 := by
  have := Exact.emit s e j
  rw [fresh_eq (by rfl)] at this
  simp only [he, Option.some.injEq, Nat.add_zero] at this
  rw [this]
  by_cases h : id = j
  · simp [h]
  · have : ¬ j = id := fun e => h e.symm
    simp [h, this]

theorem rx_full {nodes s T} (env : Env) (hi : Inv nodes s T) (f : Frame) :
    Full nodes s T (¬ isExt (parse f.raw)) (plain env (parse f.raw)) (rx env f s) := by
  have key : ∀ r, Res nodes s.alloc T s.next (¬ isExt (parse f.raw)) (plain env (parse f.raw)) r →
      Full nodes s T (¬ isExt (parse f.raw)) (plain env (parse f.raw)) (finish env s.next r) := by
    intro r h
    obtain ⟨T', k, a, b, c⟩ := h
    have kk := (Keep.alloc hi).trans k
    have hlt : s.next < r.2.next := k.next
    rcases finish_eq env s.next r with ⟨h1, h2⟩ | ⟨h1, e, h2, h3⟩
    · rw [h2]
      have hdue : ∀ j, due r s.next j = if j = s.next then 1 else 0 := by intro j; simp [due, h1]
      refine ⟨T', kk, ?_, ?_, fun hm => ?_, fun hx => ?_⟩
      · intro j hj; have := a j; rw [phi_alloc] at this
        have hz : fresh s.alloc r.2 j = 0 := by unfold fresh; rw [if_neg]; simp; omega
        have hz2 : (if j = s.next then 1 else 0) = 0 := if_neg (by omega)
        dsimp only at this; omega
      · intro j hj; have := a j; rw [phi_alloc] at this
        have hz : fresh s.alloc r.2 j = 0 := by unfold fresh; rw [if_neg]; simp; omega
        have hz2 : (if j = s.next then 1 else 0) = 0 := if_neg (by omega)
        dsimp only at this; omega
      · intro j; have := b hm j; rw [phi_alloc, hdue] at this; have := fresh_alloc hlt j
        show _ ≤ _ + 0 + _; omega
      · intro j; have := c hx j; rw [phi_alloc, hdue] at this; have := fresh_alloc hlt j
        show _ = _ + 0 + _; omega
    · rw [h3]
      have hdue : ∀ j, due r s.next j = 0 := by intro j; simp [due, h1]
      have hph := fun j => emit_once r.2 e s.next j h2
      have hfr : ∀ j, fresh s (r.2.emit e) j = fresh s r.2 j := fun _ => rfl
      refine ⟨T', kk.trans (Keep.emit k.inv e), ?_, ?_, fun hm => ?_, fun hx => ?_⟩
      · intro j hj; have := a j; rw [phi_alloc] at this
        have hz : fresh s.alloc r.2 j = 0 := by unfold fresh; rw [if_neg]; simp; omega
        have hz2 : (if j = s.next then 1 else 0) = 0 := if_neg (by omega)
        have := hph j
        dsimp only at *; omega
      · intro j hj; have := a j; rw [phi_alloc] at this
        simp only [emit_next] at hj
        have hz : fresh s.alloc r.2 j = 0 := by unfold fresh; rw [if_neg]; simp; omega
        have hz2 : (if j = s.next then 1 else 0) = 0 := if_neg (by omega)
        have := hph j
        dsimp only at *; omega
      · intro j; have := b hm j; rw [phi_alloc, hdue] at this; have := fresh_alloc hlt j; have := hph j
        show _ ≤ _ + 0 + _; rw [hfr]; omega
      · intro j; have := c hx j; rw [phi_alloc, hdue] at this; have := fresh_alloc hlt j; have := hph j
        show _ = _ + 0 + _; rw [hfr]; omega
  unfold rx
  split
  · exact key _ ((Acct.emit hi.alloc (.outside s.next) rfl).res _ (by intro h; cases h))
  · rename_i h
    obtain ⟨h1, h2⟩ := parse_lengths f.raw (by omega)
    exact key _ (process_res env hi.alloc s.next f.dev f.smac (parse f.raw) h1 h2)

theorem Full.exact {nodes s T m x s' T'} (k : Keep nodes s T s' T') (h : Exact s s' (fun _ => 0)) : Full nodes s T m x s' := by
  refine ⟨T', k, ?_, ?_, fun _ => h.most, fun _ => h⟩
  · intro j hj; have := h j
    have hz : fresh s s' j = 0 := by unfold fresh; rw [if_neg]; omega
    dsimp only at this; omega
  · intro j hj; have := h j
    have hz : fresh s s' j = 0 := by unfold fresh; rw [if_neg]; omega
    dsimp only at this; omega

theorem send_keep {nodes s T} (env : Env) (hi : Inv nodes s T) (p : Pkt) (hp : p.dst.length = 16) :
    ∃ T', Keep nodes s T (send env p s) T' ∧ Exact s (send env p s) (fun _ => 0) := by
  obtain ⟨n0, T', k, x, _⟩ := ip6Output_out env hi.alloc s.next p hp none
  unfold send
  dsimp only
  generalize ip6Output env s.next p none s.alloc = r at *
  have kk := (Keep.alloc hi).trans k
  have hlt : s.next < r.2.next := k.next
  split
  · rename_i hd
    refine ⟨T', kk.trans (Keep.emit k.inv _), ?_⟩
    intro j
    have := x j; rw [phi_alloc] at this
    simp only [hd, reduceCtorEq, false_and, if_false] at this
    have := emit_once r.2 (.free s.next) s.next j rfl
    have := fresh_alloc hlt j
    show _ = _ + 0 + fresh s r.2 j
    omega
  · rename_i hd
    refine ⟨T', kk, ?_⟩
    intro j
    have hpr : r.1 = .processed := by cases h : r.1 <;> simp_all
    have := x j; rw [phi_alloc] at this
    simp only [hpr, true_and] at this
    have := fresh_alloc hlt j
    show _ = _ + 0 + fresh s r.2 j
    omega

end Verif.Ip6

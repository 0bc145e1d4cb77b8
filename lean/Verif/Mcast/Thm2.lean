import Verif.Mcast.Thm

/-!
# Filters as a program sees them, and the violations
-/

namespace Verif.Mcast

open Spec (M)

/-- What the calls of a history answered. -/
def log (w : St) : List (Env × Op) → List (Op × Res)
  | [] => []
  | (e, o) :: h => (o, (step w e o).2) :: log (step w e o).1 h

/-- What a program believes: the effects of its calls that returned 0, one after the other. -/
def believed (l : List M) : List (Op × Res) → List M
  | [] => l
  | (o, r) :: h => believed (if r = .ret .ok then (Spec.call l o).1 else l) h

theorem call_err (l : List M) (o : Op) (h : (Spec.call l o).2 ≠ .ok) : (Spec.call l o).1 = l := by
  unfold Spec.call at h ⊢
  split at h
  · rfl
  · split at h <;> first | exact absurd rfl h | rfl | skip
    split at h
    · rw [if_pos (by assumption)]
    · rw [if_neg (by assumption)]
      split at h
      · rw [if_pos (by assumption)]
      · exact absurd rfl h
  · split at h <;> first | exact absurd rfl h | rfl | skip
    split at h
    · rw [if_pos (by assumption)]
    · exact absurd rfl h
  · split at h
    · rfl
    · split at h
      · rw [if_pos (by assumption)]
      · rw [if_neg (by assumption)]
        split at h
        · rw [if_pos (by assumption)]
        · exact absurd rfl h
  · rfl
  · split at h
    · rfl
    · exact absurd rfl h
  · exact absurd rfl h
  · rfl

theorem lacking_not_ok {e : Env} {a b : Nat} {o : Op} {r : Err} (h : Spec.Lacking e a b o r) : r ≠ .ok := by
  intro hr; subst hr; exact h

theorem step_believed {w : St} (hi : Inv w) (e : Env) (o : Op) (ho : Named o) :
    views (step w e o).1 = if (step w e o).2 = .ret .ok then (Spec.call (views w) o).1 else views w := by
  obtain ⟨_, h2, h3⟩ := step_exact hi e o ho
  generalize step w e o = p at h2 h3 ⊢
  obtain ⟨w', r⟩ := p
  cases r with
  | hang => rw [if_neg (by intro h; cases h)]; exact h2 (.inl rfl)
  | fault => rw [if_neg (by intro h; cases h)]; exact h2 (.inr rfl)
  | ret r =>
    rcases h3 r rfl with h | ⟨h, hl⟩
    · by_cases hr : r = .ok
      · subst hr; rw [if_pos rfl, h]
      · rw [if_neg (by intro q; injection q with q; exact hr q)]
        have := call_err (views w) o (by rw [h]; exact hr)
        rw [h] at this
        exact this
    · rw [if_neg (by intro q; injection q with q; exact lacking_not_ok hl q)]
      exact h

theorem views_believed : ∀ (h : List (Env × Op)) (w : St), Inv w → (∀ p ∈ h, Named p.2) → views (run w h) = believed (views w) (log w h) := by
  intro h
  induction h with
  | nil => intro w _ _; rfl
  | cons p h ih =>
    intro w hi hn
    have hp := hn p (List.mem_cons_self ..)
    show views (run (step w p.1 p.2).1 h) = believed (if (step w p.1 p.2).2 = .ret .ok then (Spec.call (views w) p.2).1 else views w) _
    rw [← step_believed hi p.1 p.2 hp]
    exact ih _ (step_exact hi p.1 p.2 hp).1 (fun q hq => hn q (List.mem_cons_of_mem _ hq))

theorem step_maxs (w : St) (e : Env) (o : Op) : (step w e o).1.maxs = w.maxs := by
  cases o <;> simp only [step]
  · unfold join
    repeat' (first | rfl | split | dsimp only)
  · unfold leave
    repeat' (first | rfl | split | dsimp only)
  · unfold block
    repeat' (first | rfl | split | dsimp only)
  · unfold setSources
    repeat' (first | rfl | split | dsimp only)
  · rfl
  · split <;> rfl

/-- The memberships after a history. -/
abbrev members (h : List (Env × Op)) : List M := believed [] (log init h)

/-- **C148.**  Whatever was called before, a call returns what the specification says and does to
the memberships what it says, or it is refused for one of the reasons of `Lacking` and does
nothing, or it does not return. -/
theorem calls_exact_partial (h : List (Env × Op)) (hn : ∀ p ∈ h, Named p.2) (e : Env) (o : Op) (ho : Named o) :
    let r := (step (run init h) e o).2
    r = .hang ∨ r = .fault ∨
      (∃ c, r = .ret c ∧ (Spec.call (members h) o).2 = c ∧ members (h ++ [(e, o)]) = (Spec.call (members h) o).1) ∨
      (∃ c, r = .ret c ∧ Spec.Lacking e 128 ((members h).countP (fun m => m.sock = caller o)) o c ∧ members (h ++ [(e, o)]) = members h) := by
  have hv : views (run init h) = members h := views_believed h init init_inv hn
  have hi := run_inv h init init_inv hn
  obtain ⟨_, h2, h3⟩ := step_exact hi e o ho
  have hstep : members (h ++ [(e, o)]) = views (step (run init h) e o).1 := by
    have h4 : ∀ p ∈ h ++ [(e, o)], Named p.2 := by
      intro p hp
      rcases List.mem_append.mp hp with hp | hp
      · exact hn p hp
      · rw [List.mem_singleton] at hp; subst hp; exact ho
    have := views_believed (h ++ [(e, o)]) init init_inv h4
    have hr : ∀ (h : List (Env × Op)) (w : St), run w (h ++ [(e, o)]) = (step (run w h) e o).1 := by
      intro h
      induction h with
      | nil => intro w; rfl
      | cons p h ih => intro w; exact ih _
    rw [hr] at this
    exact this.symm
  have hm : ∀ (h : List (Env × Op)) (w : St), (run w h).maxs = w.maxs := by
    intro h
    induction h with
    | nil => intro w; rfl
    | cons p h ih =>
      intro w
      show (run (step w p.1 p.2).1 h).maxs = _
      rw [ih]
      exact step_maxs w p.1 p.2
  have hs : ∀ i, socks (run init h) i = (members h).countP (fun m => m.sock = i) := by
    intro i
    rw [← hv]
    unfold socks views
    rw [List.countP_map]
    rfl
  intro r
  cases hr : r with
  | hang => exact .inl rfl
  | fault => exact .inr (.inl rfl)
  | ret c =>
    right; right
    rcases h3 c hr with q | ⟨q1, q2⟩
    · left
      rw [hv] at q
      exact ⟨c, rfl, by rw [q], by rw [hstep, q]⟩
    · right
      rw [hm, hs] at q2
      exact ⟨c, rfl, q2, by rw [hstep, q1, hv]⟩

theorem find_of_good {f : Filt} (a : Nat) : f.src.find? (fun s => decide (s.addr = a)) = none ↔ has f a = false := by
  unfold has
  rw [List.find?_eq_none, ← Bool.not_eq_true, List.any_eq_true]
  constructor
  · rintro h ⟨s, hs, q⟩; exact h s hs q
  · intro h s hs q; exact h ⟨s, hs, q⟩

theorem passes_eq {w : St} (hi : Inv w) (i k g a : Nat) :
    passes w i k g a = match Spec.find (views w) i (some k) g with | none => false | some m => m.excl || m.lst a := by
  unfold passes
  rw [find_views]
  match hm : matchGroup w i (some k) g with
  | none => rfl
  | some x =>
    obtain ⟨hx, _⟩ := match_mem hm
    have hg := hi.good x hx
    show (match x.f.src.find? (fun s => decide (s.addr = a)) with
      | none => decide (x.f.st1 ≠ Mode.incl)
      | some s => decide (s.s0 = x.f.st1)) = (decide (x.f.st0 = .excl) || has x.f a)
    match hf : x.f.src.find? (fun s => decide (s.addr = a)) with
    | none =>
      rw [(find_of_good a).mp hf, hf]
      dsimp only
      rw [hg.st]
      rcases good_excl hg with h | h <;> rw [h] <;> decide
    | some s =>
      have hs := List.mem_of_find?_eq_some hf
      have hsa := List.find?_some hf
      have : has x.f a = true := has_iff.mpr ⟨s, hs, by simpa using hsa⟩
      rw [this, hf]
      dsimp only
      rw [hg.st, (hg.src s hs).1]
      simp

/-- **C147, in part.**  A socket gets a multicast datagram only on an interface and for a group it
joined, and then according to its filter - unless the source is one it has blocked. -/
theorem delivery_partial (h : List (Env × Op)) (hn : ∀ p ∈ h, Named p.2) (i k g a : Nat) :
    (Spec.find (members h) i (some k) g = none → passes (run init h) i k g a = false) ∧
    (∀ m, Spec.find (members h) i (some k) g = some m → ¬ (m.excl = true ∧ m.lst a = true) → passes (run init h) i k g a = m.wants a) := by
  have hv : views (run init h) = members h := views_believed h init init_inv hn
  have hp := passes_eq (run_inv h init init_inv hn) i k g a
  rw [hv] at hp
  constructor
  · intro hf; rw [hp, hf]
  · intro m hf hb
    rw [hp, hf]
    unfold M.wants
    dsimp only
    cases he : m.excl with
    | false => rfl
    | true => cases hl : m.lst a with
      | false => rfl
      | true => exact absurd ⟨he, hl⟩ hb

/-- **C147, violated.**  A blocked source is not blocked: whatever was called before, datagrams of
a source in an EXCLUDE list are delivered. -/
theorem blocked_delivered_violated (h : List (Env × Op)) (hn : ∀ p ∈ h, Named p.2) (i k g a : Nat) (m : M)
    (hf : Spec.find (members h) i (some k) g = some m) (hx : m.excl = true) (hl : m.lst a = true) :
    passes (run init h) i k g a = true ∧ m.wants a = false := by
  have hv : views (run init h) = members h := views_believed h init init_inv hn
  have hp := passes_eq (run_inv h init init_inv hn) i k g a
  rw [hv, hf] at hp
  constructor
  · rw [hp]; simp [hx]
  · unfold M.wants; rw [hx, hl]; rfl

def calm : Env := ⟨false, fun _ => false, false⟩

def ops (l : List Op) : List (Env × Op) := l.map (fun o => (calm, o))

/-- A history of every kind of call, whose hypotheses hold; its answers are as specified. -/
example : (log init (ops [.join 1 (some 3) 900 none, .block 1 none 900 7 true, .block 1 none 900 7 true, .join 1 (some 3) 900 (some 5),
      .set 1 (some 3) 900 false [some 5, some 6], .leave 1 none 900 (some 5), .leave 1 (some 4) 900 none, .join 2 (some 3) 900 (some 5), .leave 1 none 900 none])).map (·.2)
    = [.ret .ok, .ret .ok, .ret .eaddrnotavail, .ret .einval, .ret .ok, .ret .ok, .ret .eaddrnotavail, .ret .ok, .ret .ok] := by decide +kernel

/-- Blocking source 7 and receiving from it all the same. -/
example : passes (run init (ops [.join 1 (some 3) 900 none, .block 1 none 900 7 true])) 1 3 900 7 = true := by decide +kernel

/-- INCLUDE lists work. -/
example : let w := run init (ops [.join 1 (some 3) 900 (some 5)]); passes w 1 3 900 5 = true ∧ passes w 1 3 900 6 = false ∧ passes w 1 4 900 5 = false := by decide +kernel

/-! ## Setting a filter -/

/-- **C149.**  Setting a filter with at least one source replaces the old one. -/
theorem set_replaces_partial (h : List (Env × Op)) (hn : ∀ p ∈ h, Named p.2) (e : Env) (i k g : Nat) (excl : Bool) (srcs : List (Option Nat)) (hne : srcs ≠ [])
    (m : M) (hf : Spec.find (members h) i (some k) g = some m) (hr : (step (run init h) e (.set i (some k) g excl srcs)).2 = .ret .ok) :
    members (h ++ [(e, .set i (some k) g excl srcs)]) = Spec.put (members h) m excl (fun a => some a ∈ srcs) := by
  rcases calls_exact_partial h hn e (.set i (some k) g excl srcs) hne with q | q | ⟨c, q1, q2, q3⟩ | ⟨c, q1, q2, q3⟩
  · rw [hr] at q; cases q
  · rw [hr] at q; cases q
  · rw [q3]
    unfold Spec.call
    dsimp only
    rw [hf]
  · rw [hr] at q1; injection q1 with q1; subst q1; exact q2.elim

/-- **C149, violated.**  An empty list replaces nothing: the source blocked before is still in the
list (blocking it again is refused), though the call returns 0. -/
theorem set_empty_violated :
    (log init (ops [.join 1 (some 3) 900 none, .block 1 none 900 7 true, .set 1 (some 3) 900 true [], .block 1 none 900 7 true])).map (·.2)
      = [.ret .ok, .ret .ok, .ret .ok, .ret .eaddrnotavail] := by decide +kernel

/-- **C149, violated.**  Asking for everything after having asked for source 5 only: source 5 is
the only one not received. -/
theorem set_everything_violated :
    let w := run init (ops [.join 1 (some 3) 900 (some 5), .set 1 (some 3) 900 true []])
    (log init (ops [.join 1 (some 3) 900 (some 5), .set 1 (some 3) 900 true []])).map (·.2) = [.ret .ok, .ret .ok] ∧
    passes w 1 3 900 5 = false ∧ ∀ a, a ≠ 5 → passes w 1 3 900 a = true := by
  refine ⟨by decide +kernel, by decide +kernel, ?_⟩
  intro a ha
  have hw : (run init (ops [.join 1 (some 3) 900 (some 5), .set 1 (some 3) 900 true []])).mem =
      [⟨1, 3, 900, ⟨[⟨5, .incl, .incl⟩], .excl, .excl⟩⟩] := by decide +kernel
  unfold passes matchGroup
  rw [hw]
  simp [Ne.symm ha]

/-- **C149, violated.**  Up to 128 sources may be given; but a list of 128 is refused if the old
list had another source. -/
theorem set_full_violated :
    (step (run init (ops [.join 1 (some 3) 900 (some 1000)])) calm (.set 1 (some 3) 900 false ((List.range 128).map some))).2 = .ret .enospc ∧
    (step (run init (ops [.join 1 (some 3) 900 (some 0)])) calm (.set 1 (some 3) 900 false ((List.range 128).map some))).2 = .ret .ok := by
  decide +kernel

/-! ## Limits -/

/-- **C150, violated.**  The limit of 128 sources per membership does not hold for blocking. -/
theorem block_unlimited_violated :
    ((run init (ops (.join 1 (some 3) 900 none :: (List.range 129).map (fun a => .block 1 none 900 a true)))).mem.map (fun x => x.f.src.length)) = [129] := by
  decide +kernel

theorem full_fault {w : St} {e : Env} {i : Nat} {ifp : Option Nat} {g a : Nat} {x : Ent} {r : Inm} (hm : matchGroup w i ifp g = some x)
    (hx : Good x.f) (he : x.f.st0 = .excl) (ha : has x.f a = false) (hnm : e.noMem = false) (hl : w.lock = false)
    (hr : w.grps.find? (fun y => y.ifp = x.ifp ∧ y.grp = g) = some r) (hfull : r.srcs.length = w.maxg) (hra : r.srcs.any (fun n => n.addr = a) = false) :
    block w e i ifp g a true = (w, .fault) := by
  unfold block
  rw [hm]
  dsimp only
  rw [if_neg (fun q => q he), if_neg (by show ¬ has x.f a = true; rw [ha]; decide), if_neg (by rw [hnm]; decide), if_neg (by rw [hl]; decide), if_pos rfl]
  have : mergeAt w e x.ifp g (imfGraft x.f .excl a) = none := by
    unfold mergeAt
    rw [hr]
    dsimp only
    unfold inmMerge
    have : mergeSrcs w.maxg e.noMemG r.srcs (imfGraft x.f .excl a).src = none := by
      show mergeSrcs _ _ _ (⟨a, .undef, .excl⟩ :: x.f.src) = none
      rw [mergeSrcs, if_neg (show ¬ (Mode.undef = Mode.excl) by decide)]
      have : mergeOne w.maxg e.noMemG r.srcs ⟨a, .undef, .excl⟩ = none := by
        unfold mergeOne
        dsimp only
        rw [if_neg (by rw [hra]; decide), if_pos (.inl hfull)]
      rw [this]
    rw [this]
  rw [this]

end Verif.Mcast

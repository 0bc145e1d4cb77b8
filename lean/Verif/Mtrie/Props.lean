import Verif.Mtrie.Bits
import Verif.Radix.Props
/-!
# Properties C12, C13: the mtrie IPv4 tables

A user's view: `Op` are the calls, `step` what the library does (`none`: it dereferences a null pointer), `specStep`
what the calls mean for the tables, prefix ↦ next hop.
-/
namespace Verif.Mtrie
open Verif.Radix

/-- Calls on the IPv4 route table of VRF `v`. -/
inductive Op
  | add (v : Nat) (a : BitVec 32) (len nh : Nat)
  | del (v : Nat) (a : BitVec 32) (len : Nat)

/-- The meaning of a call. -/
def specStep (T : Nat → Spec.Table Nat) : Op → Nat → Spec.Table Nat
  | .add v a len d => updT T v ((T v).add (pfx a len) d)
  | .del v a len => updT T v ((T v).del (pfx a len))

/-- `ofp_set_route_params` (src/ofp_route.c:345-380) for additions and deletions, after initialisation. -/
def step (s : St) : Op → Option St
  | .add v a len d => some (addRoute s v a.toNat len d).1
  | .del v a len => match delRoute s v a.toNat len with
    | .crash => none
    | .done s _ => some s

def run (s : St) : List Op → Option St
  | [] => some s
  | o :: os => match step s o with
    | none => none
    | some s => run s os

def specRun (T : Nat → Spec.Table Nat) : List Op → Nat → Spec.Table Nat
  | [] => T
  | o :: os => specRun (specStep T o) os

/-- No routes. -/
def noRoutes : Nat → Spec.Table Nat := fun _ => Spec.Table.empty

/-- Another route, longer than `lo` bits and sharing its first `lo` bits with `a`, stays when `a/len` is deleted. -/
def Stays (T : Nat → Spec.Table Nat) (v : Nat) (a : BitVec 32) (len lo : Nat) : Prop :=
  ∃ (b : BitVec 32) (l : Nat), lo < l ∧ l ≤ 32 ∧ pfx b lo = pfx a lo ∧ pfx b l ≠ pfx a len ∧ T v (pfx b l) ≠ none

/-- What the partial theorems ask of a call: a valid VRF, a prefix length from 1 to 32, room for the rule, and for the
deletion of a stored route of more than 16 (24) bits, another such route in the same /16 (/24). -/
def Fair (roots : Nat) (s : St) (T : Nat → Spec.Table Nat) : Op → Prop
  | .add v a len d => v < roots ∧ 1 ≤ len ∧ len ≤ 32 ∧ (T v (pfx a len) ≠ none ∨ s.nrules < s.maxrules) ∧
      (addRoute s v a.toNat len d).2 = true
  | .del v a len => v < roots ∧ 1 ≤ len ∧ len ≤ 32 ∧ (T v (pfx a len) ≠ none →
      ∀ lo, lo = 16 ∨ lo = 24 → lo < len → Stays T v a len lo)

/-- Every history of fair calls, with the tables it means and its length. -/
inductive Hist (roots nodes maxrules : Nat) : St → (Nat → Spec.Table Nat) → Nat → Prop
  | init : Hist roots nodes maxrules (St.init roots nodes maxrules) noRoutes 0
  | step {s s' T k} (o : Op) : Hist roots nodes maxrules s T k → Fair roots s T o → step s o = some s' →
      Hist roots nodes maxrules s' (specStep T o) (k + 1)

/-! ## The invariant over histories -/

theorem pfx_iff (a : BitVec 32) (len a' m' : Nat) (hl : len ≤ 32) (h1 : a' < 2 ^ 32) (h2 : m' ≤ 32) (h3 : net a' m' = a') :
    pfx (BitVec.ofNat 32 a') m' = pfx a len ↔ a' = net a.toNat len ∧ m' = len := by
  have e : (BitVec.ofNat 32 a').toNat = a' := by rw [BitVec.toNat_ofNat, Nat.mod_eq_of_lt h1]
  constructor
  · intro h
    have hm := take_eq_len _ _ _ _ h2 hl h
    subst hm
    have := (take_eq_iff _ _ m' h2).1 h
    rw [e, ← net_eq_iff, h3] at this
    exact ⟨this, rfl⟩
  · rintro ⟨h, rfl⟩
    apply (take_eq_iff _ _ m' h2).2
    rw [e, h, blk_net]

theorem rulesOf_upd (T : Nat → Spec.Table Nat) (v : Nat) (a : BitVec 32) (len : Nat) (hl : len ≤ 32) (x : Option Nat)
    (tb : Spec.Table Nat) (htb : ∀ q, tb q = if q = pfx a len then x else T v q) :
    rulesOf (updT T v tb) = fun v' a' m' => if v' = v ∧ a' = net a.toNat len ∧ m' = len then x else rulesOf T v' a' m' := by
  funext v' a' m'
  have hvalid : net a.toNat len < 2 ^ 32 ∧ len ≤ 32 ∧ net (net a.toNat len) len = net a.toNat len :=
    ⟨net_lt _ _ a.isLt, hl, net_net _ _⟩
  unfold rulesOf updT
  by_cases hval : a' < 2 ^ 32 ∧ m' ≤ 32 ∧ net a' m' = a'
  · rw [if_pos hval, if_pos hval]
    obtain ⟨h1, h2, h3⟩ := hval
    by_cases hv : v' = v
    · subst hv
      rw [if_pos rfl, htb]
      by_cases hc : a' = net a.toNat len ∧ m' = len
      · rw [if_pos (show List.take m' (Spec.bits4 (BitVec.ofNat 32 a')) = pfx a len from (pfx_iff a len a' m' hl h1 h2 h3).2 hc), if_pos ⟨rfl, hc⟩]
      · rw [if_neg (show ¬ List.take m' (Spec.bits4 (BitVec.ofNat 32 a')) = pfx a len from fun hh => hc ((pfx_iff a len a' m' hl h1 h2 h3).1 hh)), if_neg (fun hh => hc hh.2)]
    · rw [if_neg hv, if_neg (fun hh => hv hh.1)]
  · rw [if_neg hval, if_neg hval]
    rw [if_neg (fun hh => hval (by rw [hh.2.1, hh.2.2]; exact hvalid))]

theorem range'_linked (roots nodes maxrules : Nat) : ∀ k b, roots ≤ b → b + k = roots + nodes →
    Linked (St.init roots nodes maxrules) (List.range' b k) := by
  intro k
  induction k with
  | zero => intro b _ _; trivial
  | succ k ih =>
    intro b hb hk
    cases k with
    | zero =>
      show (if 0 = 0 ∧ roots ≤ b ∧ b + 1 < roots + nodes then some (b + 1) else none) = none
      rw [if_neg (by omega)]
    | succ k =>
      refine ⟨?_, ih (b + 1) (by omega) (by omega)⟩
      show (if 0 = 0 ∧ roots ≤ b ∧ b + 1 < roots + nodes then some (b + 1) else none) = some (b + 1)
      rw [if_pos ⟨rfl, hb, by omega⟩]

theorem init_inv (roots nodes maxrules : Nat) :
    ∃ lab, Inv (St.init roots nodes maxrules) lab (rulesOf noRoutes) (rulesOf noRoutes) 0 0 0 nodes := by
  have hno : ∀ v a m, rulesOf noRoutes v a m = none := by
    intro v a m; unfold rulesOf; split
    · rfl
    · rfl
  refine ⟨fun n => if n < roots then some (n, 0, 0) else none, ?_, ?_, ?_, ?_, ?_, ?_, ?_, ?_⟩
  · intro n v low p hl
    split at hl
    · next h => cases hl; exact ⟨Or.inl rfl, h, fun _ => rfl, fun _ => h⟩
    · cases hl
  · intro v hv
    exact if_pos hv
  · intro c v hi q hl h0
    split at hl
    · cases hl; exact absurd rfl h0
    · cases hl
  · intro n v low p hl i hi
    refine EntOK.fresh rfl ?_ ?_
    · intro x _ _ m _ _
      simp only [Nat.not_lt_zero, if_false]
      exact hno _ _ _
    · split at hl
      · cases hl; decide
      · cases hl
  · intro n v low p hl i hi c hc
    split at hl
    · next h =>
      have : (if i = 0 ∧ roots ≤ n ∧ n + 1 < roots + nodes then some (n + 1) else none) = some c := hc
      rw [if_neg (by omega)] at this
      cases this
    · cases hl
  · intro n v low p hl L hnd hL
    cases L with
    | nil => exact Nat.zero_le _
    | cons k L =>
      have := (hL k (by simp)).2.2.2.2.2
      simp only [Nat.not_lt_zero, if_false] at this
      exact absurd (hno _ _ _) this
  · intro n; exact Nat.le_refl _
  · refine ⟨List.range' roots nodes, ⟨List.nodup_range', by rw [List.length_range']; exact Nat.le_refl _⟩, ?_, ?_, ?_, ?_⟩
    · show (if nodes = 0 then none else some roots) = _
      cases nodes with
      | zero => rfl
      | succ k => rfl
    · show (if nodes = 0 then none else some (roots + nodes - 1)) = _
      cases nodes with
      | zero => rfl
      | succ k => rw [List.range'_1_concat, List.getLast?_concat, if_neg (by omega)]; congr 1
    · exact range'_linked roots nodes maxrules nodes roots (Nat.le_refl _) rfl
    · intro n hn
      rw [List.mem_range'_1] at hn
      refine ⟨if_neg (by omega), hn.1, fun i => ⟨rfl, fun h => ?_⟩⟩
      show (if i = 0 ∧ roots ≤ n ∧ n + 1 < roots + nodes then some (n + 1) else none) = none
      rw [if_neg (fun hh => h hh.1)]

theorem pfx_ne_nil (a : BitVec 32) (len : Nat) (h : 1 ≤ len) (h2 : len ≤ 32) : pfx a len ≠ [] := by
  intro hh
  have := take_length a len h2
  rw [show (Spec.bits4 a).take len = pfx a len from rfl, hh] at this
  simp at this
  omega

/-- What is true after `k` fair calls. -/
def Good (roots nodes : Nat) (s : St) (T : Nat → Spec.Table Nat) (k : Nat) : Prop :=
  (∃ lab, Inv s lab (rulesOf T) (rulesOf T) 0 0 (3 * k) (nodes - 2 * k)) ∧ s.rules = rulesOf T ∧ s.roots = roots ∧
    ∀ v, T v [] = none

theorem Good.le {roots nodes s T k} (h : Good roots nodes s T k) : Good roots nodes s T (k + 1) := by
  obtain ⟨⟨lab, h1⟩, h2⟩ := h
  exact ⟨⟨lab, (h1.mono (by omega)).fless (by omega)⟩, h2⟩

/-- A deletion. -/
theorem del_good {roots nodes : Nat} {s : St} {T : Nat → Spec.Table Nat} {k : Nat} (h : Good roots nodes s T k)
    (hk : 3 * (k + 1) < 2 ^ 16) (v : Nat) (a : BitVec 32) (len : Nat) (hf : Fair roots s T (.del v a len)) :
    ∃ s', delRoute s v a.toNat len = .done s' (T v (pfx a len)).isSome ∧
      Good roots nodes s' (specStep T (.del v a len)) (k + 1) := by
  obtain ⟨hv, hl1, hl2, hq⟩ := hf
  have h0 := h
  obtain ⟨⟨lab, h1⟩, h2, h3, h4⟩ := h
  have hr := rulesOf_net T v a len hl2
  have hr' : rulesOf T v (net a.toNat len) len = T v (pfx a len) := hr
  have hupd := rulesOf_upd T v a len hl2 none ((T v).del (pfx a len)) (fun q => rfl)
  have hnil : ∀ w, specStep T (.del v a len) w [] = none := by
    intro w
    show updT T v ((T v).del (pfx a len)) w [] = none
    unfold updT
    split
    · unfold Spec.Table.del
      split
      · rfl
      · exact h4 v
    · exact h4 w
  cases ht : T v (pfx a len) with
  | none =>
    have hrem : remove s v a.toNat len = .done s false := by
      unfold remove ruleSearch
      rw [netPrefix_eq _ _ a.isLt hl2, h2, hr', ht]
    refine ⟨s, ?_, ?_⟩
    · unfold delRoute
      rw [hrem]
      simp only
      unfold ruleRemove
      simp only
      rw [netPrefix_eq _ _ a.isLt hl2, if_pos (by rw [h2, hr', ht])]
      rfl
    · have hTs : specStep T (.del v a len) = T := by
        funext w q
        show updT T v ((T v).del (pfx a len)) w q = T w q
        unfold updT
        split
        · next hw =>
          subst hw
          unfold Spec.Table.del
          split
          · next hq' => rw [hq', ht]
          · rfl
        · rfl
      rw [hTs]
      exact h0.le
  | some d =>
    have hT' : rulesOf (specStep T (.del v a len)) v (net a.toNat len) len = none := by
      show rulesOf (updT T v ((T v).del (pfx a len))) v (net a.toNat len) len = none
      rw [hupd]
      simp only
      rw [if_pos (by simp)]
    have hu : Upd (rulesOf T) (rulesOf (specStep T (.del v a len))) v (net a.toNat len) len := by
      intro v' a' m' hne
      show rulesOf (updT T v ((T v).del (pfx a len))) v' a' m' = _
      rw [hupd]
      simp only
      rw [if_neg hne]
    obtain ⟨s', r1, r2, r3⟩ := remove_inv h1 (by omega) v a.toNat len d (by rw [h3]; exact hv) h2 hu
      (by rw [hr', ht]) hT' a.isLt hl1 hl2 (by
        intro lo hlo hlt
        obtain ⟨b, l, b1, b2, b3, b4, b5⟩ := hq (by rw [ht]; intro hh; cases hh) lo hlo hlt
        refine ⟨(net b.toNat l, l), ?_, b1, b2, net_lt _ _ b.isLt, net_net _ _, ?_, ?_⟩
        · intro hh
          obtain ⟨e1, e2⟩ := Prod.mk.inj hh
          subst e2
          exact b4 ((take_eq_iff _ _ l b2).2 ((net_eq_iff _ _ _).1 e1))
        · rw [blk_netle _ _ _ (by omega) b2]
          exact (take_eq_iff _ _ lo (by omega)).1 b3
        · have : rulesOf T v (net b.toNat l) l = T v (pfx b l) := rulesOf_net T v b l b2
          simp only
          rw [this]; exact b5)
    refine ⟨ruleRemove s' v a.toNat len, ?_, ?_⟩
    · unfold delRoute
      rw [r1]
      rfl
    · unfold ruleRemove
      simp only
      rw [netPrefix_eq _ _ a.isLt hl2, if_neg (by rw [r3.2.1, h2, hr', ht]; intro hh; cases hh)]
      refine ⟨⟨lab, ?_⟩, ?_, r3.1.trans h3, hnil⟩
      · have r2' := (r2.mono (K' := 3 * (k + 1)) (by omega)).fless (F' := nodes - 2 * (k + 1)) (by omega)
        obtain ⟨l, l1, l2, l3, l4, l5⟩ := r2'.free
        exact ⟨r2'.lv, r2'.root, r2'.par, r2'.ent, r2'.chl, r2'.ref, r2'.refle, l, l1, l2, l3, linked_congr s' _ l (fun _ _ => rfl) l4, l5⟩
      · show _ = rulesOf (updT T v ((T v).del (pfx a len)))
        rw [hupd]
        simp only
        funext v' a' m'
        rw [r3.2.1, h2]

/-- An addition. -/
theorem add_good {roots nodes : Nat} {s : St} {T : Nat → Spec.Table Nat} {k : Nat} (h : Good roots nodes s T k)
    (hk : 3 * (k + 1) < 2 ^ 16) (v : Nat) (a : BitVec 32) (len d : Nat) (hf : Fair roots s T (.add v a len d)) :
    Good roots nodes (addRoute s v a.toNat len d).1 (specStep T (.add v a len d)) (k + 1) := by
  obtain ⟨hv, hl1, hl2, hroom, hok⟩ := hf
  obtain ⟨⟨lab, h1⟩, h2, h3, h4⟩ := h
  have hr' : rulesOf T v (net a.toNat len) len = T v (pfx a len) := rulesOf_net T v a len hl2
  have hupd := rulesOf_upd T v a len hl2 (some d) ((T v).add (pfx a len) d) (fun q => rfl)
  have hT' : rulesOf (specStep T (.add v a len d)) v (net a.toNat len) len = some d := by
    show rulesOf (updT T v ((T v).add (pfx a len) d)) v (net a.toNat len) len = some d
    rw [hupd]
    simp only
    rw [if_pos (by simp)]
  have hu : Upd (rulesOf T) (rulesOf (specStep T (.add v a len d))) v (net a.toNat len) len := by
    intro v' a' m' hne
    show rulesOf (updT T v ((T v).add (pfx a len) d)) v' a' m' = _
    rw [hupd]
    simp only
    rw [if_neg hne]
  obtain ⟨r1, _, r3⟩ := insert_inv (T' := rulesOf (specStep T (.add v a len d))) h1 (by omega) v a.toNat len d
    (by rw [h3]; exact hv) hu hT' a.isLt hl1 hl2
  unfold addRoute at hok ⊢
  simp only at hok ⊢
  obtain ⟨lab', i'⟩ := r1 hok
  have i2 := (i'.mono (K' := 3 * (k + 1)) (by omega)).fless (F' := nodes - 2 * (k + 1)) (by omega)
  have hnil : ∀ w, specStep T (.add v a len d) w [] = none := by
    intro w
    show updT T v ((T v).add (pfx a len) d) w [] = none
    unfold updT
    split
    · unfold Spec.Table.add
      split
      · next hh => exact absurd hh.symm (pfx_ne_nil a len hl1 hl2)
      · exact h4 v
    · exact h4 w
  have hrules : (ruleAdd (insert s v a.toNat len d).1 v a.toNat len d).rules = rulesOf (specStep T (.add v a len d)) := by
    show _ = rulesOf (updT T v ((T v).add (pfx a len) d))
    rw [hupd]
    unfold ruleAdd
    simp only
    rw [netPrefix_eq _ _ a.isLt hl2, r3.2.1, h2, hr', r3.2.2.1, r3.2.2.2]
    split
    · rfl
    · next hn =>
      rw [if_pos (by rcases hroom with hh | hh; exact absurd hh hn; exact hh)]
  have hsame : ∃ R nr, ruleAdd (insert s v a.toNat len d).1 v a.toNat len d = { (insert s v a.toNat len d).1 with
      rules := R
      nrules := nr } := by
    unfold ruleAdd
    simp only
    split
    · exact ⟨_, _, rfl⟩
    · split
      · exact ⟨_, _, rfl⟩
      · exact ⟨_, _, rfl⟩
  obtain ⟨R, nr, e⟩ := hsame
  refine ⟨⟨lab', ?_⟩, hrules, ?_, hnil⟩
  · rw [e]
    obtain ⟨l, l1, l2, l3, l4, l5⟩ := i2.free
    exact ⟨i2.lv, i2.root, i2.par, i2.ent, i2.chl, i2.ref, i2.refle, l, l1, l2, l3, linked_congr (insert s v a.toNat len d).1 _ l (fun _ _ => rfl) l4, l5⟩
  · rw [e]; exact r3.1.trans h3

theorem hist_good {roots nodes maxrules : Nat} {s : St} {T : Nat → Spec.Table Nat} {k : Nat}
    (h : Hist roots nodes maxrules s T k) : 3 * k < 2 ^ 16 → Good roots nodes s T k := by
  induction h with
  | init => intro _; exact ⟨init_inv roots nodes maxrules, by
      funext v a m
      show none = rulesOf noRoutes v a m
      unfold rulesOf; split <;> rfl, rfl, fun _ => rfl⟩
  | @step s s' T k o hh hf hs ih =>
    intro hk
    have g := ih (by omega)
    cases o with
    | add v a len d =>
      cases hs
      exact add_good g hk v a len d hf
    | del v a len =>
      obtain ⟨s2, e, g2⟩ := del_good g hk v a len hf
      simp only [Verif.Mtrie.step] at hs
      rw [e] at hs
      cases hs
      exact g2

/-! ## C12 -/

/-- **C12 (partial).** After every history of fair calls (see `Fair`) of fewer than 21846 calls, a lookup returns the
next hop of the longest stored prefix of the address, and nothing if there is none.
Missing: the default route, failing additions, the deletion of the last long route of a /16 or /24, and longer
histories (16-bit reference counters). Lookups are then wrong: see the theorems `*_violated` below. -/
theorem mtrie_lpm_partial {roots nodes maxrules : Nat} {s : St} {T : Nat → Spec.Table Nat} {k : Nat}
    (h : Hist roots nodes maxrules s T k) (hk : 3 * k < 2 ^ 16) (v : Nat) (hv : v < roots) (x : BitVec 32) :
    Spec.IsLpm (T v) (Spec.bits4 x) (search s v x.toNat) := by
  obtain ⟨⟨lab, h1⟩, h2, h3, h4⟩ := hist_good h hk
  have hr : ∀ m, m ≤ 32 → rulesOf T v (net x.toNat m) m = T v ((Spec.bits4 x).take m) := fun m hm => rulesOf_net T v x m hm
  rcases search_spec h1 v x.toNat (by rw [h3]; exact hv) x.isLt with ⟨m, d, p1, p2, p3, p4, p5⟩ | ⟨p1, p2⟩
  · left
    rw [hr m p2] at p3
    refine ⟨d, m, by rw [bits4_length]; exact p2, p3, ?_, p5⟩
    intro j hj hj'
    rw [bits4_length] at hj'
    rw [← hr j hj']; exact p4 j hj hj'
  · right
    refine ⟨fun m hm => ?_, p2⟩
    rw [bits4_length] at hm
    cases m with
    | zero => exact h4 v
    | succ m => rw [← hr (m + 1) hm]; exact p1 (m + 1) (by omega) hm

/-- With enough free tables (two per call) an addition never fails. -/
theorem mtrie_add_succeeds {roots nodes maxrules : Nat} {s : St} {T : Nat → Spec.Table Nat} {k : Nat}
    (h : Hist roots nodes maxrules s T k) (hk : 3 * (k + 1) < 2 ^ 16) (hn : 2 * (k + 1) ≤ nodes) (v : Nat) (hv : v < roots)
    (a : BitVec 32) (len d : Nat) (hl1 : 1 ≤ len) (hl2 : len ≤ 32) : (addRoute s v a.toNat len d).2 = true := by
  obtain ⟨⟨lab, h1⟩, h2, h3, h4⟩ := hist_good h (by omega)
  have hupd := rulesOf_upd T v a len hl2 (some d) ((T v).add (pfx a len) d) (fun q => rfl)
  refine (insert_inv (T' := rulesOf (specStep T (.add v a len d))) h1 (by omega) v a.toNat len d
    (by rw [h3]; exact hv) ?_ ?_ a.isLt hl1 hl2).2.1 (by omega)
  · intro v' a' m' hne
    show rulesOf (updT T v ((T v).add (pfx a len) d)) v' a' m' = _
    rw [hupd]
    simp only
    rw [if_neg hne]
  · show rulesOf (updT T v ((T v).add (pfx a len) d)) v (net a.toNat len) len = some d
    rw [hupd]
    simp only
    rw [if_pos (by simp)]

/-! ## C13 -/

/-- **C13 (partial).** After every history of fair calls, a fair deletion does not dereference a null pointer, and it
reports success exactly when the route was stored.
Missing: the deletions that `Fair` excludes, and the return of the tables to the pool, see `*_violated`. -/
theorem mtrie_delete_safe_partial {roots nodes maxrules : Nat} {s : St} {T : Nat → Spec.Table Nat} {k : Nat}
    (h : Hist roots nodes maxrules s T k) (hk : 3 * (k + 1) < 2 ^ 16) (v : Nat) (a : BitVec 32) (len : Nat)
    (hf : Fair roots s T (.del v a len)) :
    ∃ s', delRoute s v a.toNat len = .done s' (T v (pfx a len)).isSome :=
  let ⟨s', e, _⟩ := del_good (hist_good h (by omega)) hk v a len hf
  ⟨s', e⟩

end Verif.Mtrie

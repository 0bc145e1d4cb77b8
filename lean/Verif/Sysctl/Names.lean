import Verif.Sysctl.Model
/-!
# Names of sysctl variables
-/
namespace Verif.Sysctl

/-! ## Specification -/

/-- `o` is found under the path `cs` below the list `l`: an entry of that name, in the list of children of the node that is
found under the path before.  Nothing is said about numbers or order. -/
inductive At (t : Tree) : Nat → List (List Char) → Oid → Prop where
  | leaf {l c o} : o ∈ t.lists l → o.name = c → At t l [c] o
  | node {l c o c' cs o'} : o ∈ t.lists l → o.name = c → o.node = true → o.handler = .none → At t o.child (c' :: cs) o' →
      At t l (c :: c' :: cs) o'

/-- The dotted name of a path. -/
def dotted : List (List Char) → List Char
  | [] => []
  | [c] => c
  | c :: cs => c ++ '.' :: dotted cs

/-- A name that can be part of a dotted name. -/
def Plain (c : List Char) : Prop := c ≠ [] ∧ '.' ∉ c

/-! ## Invariants -/

/-- Names are unique in every list, lists are in order, those not in use are empty, and nodes refer to others. -/
structure Inv (t : Tree) : Prop where
  names : ∀ l, (t.lists l).Pairwise (fun a b => a.name ≠ b.name)
  fresh : ∀ l, t.used ≤ l → t.lists l = []
  sorted : ∀ l, (t.lists l).Pairwise (fun a b => a.number ≤ b.number)
  child : ∀ l, ∀ o ∈ t.lists l, o.node = true → o.child < t.used

/-- Numbers are unique in every list. -/
def Numbered (t : Tree) : Prop := ∀ l, (t.lists l).Pairwise (fun a b => a.number ≠ b.number)

theorem mem_insertOid {o p : Oid} {os : List Oid} : p ∈ insertOid o os ↔ p = o ∨ p ∈ os := by
  induction os with
  | nil => simp [insertOid]
  | cons q qs ih =>
    unfold insertOid
    split
    · simp
    · simp only [List.mem_cons, ih]
      constructor <;> (intro h; rcases h with h | h | h <;> simp [h])

theorem pairwise_insertOid {R : Oid → Oid → Prop} (hs : ∀ a b, R a b → R b a) {o : Oid} {os : List Oid}
    (h : os.Pairwise R) (ho : ∀ p ∈ os, R o p) : (insertOid o os).Pairwise R := by
  induction os with
  | nil => simp [insertOid]
  | cons q qs ih =>
    unfold insertOid
    split
    · exact List.pairwise_cons.mpr ⟨ho, h⟩
    · have hq := List.pairwise_cons.mp h
      refine List.pairwise_cons.mpr ⟨fun p hp => ?_, ih hq.2 (fun p hp => ho p (by simp [hp]))⟩
      rcases mem_insertOid.mp hp with rfl | hp
      · exact hs _ _ (ho q (by simp))
      · exact hq.1 p hp

theorem sorted_insertOid {o : Oid} {os : List Oid} (h : os.Pairwise (fun a b => a.number ≤ b.number)) :
    (insertOid o os).Pairwise (fun a b => a.number ≤ b.number) := by
  induction os with
  | nil => simp [insertOid]
  | cons q qs ih =>
    have hq := List.pairwise_cons.mp h
    unfold insertOid
    split
    · refine List.pairwise_cons.mpr ⟨fun p hp => ?_, h⟩
      rcases List.mem_cons.mp hp with rfl | hp
      · omega
      · have := hq.1 p hp; omega
    · refine List.pairwise_cons.mpr ⟨fun p hp => ?_, ih hq.2⟩
      rcases mem_insertOid.mp hp with rfl | hp
      · omega
      · exact hq.1 p hp

theorem findName_none {c : List Char} {os : List Oid} : findName c os = none ↔ ∀ o ∈ os, o.name ≠ c := by
  induction os with
  | nil => simp [findName]
  | cons q qs ih =>
    unfold findName
    split
    · rename_i h; simp [h]
    · rename_i h; simp [ih, h]

theorem findName_some {c : List Char} {os : List Oid} {o : Oid} (h : findName c os = some o) : o ∈ os ∧ o.name = c := by
  induction os with
  | nil => simp [findName] at h
  | cons q qs ih =>
    unfold findName at h
    split at h
    · rename_i hc; simp at h; subst h; exact ⟨by simp, hc⟩
    · obtain ⟨a, b⟩ := ih h; exact ⟨by simp [a], b⟩

theorem findName_mem {c : List Char} {os : List Oid} (hu : os.Pairwise (fun a b => a.name ≠ b.name)) {o : Oid}
    (hm : o ∈ os) (hc : o.name = c) : findName c os = some o := by
  induction os with
  | nil => simp at hm
  | cons q qs ih =>
    have hq := List.pairwise_cons.mp hu
    unfold findName
    rcases List.mem_cons.mp hm with rfl | hm
    · rw [if_pos hc]
    · rw [if_neg (fun h => hq.1 o hm (h.trans hc.symm))]
      exact ih hq.2 hm

theorem findNumber_some {n : Int} {os : List Oid} {o : Oid} (h : findNumber n os = some o) : o ∈ os ∧ o.number = n := by
  induction os with
  | nil => simp [findNumber] at h
  | cons q qs ih =>
    unfold findNumber at h
    split at h
    · rename_i hc; simp at h; subst h; exact ⟨by simp, hc⟩
    · obtain ⟨a, b⟩ := ih h; exact ⟨by simp [a], b⟩

theorem findNumber_mem {os : List Oid} (hu : os.Pairwise (fun a b => a.number ≠ b.number)) {o : Oid}
    (hm : o ∈ os) : findNumber o.number os = some o := by
  induction os with
  | nil => simp at hm
  | cons q qs ih =>
    have hq := List.pairwise_cons.mp hu
    unfold findNumber
    rcases List.mem_cons.mp hm with rfl | hm
    · rw [if_pos rfl]
    · rw [if_neg (hq.1 o hm)]
      exact ih hq.2 hm

/-- The lists after a registration that takes place. -/
theorem register_lists {t : Tree} {l : Nat} {o : Oid} (h : findName o.name (t.lists l) = none) :
    (∀ i, i ≠ l → (register t l o).lists i = t.lists i) ∧
    (register t l o).lists l = insertOid (if o.number = auto then { o with number := t.newoid } else o) (t.lists l) := by
  unfold register
  rw [h]
  exact ⟨fun i hi => by simp only; rw [if_neg hi], by simp only; rw [if_pos trivial]⟩

theorem register_old {t : Tree} {l : Nat} {o p : Oid} (h : findName o.name (t.lists l) = some p) : register t l o = t := by
  unfold register; rw [h]

theorem register_used (t : Tree) (l : Nat) (o : Oid) : (register t l o).used = t.used := by
  unfold register; split <;> rfl

theorem register_inv {t : Tree} (h : Inv t) {l : Nat} (hl : l < t.used) (o : Oid) (hc : o.node = true → o.child < t.used) :
    Inv (register t l o) := by
  cases hf : findName o.name (t.lists l) with
  | some p => rw [register_old hf]; exact h
  | none =>
    obtain ⟨h1, h2⟩ := register_lists hf
    refine ⟨fun i => ?_, fun i hi => ?_, fun i => ?_, fun i p hp => ?_⟩
    · by_cases hi : i = l
      · subst hi
        rw [h2]
        refine pairwise_insertOid (fun a b hab => Ne.symm hab) (h.names i) (fun p hp => ?_)
        have := findName_none.mp hf p hp
        split <;> exact Ne.symm this
      · rw [h1 i hi]; exact h.names i
    · rw [register_used] at hi
      rw [h1 i (by omega)]; exact h.fresh i hi
    · by_cases hi : i = l
      · subst hi; rw [h2]; exact sorted_insertOid (h.sorted i)
      · rw [h1 i hi]; exact h.sorted i
    · rw [register_used]
      by_cases hi : i = l
      · subst hi
        rw [h2] at hp
        rcases mem_insertOid.mp hp with rfl | hp
        · split <;> exact hc
        · exact h.child i p hp
      · rw [h1 i hi] at hp; exact h.child i p hp

/-- The lists an operation uses exist. -/
def Op.Valid (t : Tree) : Op → Prop
  | .register l o => l < t.used ∧ (o.node = true → o.child < t.used)
  | .add l _ => l < t.used

/-- The trees that can be. -/
inductive Reach : Tree → Prop where
  | init (n : Nat) : 1 ≤ n → Reach (Tree.init n)
  | step {t : Tree} (op : Op) : Reach t → op.Valid t → Reach (apply t op)

theorem add_cases (t : Tree) (l : Nat) (o : Oid) :
    ((∃ p, findName o.name (t.lists l) = some p ∧ addOid t l o = (t, if p.node then some p else none)) ∨
    (findName o.name (t.lists l) = none ∧
      (addOid t l o).1 = register { t with used := if o.node then t.used + 1 else t.used } l
        (if o.node then { o with child := t.used } else o))) := by
  unfold addOid
  cases hf : findName o.name (t.lists l) with
  | some p => exact .inl ⟨p, rfl, rfl⟩
  | none =>
    refine .inr ⟨rfl, ?_⟩
    simp only
    cases hn : o.node <;> simp [hn]

theorem apply_inv {t : Tree} (h : Inv t) {op : Op} (hv : op.Valid t) : Inv (apply t op) := by
  cases op with
  | register l o => exact register_inv h hv.1 o hv.2
  | add l o =>
    simp only [apply]
    rcases add_cases t l o with ⟨p, _, h2⟩ | ⟨_, h2⟩
    · rw [h2]; exact h
    · rw [h2]
      have hl : l < t.used := hv
      refine register_inv (t := { t with used := if o.node then t.used + 1 else t.used }) ⟨h.names, fun i hi => h.fresh i ?_,
        h.sorted, fun i p hp hn => ?_⟩ ?_ _ ?_
      · revert hi; simp only; split <;> omega
      · have := h.child i p hp hn; simp only; split <;> omega
      · simp only; split <;> omega
      · intro hn
        cases hno : o.node with
        | true => simp
        | false => rw [hno] at hn; simp [hno] at hn

theorem Reach.inv {t : Tree} (h : Reach t) : Inv t := by
  induction h with
  | init n _ => exact ⟨fun l => by simp [Tree.init], fun l _ => rfl, fun l => by simp [Tree.init], fun l o ho => by simp [Tree.init] at ho⟩
  | step op _ hv ih => exact apply_inv ih hv

/-! ## Which numbers are unique -/

/-- The operation gives no number that is taken: the number is automatic, or it is below those of the automatic kind, and no
sibling has it. -/
def Op.Fair (t : Tree) : Op → Prop
  | .register l o | .add l o => o.number = auto ∨ (o.number < autoStart ∧ ∀ p ∈ t.lists l, p.number ≠ o.number)

/-- The trees made so. -/
inductive FairReach : Tree → Prop where
  | init (n : Nat) : 1 ≤ n → FairReach (Tree.init n)
  | step {t : Tree} (op : Op) : FairReach t → op.Valid t → op.Fair t → FairReach (apply t op)

theorem FairReach.reach {t : Tree} (h : FairReach t) : Reach t := by
  induction h with
  | init n hn => exact .init n hn
  | step op _ hv _ ih => exact .step op ih hv

/-- Numbers are unique and below the next automatic one. -/
def NumInv (t : Tree) : Prop := Numbered t ∧ autoStart ≤ t.newoid ∧ ∀ l, ∀ o ∈ t.lists l, o.number < t.newoid

theorem register_num {t : Tree} (h : NumInv t) (l : Nat) {o : Oid}
    (hf : o.number = auto ∨ (o.number < autoStart ∧ ∀ p ∈ t.lists l, p.number ≠ o.number)) : NumInv (register t l o) := by
  cases hn : findName o.name (t.lists l) with
  | some p => rw [register_old hn]; exact h
  | none =>
    obtain ⟨h1, h2⟩ := register_lists hn
    obtain ⟨a, b, c⟩ := h
    have hnew : (register t l o).newoid = if o.number = auto then t.newoid + 1 else t.newoid := by
      unfold register; rw [hn]
    have hle : t.newoid ≤ (register t l o).newoid := by rw [hnew]; split <;> omega
    refine ⟨fun i => ?_, by omega, fun i p hp => ?_⟩
    · by_cases hi : i = l
      · subst hi
        rw [h2]
        refine pairwise_insertOid (fun a b hab => Ne.symm hab) (a i) (fun p hp => ?_)
        split
        · have := c i p hp; simp only; omega
        · rename_i hna
          rcases hf with hf | hf
          · exact absurd hf hna
          · exact Ne.symm (hf.2 p hp)
      · rw [h1 i hi]; exact a i
    · by_cases hi : i = l
      · subst hi
        rw [h2] at hp
        rcases mem_insertOid.mp hp with rfl | hp
        · rw [hnew]
          split
          · simp only; omega
          · rename_i hna
            rcases hf with hf | hf
            · exact absurd hf hna
            · omega
        · have := c i p hp; omega
      · rw [h1 i hi] at hp
        have := c i p hp; omega

theorem FairReach.num {t : Tree} (h : FairReach t) : NumInv t := by
  induction h with
  | init n _ => exact ⟨fun l => by simp [Tree.init], by simp [Tree.init], fun l o ho => by simp [Tree.init] at ho⟩
  | step op _ hv hf ih =>
    cases op with
    | register l o => exact register_num ih l hf
    | add l o =>
      simp only [apply]
      rename_i t _
      rcases add_cases t l o with ⟨p, _, h2⟩ | ⟨_, h2⟩
      · rw [h2]; exact ih
      · rw [h2]
        refine register_num (t := { t with used := if o.node then t.used + 1 else t.used }) ih l ?_
        cases o.node <;> exact hf

/-! ## Dotted names -/

theorem cut_plain {c s : List Char} (hc : '.' ∉ c) : cut (c ++ '.' :: s) = (c, some s) := by
  induction c with
  | nil => simp [cut]
  | cons a c ih =>
    simp only [List.mem_cons, not_or] at hc
    simp only [List.cons_append, cut]
    rw [if_neg (Ne.symm hc.1), ih hc.2]

theorem cut_last {c : List Char} (hc : '.' ∉ c) : cut c = (c, none) := by
  induction c with
  | nil => simp [cut]
  | cons a c ih =>
    simp only [List.mem_cons, not_or] at hc
    simp only [cut]
    rw [if_neg (Ne.symm hc.1), ih hc.2]

theorem dotted_ne {cs : List (List Char)} (h : cs ≠ []) (hp : ∀ c ∈ cs, Plain c) :
    dotted cs ≠ [] ∧ (dotted cs).getLast? ≠ some '.' := by
  induction cs with
  | nil => exact absurd rfl h
  | cons c cs ih =>
    cases cs with
    | nil =>
      obtain ⟨h1, h2⟩ := hp c (by simp)
      refine ⟨h1, fun hl => h2 ?_⟩
      exact List.mem_of_getLast? hl
    | cons d ds =>
      have := ih (by simp) (fun x hx => hp x (by simp [hx]))
      simp only [dotted]
      refine ⟨by simp, ?_⟩
      rw [List.getLast?_append, List.getLast?_cons]
      cases hg : (dotted (d :: ds)).getLast? with
      | none => exact absurd (List.getLast?_eq_none_iff.mp hg) this.1
      | some x => simp [hg] at this ⊢; exact this.2

theorem dotted_trim {cs : List (List Char)} (h : cs ≠ []) (hp : ∀ c ∈ cs, Plain c) : trim (dotted cs) = dotted cs := by
  unfold trim
  rw [if_neg (dotted_ne h hp).2]

/-! ## Look-up -/

/-- In a tree with unique names and numbers, the numbers found for a path lead back to its entry. -/
theorem walk_at {t : Tree} (hi : Inv t) (hn : Numbered t) {l : Nat} {cs : List (List Char)} {o : Oid} (h : At t l cs o)
    (hp : ∀ c ∈ cs, Plain c) {k : Nat} (hk : cs.length ≤ k) :
    ∃ ns, walk t l k (dotted cs) = .ok ns ∧ findOid t l k ns = .ok (o, []) ∧ ns ≠ [] := by
  induction h generalizing k with
  | @leaf l c o hm hc =>
    obtain ⟨k, rfl⟩ : ∃ j, k = j + 1 := ⟨k - 1, by simp at hk; omega⟩
    refine ⟨[o.number], ?_, ?_, by simp⟩
    · simp only [walk, dotted, cut_last (hp c (by simp)).2, findName_mem (hi.names l) hm hc]
    · simp only [findOid, findNumber_mem (hn l) hm]
      cases o.node <;> simp
  | @node l c o c' cs o' hm hc hnode hh _ ih =>
    obtain ⟨k, rfl⟩ : ∃ j, k = j + 1 := ⟨k - 1, by simp at hk; omega⟩
    obtain ⟨ns, h1, h2, h3⟩ := ih (fun x hx => hp x (by simp [hx])) (k := k) (by simp at hk ⊢; omega)
    refine ⟨o.number :: ns, ?_, ?_, by simp⟩
    · simp only [walk, dotted, cut_plain (hp c (by simp)).2, findName_mem (hi.names l) hm hc, hnode, hh, h1]
      simp
    · simp only [findOid, findNumber_mem (hn l) hm, hnode, hh]
      simp [h3, h2]

/-- And if numbers are found for a name, it is that of an entry. -/
theorem at_walk {t : Tree} {l k : Nat} {cs : List (List Char)} (hne : cs ≠ []) (hp : ∀ c ∈ cs, Plain c) {ns : List Int}
    (h : walk t l k (dotted cs) = .ok ns) : (∃ o, At t l cs o) ∧ cs.length ≤ k := by
  induction cs generalizing l k ns with
  | nil => exact absurd rfl hne
  | cons c cs ih =>
    cases k with
    | zero => simp [walk] at h
    | succ k =>
      cases cs with
      | nil =>
        simp only [walk, dotted, cut_last (hp c (by simp)).2] at h
        cases hf : findName c (t.lists l) with
        | none => rw [hf] at h; simp at h
        | some o =>
          obtain ⟨a, b⟩ := findName_some hf
          exact ⟨⟨o, .leaf a b⟩, by simp⟩
      | cons d ds =>
        simp only [walk, dotted, cut_plain (hp c (by simp)).2] at h
        cases hf : findName c (t.lists l) with
        | none => rw [hf] at h; simp at h
        | some o =>
          rw [hf] at h
          simp only at h
          obtain ⟨a, b⟩ := findName_some hf
          split at h
          · simp at h
          · split at h
            · simp at h
            · rename_i h1 h2
              cases hw : walk t o.child k (dotted (d :: ds)) with
              | error e => rw [hw] at h; simp at h
              | ok ns' =>
                obtain ⟨⟨o', h3⟩, h4⟩ := ih (by simp) (fun x hx => hp x (by simp [hx])) hw
                refine ⟨⟨o', .node a b (by simpa using h1) (by simpa using h2) h3⟩, ?_⟩
                simp at h4 ⊢; omega

theorem walk_err {t : Tree} {l k : Nat} {s : List Char} {e : Err} (h : walk t l k s = .error e) : e = .noent := by
  induction k generalizing l s with
  | zero => simp [walk] at h; exact h.symm
  | succ k ih =>
    simp only [walk] at h
    split at h
    · simp at h; exact h.symm
    · split at h
      · simp at h
      · split at h
        · simp at h; exact h.symm
        · split at h
          · simp at h; exact h.symm
          · split at h
            · rename_i hw; simp at h; subst h; exact ih hw
            · simp at h

/-- A path has at most one entry. -/
theorem At.unique {t : Tree} (hi : Inv t) {l : Nat} {cs : List (List Char)} {o o' : Oid} (h : At t l cs o)
    (h' : At t l cs o') : o = o' := by
  induction h with
  | @leaf l c o hm hc =>
    cases h' with
    | leaf hm' hc' =>
      have h1 := findName_mem (hi.names l) hm hc
      rw [findName_mem (hi.names l) hm' hc'] at h1
      exact (Option.some.inj h1).symm
  | @node l c o c' cs o1 hm hc _ _ _ ih =>
    cases h' with
    | @node _ _ p _ _ _ hm' hc' _ _ hr =>
      have h1 := findName_mem (hi.names l) hm hc
      rw [findName_mem (hi.names l) hm' hc'] at h1
      have : p = o := Option.some.inj h1
      subst this
      exact ih hr

end Verif.Sysctl

import Verif.Radix.Lemmas

/-!
# Properties C05–C09, C14 for the radix IPv4 tables

`Hist total nvrf s T`: `s` is reached from initialisation (pool of `total` nodes, `nvrf` VRFs) by any
sequence of route additions (successful or failed) and deletions, and `T v` is the table of VRF `v` that
a user who watched the results expects: a successful addition adds or replaces, a failed one does nothing,
a deletion removes.
-/
namespace Verif.Radix
open Tree
variable {α : Type}

/-- `T` with the table of `vrf` replaced. -/
def updT (T : Nat → Spec.Table α) (vrf : Nat) (t : Spec.Table α) : Nat → Spec.Table α :=
  fun v => if v = vrf then t else T v

/-- The key of the route `a/len`. -/
def pfx (a : BitVec 32) (len : Nat) : List Bool := (Spec.bits4 a).take len

inductive Hist (total nvrf : Nat) : St α → (Nat → Spec.Table α) → Prop
  | init : nvrf ≤ total → Hist total nvrf (init total nvrf) (fun _ => Spec.Table.empty)
  | addOk {s s' T vrf a len d} : Hist total nvrf s T → vrf < nvrf → len ≤ 32 →
      insert s vrf a len d = (s', .ok) →
      Hist total nvrf s' (updT T vrf ((T vrf).add (pfx a len) d))
  | addFail {s s' T vrf a len d r} : Hist total nvrf s T → vrf < nvrf → len ≤ 32 →
      insert s vrf a len d = (s', r) → r ≠ .ok → Hist total nvrf s' T
  | del {s s' T vrf a len r} : Hist total nvrf s T → vrf < nvrf → len ≤ 32 →
      remove s vrf a len = (s', r) →
      Hist total nvrf s' (updT T vrf ((T vrf).del (pfx a len)))

/-- Nodes in use by all the tables. -/
def used (s : St α) : Nat := (s.fib.map size).sum

structure Inv (total nvrf : Nat) (s : St α) (T : Nat → Spec.Table α) : Prop where
  len : s.fib.length = nvrf
  tab : ∀ v t, s.fib[v]? = some t → OkRoot 31 t ∧ ∀ p, abs t p = T v p
  mem : s.free + used s = total

theorem sum_set (l : List (Tree α)) (i : Nat) (t t' : Tree α) (h : l[i]? = some t) :
    ((l.set i t').map size).sum + t.size = (l.map size).sum + t'.size := by
  induction l generalizing i with
  | nil => simp at h
  | cons a l ih =>
    cases i with
    | zero => simp at h; subst h; simp; omega
    | succ i =>
      simp at h
      have := ih i h
      simp only [List.set_cons_succ, List.map_cons, List.sum_cons]; omega

theorem path_ins (a : BitVec 32) (len : Nat) (h : len ≤ 32) :
    pathFrom (bit4 (mask4 a len)) 0 (len - 0) = pfx a len := by
  rw [Nat.sub_zero, pfx, ← path4 a len h]
  exact pathFrom_congr _ _ (fun i _ hi => mask4_bit a len i (by omega) h)

theorem hist_inv {total nvrf : Nat} {s : St α} {T} (hh : Hist total nvrf s T) :
    Inv total nvrf s T := by
  induction hh with
  | init hn =>
    refine ⟨by simp [Radix.init], ?_, ?_⟩
    · intro v t ht
      simp only [Radix.init, List.getElem?_replicate] at ht
      split at ht
      · injection ht with ht; subst ht
        refine ⟨by simp [OkRoot], ?_⟩
        intro p
        cases p with
        | nil => simp [abs, Spec.Table.empty]
        | cons b p => cases b <;> simp [abs, Spec.Table.empty]
      · cases ht
    · simp [Radix.init, used, size]; omega
  | @addOk s s' T vrf a len d hh hv hl he ih =>
    obtain ⟨t, ht⟩ : ∃ t, s.fib[vrf]? = some t :=
      ⟨_, List.getElem?_eq_getElem (by rw [ih.len]; exact hv)⟩
    have ⟨hok, habs⟩ := ih.tab vrf t ht
    have hne : t ≠ nil := by intro h; subst h; exact hok
    simp only [insert, ht] at he
    have hs := insertAt_spec false (bit4 (mask4 a len)) len d s.free t 0 (by omega) hne
    have hr := insertAt_okRoot false (bit4 (mask4 a len)) len d s.free t 31 (by omega) hok
    generalize hres : insertAt false (bit4 (mask4 a len)) len d s.free 0 t = res at *
    obtain ⟨t', f', o⟩ := res
    simp only [Prod.mk.injEq] at he
    obtain ⟨rfl, rfl⟩ := he
    obtain ⟨h1, h2⟩ := hs.2.1 rfl
    have hlt : vrf < s.fib.length := by rw [ih.len]; exact hv
    refine ⟨by simp [ih.len], ?_, ?_⟩
    · intro v t'' ht''
      simp only [List.getElem?_set] at ht''
      by_cases hvv : vrf = v
      · subst hvv
        rw [if_pos rfl, if_pos hlt] at ht''
        injection ht'' with ht''; subst ht''
        refine ⟨hr, ?_⟩
        intro p
        rw [h1 p, path_ins a len hl, habs]
        simp [updT, Spec.Table.add]
      · rw [if_neg hvv] at ht''
        have := ih.tab v t'' ht''
        refine ⟨this.1, ?_⟩
        intro p; rw [this.2]; simp [updT, Ne.symm hvv]
    · have := sum_set s.fib vrf t t' ht
      have hm := ih.mem
      simp only [used] at hm ⊢
      simp only at h2
      omega
  | @addFail s s' T vrf a len d r hh hv hl he hne' ih =>
    obtain ⟨t, ht⟩ : ∃ t, s.fib[vrf]? = some t :=
      ⟨_, List.getElem?_eq_getElem (by rw [ih.len]; exact hv)⟩
    have ⟨hok, habs⟩ := ih.tab vrf t ht
    have hne : t ≠ nil := by intro h; subst h; exact hok
    simp only [insert, ht] at he
    have hs := insertAt_spec false (bit4 (mask4 a len)) len d s.free t 0 (by omega) hne
    generalize hres : insertAt false (bit4 (mask4 a len)) len d s.free 0 t = res at *
    obtain ⟨t', f', o⟩ := res
    simp only [Prod.mk.injEq] at he
    obtain ⟨rfl, rfl⟩ := he
    obtain ⟨h1, h2⟩ := hs.2.2 hne'
    simp only at h1 h2
    subst h1; subst h2
    have : s.fib.set vrf t' = s.fib := by
      apply List.ext_getElem?
      intro i
      rw [List.getElem?_set]
      split
      · rename_i h; subst h; split
        · exact ht.symm
        · rename_i h; rw [ih.len] at h; exact absurd hv h
      · rfl
    rw [this]; exact ih
  | @del s s' T vrf a len r hh hv hl he ih =>
    obtain ⟨t, ht⟩ : ∃ t, s.fib[vrf]? = some t :=
      ⟨_, List.getElem?_eq_getElem (by rw [ih.len]; exact hv)⟩
    have ⟨hok, habs⟩ := ih.tab vrf t ht
    simp only [remove, ht] at he
    have hs := removeAt_spec (bit4 a) len t 0 31 (by omega) (Or.inr hok)
    have hr := removeAt_okRoot (bit4 a) len t 31 hok
    generalize hres : removeAt (bit4 a) len 0 t = res at *
    obtain ⟨t', f', o⟩ := res
    simp only [Prod.mk.injEq] at he
    obtain ⟨rfl, rfl⟩ := he
    obtain ⟨h1, h2, h3⟩ := hs
    simp only at h1 h2
    have hlt : vrf < s.fib.length := by rw [ih.len]; exact hv
    refine ⟨by simp [ih.len], ?_, ?_⟩
    · intro v t'' ht''
      simp only [List.getElem?_set] at ht''
      by_cases hvv : vrf = v
      · subst hvv
        rw [if_pos rfl, if_pos hlt] at ht''
        injection ht'' with ht''; subst ht''
        refine ⟨hr, ?_⟩
        intro p
        rw [h1 p, Nat.sub_zero, path4 a len hl, habs]
        simp only [updT, Spec.Table.del, pfx, if_true]
      · rw [if_neg hvv] at ht''
        have := ih.tab v t'' ht''
        refine ⟨this.1, ?_⟩
        intro p; rw [this.2]; simp [updT, Ne.symm hvv]
    · have := sum_set s.fib vrf t t' ht
      have hm := ih.mem
      simp only [used] at hm ⊢
      omega

theorem hist_tab {total nvrf : Nat} {s : St α} {T} (hh : Hist total nvrf s T) {v : Nat}
    (hv : v < nvrf) : ∃ t, s.fib[v]? = some t ∧ OkRoot 31 t ∧ ∀ p, abs t p = T v p := by
  have hi := hist_inv hh
  obtain ⟨t, ht⟩ : ∃ t, s.fib[v]? = some t :=
    ⟨_, List.getElem?_eq_getElem (by rw [hi.len]; exact hv)⟩
  exact ⟨t, ht, hi.tab v t ht⟩

/-- No route is longer than 32 bits, so the trees have at most 33 levels: the fixed-size stacks and match
tables (65 and 33 entries) are large enough and `0x80000000 >> level` is defined. -/
theorem fib_height {total nvrf : Nat} {s : St α} {T} (hh : Hist total nvrf s T) (v : Nat)
    (hv : v < nvrf) (p : List Bool) (hp : 32 < p.length) : T v p = none := by
  obtain ⟨t, _, hok, habs⟩ := hist_tab hh hv
  rw [← habs]; exact abs_height_root hok (by omega)

/-! ## C05 -/

/-- **C05.** After any history of additions and deletions, in any VRF, the lookup of any address returns
the next hop of the longest matching prefix, and nothing if no prefix matches. -/
theorem lookup_is_lpm {total nvrf : Nat} {s : St α} {T} (hh : Hist total nvrf s T) (v : Nat)
    (hv : v < nvrf) (a : BitVec 32) :
    ∃ r, search s v a = r.map some ∧ Spec.IsLpm (T v) (Spec.bits4 a) r := by
  obtain ⟨t, ht, hok, habs⟩ := hist_tab hh hv
  simp only [search, ht]
  have hb := bits4_length a
  rcases searchAt_spec (bit4 a) t 0 31 none (Or.inr hok) with ⟨n, y, e1, e2, e3⟩ | ⟨e1, e2⟩
  · have hn : n ≤ 32 := by
      by_cases h : n ≤ 32
      · exact h
      · rw [abs_height_root hok (by rw [pathFrom_length]; omega)] at e1; cases e1
    refine ⟨some y, e3, Or.inl ⟨y, n, by omega, ?_, ?_, rfl⟩⟩
    · rw [← habs, ← path4 a n hn]; exact e1
    · intro m h1 h2; rw [← habs, ← path4 a m (by omega)]; exact e2 m h1
  · refine ⟨none, e2, Or.inr ⟨?_, rfl⟩⟩
    intro m hm; rw [← habs, ← path4 a m (by omega)]; exact e1 m

/-- A concrete history: 10.0.0.0/8, 10.1.0.0/16 added, then 10.0.0.0/8 deleted, in VRF 1 of 2. -/
example : ∃ (s : St Nat) (T : Nat → Spec.Table Nat), Hist 100 2 s T ∧
    search s 1 0x0a010203#32 = some (some 7) ∧ search s 1 0x0a020203#32 = none := by
  refine ⟨_, _, .del (vrf := 1) (a := 0x0a000000#32) (len := 8) (.addOk (vrf := 1)
    (a := 0x0a010000#32) (len := 16) (d := 7) (.addOk (vrf := 1) (a := 0x0a000000#32) (len := 8)
    (d := 5) (.init (by omega)) (by omega) (by omega) rfl) (by omega) (by omega) rfl) (by omega)
    (by omega) rfl, by decide +kernel, by decide +kernel⟩

/-! ## C06 -/

/-- **C06.** An addition that is reported as failed leaves the whole state (all tables and the pool)
exactly as it was; and an addition can fail only if fewer than `len` nodes are free. -/
theorem failed_add_changes_nothing {total nvrf : Nat} {s : St α} {T} (hh : Hist total nvrf s T)
    (v : Nat) (hv : v < nvrf) (a : BitVec 32) (len : Nat) (hl : len ≤ 32) (d : α)
    (hf : (insert s v a len d).2 ≠ .ok) :
    (insert s v a len d).1 = s ∧ (insert s v a len d).2 = .nomem ∧ s.free < len := by
  obtain ⟨t, ht, hok, habs⟩ := hist_tab hh hv
  have hi := hist_inv hh
  have hne : t ≠ nil := by intro h; subst h; exact hok
  simp only [insert, ht] at hf ⊢
  have hs := (insertAt_spec false (bit4 (mask4 a len)) len d s.free t 0 (by omega) hne).2.2 hf
  have hr := insertAt_v4_res (bit4 (mask4 a len)) len d s.free t 0
  have hen := insertAt_enough false (bit4 (mask4 a len)) len d s.free t 0 hne
  have hnm : (insertAt false (bit4 (mask4 a len)) len d s.free 0 t).2.2 = .nomem := by
    rcases hr with h | h
    · exact absurd h hf
    · exact h
  refine ⟨?_, hnm, ?_⟩
  · rw [hs.1, hs.2]
    have : s.fib.set v t = s.fib := by
      apply List.ext_getElem?
      intro i
      rw [List.getElem?_set]
      split
      · rename_i h; subst h; split
        · exact ht.symm
        · rename_i h; rw [hi.len] at h; exact absurd hv h
      · rfl
    rw [this]
  · by_cases h : len - 0 ≤ s.free
    · exact absurd hnm (hen h)
    · omega

/-- The failure case exists: a pool of 9 nodes, 1 VRF, one /8 route, then a /12 elsewhere. -/
example : ∃ (s : St Nat) (T : Nat → Spec.Table Nat), Hist 9 1 s T ∧
    (insert s 0 0xac100000#32 12 6).2 = .nomem :=
  ⟨_, _, .addOk (vrf := 0) (a := 0x0a000000#32) (len := 8) (d := 5) (.init (by omega)) (by omega)
    (by omega) rfl, by decide +kernel⟩

/-! ## C07 -/

/-- **C07.** Pool conservation: at any time free nodes plus nodes in use is the pool size; every node in
use other than a root is on the path of a stored route; in particular, once all routes have been
deleted, every node except the `nvrf` roots is free again. -/
theorem nodes_conserved {total nvrf : Nat} {s : St α} {T} (hh : Hist total nvrf s T) :
    s.free + (s.fib.map size).sum = total ∧
    (∀ v t p, s.fib[v]? = some t → p ≠ [] → nodeAt t p ≠ nil → ∃ q, (T v (p ++ q)).isSome) ∧
    ((∀ v p, v < nvrf → T v p = none) → s.free = total - nvrf) := by
  have hi := hist_inv hh
  refine ⟨hi.mem, ?_, ?_⟩
  · intro v t p ht hp hn
    have ⟨hok, habs⟩ := hi.tab v t ht
    match t, hok with
    | node w x l r, ⟨_, h3, h4⟩ =>
      cases p with
      | nil => exact absurd rfl hp
      | cons b p =>
        simp only [nodeAt] at hn
        cases b with
        | true =>
          obtain ⟨q, hq⟩ := nodeAt_live r 31 p h4 (by simpa using hn)
          exact ⟨q, by rw [← habs]; simpa [abs] using hq⟩
        | false =>
          obtain ⟨q, hq⟩ := nodeAt_live l 31 p h3 (by simpa using hn)
          exact ⟨q, by rw [← habs]; simpa [abs] using hq⟩
  · intro he
    have hone : ∀ t ∈ s.fib, t.size = 1 := by
      intro t ht
      obtain ⟨v, hv, rfl⟩ := List.mem_iff_getElem.mp ht
      have ⟨hok, habs⟩ := hi.tab v _ (List.getElem?_eq_getElem hv)
      exact size_of_empty hok (fun p => by rw [habs]; exact he v p (by rw [← hi.len]; exact hv))
    have : (s.fib.map size).sum = s.fib.length := by
      generalize s.fib = l at hone
      induction l with
      | nil => rfl
      | cons a l ih =>
        simp only [List.map_cons, List.sum_cons, List.length_cons]
        rw [hone a (by simp), ih (fun t ht => hone t (by simp [ht]))]; omega
    have hm := hi.mem
    simp only [used] at hm
    rw [this, hi.len] at hm; omega

/-- Deletion reports the next hop of the deleted route, or nothing if there was no such route. -/
theorem delete_result {total nvrf : Nat} {s : St α} {T} (hh : Hist total nvrf s T) (v : Nat)
    (hv : v < nvrf) (a : BitVec 32) (len : Nat) (hl : len ≤ 32) :
    (remove s v a len).2 = (T v (pfx a len)).map some := by
  obtain ⟨t, ht, hok, habs⟩ := hist_tab hh hv
  simp only [remove, ht]
  have := (removeAt_spec (bit4 a) len t 0 31 (by omega) (Or.inr hok)).2.2
  rw [Nat.sub_zero, path4 a len hl, habs] at this
  exact this

/-- `ofp_rtl_destroy` gives back every node of the table and calls the callback exactly once for each
stored route. -/
theorem destroy_exact (t : Tree α) :
    (destroy t).2 = t.size ∧ ((destroy t).1).Perm ((traverse t 0#32 0).map (fun e => e.2.2)) := by
  have key : ∀ (t : Tree α) (k : BitVec 32) (n : Nat),
      (destroy t).2 = t.size ∧ ((destroy t).1).Perm ((traverse t k n).map (fun e => e.2.2)) := by
    intro t
    induction t with
    | nil => intro k n; simp [destroy, traverse, size]
    | node v x l r ihl ihr =>
      intro k n
      have h1 := ihl k (n + 1)
      have h2 := ihr (if r.isNil then k else k ||| (0x80000000#32 >>> n)) (n + 1)
      refine ⟨by simp only [destroy, size, h1.1, h2.1], ?_⟩
      simp only [destroy, traverse, List.map_append]
      have hx : (List.map (fun e : BitVec 32 × Nat × Option α => e.2.2)
          (if v = true then [(k, n, x)] else [])) = (if v = true then [x] else []) := by
        cases v <;> simp
      rw [hx]
      refine ((h1.2.append h2.2).append_right _).trans ?_
      refine List.perm_append_comm.trans ?_
      rw [List.append_assoc]
  exact key t 0#32 0

/-! ## C08 -/

/-- **C08.** The listing of a table calls back exactly once for every stored route, with its network
address (host bits zero), its prefix length and its next hop, and for nothing else. -/
theorem listing_exact {total nvrf : Nat} {s : St α} {T} (hh : Hist total nvrf s T) (v : Nat) (t : Tree α)
    (ht : s.fib[v]? = some t) :
    (traverse t 0#32 0).Nodup ∧
    ∀ (k : BitVec 32) (n : Nat) (x : Option α), (k, n, x) ∈ traverse t 0#32 0 ↔
      ∃ p d, T v p = some d ∧ x = some d ∧ n = p.length ∧
        Spec.bits4 k = p ++ List.replicate (32 - n) false := by
  have hi := hist_inv hh
  have ⟨hok, habs⟩ := hi.tab v t ht
  have hlen : ∀ p y, abs t p = some y → p.length ≤ 32 := by
    intro p y hp
    by_cases h : p.length ≤ 32
    · exact h
    · rw [abs_height_root hok (by omega)] at hp; cases hp
  refine ⟨traverse_nodup t 31 0#32 0 (Or.inr hok) (by omega)
    (fun p y hp => by have := hlen p y hp; omega) (by simp), ?_⟩
  intro k n x
  rw [mem_traverse t 31 0#32 0 k n x (Or.inr hok)]
  constructor
  · rintro ⟨p, y, e1, e2, e3, e4⟩
    refine ⟨p, y, by rw [← habs]; exact e1, e2, by omega, ?_⟩
    rw [e4, keyOf_bits p (hlen p y e1), e3, Nat.zero_add]
  · rintro ⟨p, y, e1, e2, e3, e4⟩
    rw [← habs] at e1
    refine ⟨p, y, e1, e2, by omega, ?_⟩
    apply bits4_inj
    rw [e4, keyOf_bits p (hlen p y e1), e3]

/-! ## C09 -/

/-- **C09 (partial).** If the route `a/len` is stored, the exact query returns its next hop.
Missing: the query should return nothing when the route is not stored; it does not
(`exact_query_violated`, `exact_query_stale_violated`). -/
theorem exact_query_partial {total nvrf : Nat} {s : St α} {T} (hh : Hist total nvrf s T) (v : Nat)
    (hv : v < nvrf) (a : BitVec 32) (len : Nat) (hl : len ≤ 32) (d : α)
    (hd : T v (pfx a len) = some d) : searchExact s v a len = some (some d) := by
  obtain ⟨t, ht, hok, habs⟩ := hist_tab hh hv
  simp only [searchExact, ht]
  rw [← habs] at hd
  have key : ∀ (t : Tree α) (i : Nat), i ≤ len → abs t (pathFrom (bit4 a) i (len - i)) = some d →
      searchExactAt (bit4 a) len i t = some (some d) := by
    intro t
    induction t with
    | nil => intro i _ h; simp at h
    | node w x l r ihl ihr =>
      intro i hi h
      unfold searchExactAt
      by_cases hil : i < len
      · rw [if_pos hil]
        rw [show len - i = (len - (i + 1)) + 1 by omega, pathFrom] at h
        by_cases hb : bit4 a i = true
        · rw [if_pos hb]
          simp only [abs, hb, if_true] at h
          exact ihr (i + 1) (by omega) h
        · rw [if_neg hb]
          simp only [abs, hb] at h
          exact ihl (i + 1) (by omega) h
      · rw [if_neg hil]
        rw [show len - i = 0 by omega] at h
        simp only [pathFrom, abs] at h
        cases w with
        | false => simp at h
        | true => simp at h; rw [h]
  exact key t 0 (by omega) (by rw [Nat.sub_zero, path4 a len hl]; exact hd)

/-- **C09 violated.** With only 10.1.0.0/16 stored, the exact query for 10.0.0.0/8 finds an internal node
and returns a (zeroed) next hop instead of "not found". -/
theorem exact_query_violated : ∃ (s : St Nat) (T : Nat → Spec.Table Nat), Hist 100 1 s T ∧
    T 0 (pfx 0x0a000000#32 8) = none ∧ searchExact s 0 0x0a000000#32 8 ≠ none := by
  refine ⟨_, _, .addOk (vrf := 0) (a := 0x0a010000#32) (len := 16) (d := 7) (.init (by omega))
    (by omega) (by omega) rfl, ?_, ?_⟩
  · decide +kernel
  · decide +kernel

/-- **C09 violated (stale data).** After 10.0.0.0/8 is deleted while 10.1.0.0/16 remains, the exact query
for 10.0.0.0/8 still returns the deleted next hop. -/
theorem exact_query_stale_violated : ∃ (s : St Nat) (T : Nat → Spec.Table Nat), Hist 100 1 s T ∧
    T 0 (pfx 0x0a000000#32 8) = none ∧ searchExact s 0 0x0a000000#32 8 = some (some 5) := by
  refine ⟨_, _, .del (vrf := 0) (a := 0x0a000000#32) (len := 8) (.addOk (vrf := 0)
    (a := 0x0a010000#32) (len := 16) (d := 7) (.addOk (vrf := 0) (a := 0x0a000000#32) (len := 8)
    (d := 5) (.init (by omega)) (by omega) (by omega) rfl) (by omega) (by omega) rfl) (by omega)
    (by omega) rfl, ?_, ?_⟩
  · decide +kernel
  · decide +kernel

/-! ## C14 -/

/-- **C14.** Adding or deleting a route in one VRF never changes the answer of a lookup in another VRF. -/
theorem vrf_isolation (s : St α) (v w : Nat) (hvw : v ≠ w) (a b : BitVec 32) (len : Nat) (d : α) :
    search (insert s v a len d).1 w b = search s w b ∧
    search (remove s v a len).1 w b = search s w b := by
  constructor
  · simp only [insert]
    cases h : s.fib[v]? with
    | none => rfl
    | some t => simp only [search, List.getElem?_set, if_neg hvw]
  · simp only [remove]
    cases h : s.fib[v]? with
    | none => rfl
    | some t => simp only [search, List.getElem?_set, if_neg hvw]

example : search (insert (init 100 2 : St Nat) 0 0x0a000000#32 8 5).1 1 0x0a000001#32 = none ∧
    search (insert (init 100 2 : St Nat) 0 0x0a000000#32 8 5).1 0 0x0a000001#32 = some (some 5) := by
  constructor <;> decide +kernel

end Verif.Radix

import Verif.Ifcfg.Model

/-! Helper lemmas: prefixes, address lists and exact effects of single route messages. -/

namespace Verif.Ifcfg

theorem net_net (a m : Nat) : net (net a m) m = net a m := by
  unfold net
  rw [Nat.mul_div_cancel _ (Nat.two_pow_pos _)]

theorem net_mask (a m : Nat) : net (maskBy a m) m = net a m := by
  unfold maskBy; split
  · rfl
  · exact net_net a m

theorem net_32 (a : Nat) : net a 32 = a := by simp [net]

theorem ipFind_none {l : List Ipa} {a : Nat} : ipFind l a = none ↔ ∀ x ∈ l, x.ip ≠ a := by
  simp [ipFind, List.findIdx?_eq_none_iff]

theorem ipFind_some {l : List Ipa} {a i : Nat} (h : ipFind l a = some i) :
    ∃ hi : i < l.length, l[i].ip = a := by
  unfold ipFind at h
  rw [List.findIdx?_eq_some_iff_getElem] at h
  obtain ⟨h1, h2, _⟩ := h
  exact ⟨h1, by simpa using h2⟩

theorem nodup_ip {l : List Ipa} (hn : (l.map Ipa.ip).Nodup) {i j : Nat} (hi : i < l.length) (hj : j < l.length)
    (h : l[i].ip = l[j].ip) : i = j := by
  have hn' := List.pairwise_iff_getElem.1 hn
  rcases Nat.lt_trichotomy i j with hlt | heq | hlt
  · exact absurd (by rw [List.getElem_map, List.getElem_map]; exact h) (hn' i j (by simpa using hi) (by simpa using hj) hlt)
  · exact heq
  · exact absurd (by rw [List.getElem_map, List.getElem_map]; exact h.symm) (hn' j i (by simpa using hj) (by simpa using hi) hlt)

theorem ipFind_at {l : List Ipa} (hn : (l.map Ipa.ip).Nodup) {i : Nat} (hi : i < l.length) :
    ipFind l l[i].ip = some i := by
  cases h : ipFind l l[i].ip with
  | none => exact absurd rfl (ipFind_none.1 h _ (List.getElem_mem hi))
  | some j =>
    obtain ⟨hj, he⟩ := ipFind_some h
    rw [nodup_ip hn hj hi he]

/-- Removing the entry at position `i`: the last one takes its place. -/
theorem ipRemove_at {l : List Ipa} (hn : (l.map Ipa.ip).Nodup) (hl : l.length ≤ 7) {i : Nat} (hi : i < l.length) :
    ipRemove l[i].ip l = (l.set i (l.getLast?.getD ⟨0, 0⟩)).dropLast := by
  unfold ipRemove
  rw [ipFind_at hn hi]
  simp only
  rw [if_neg (by unfold maxIp; omega)]

theorem swap_perm {l : List Ipa} {i : Nat} (hi : i < l.length) :
    (l[i] :: (l.set i (l.getLast?.getD ⟨0, 0⟩)).dropLast).Perm l := by
  have hne : l ≠ [] := by intro h; simp [h] at hi
  obtain ⟨t, b, rfl⟩ : ∃ t b, l = t ++ [b] := ⟨l.dropLast, l.getLast hne, (List.dropLast_concat_getLast hne).symm⟩
  simp only [List.length_append, List.length_cons, List.length_nil] at hi
  simp only [List.getLast?_append, List.getLast?_singleton, Option.some_or, Option.getD_some]
  by_cases h : i < t.length
  · rw [List.set_append_left _ _ h, List.dropLast_concat, List.getElem_append_left h]
    rw [List.set_eq_take_append_cons_drop, if_pos h]
    have ht : t = t.take i ++ t[i] :: t.drop (i + 1) := by
      rw [← List.drop_eq_getElem_cons h, List.take_append_drop]
    have key : ∀ (A B : List Ipa) (x : Ipa), (x :: (A ++ b :: B)).Perm (A ++ x :: B ++ [b]) := by
      intro A B x
      have h1 : (x :: (A ++ b :: B)).Perm (x :: b :: (A ++ B)) := List.Perm.cons _ List.perm_middle
      have h2 : (A ++ x :: B ++ [b]).Perm (b :: (A ++ x :: B)) := List.perm_append_comm
      have h3 : (b :: (A ++ x :: B)).Perm (b :: x :: (A ++ B)) := List.Perm.cons _ List.perm_middle
      exact h1.trans ((List.Perm.swap _ _ _).trans (h3.symm.trans h2.symm))
    have := key (t.take i) (t.drop (i + 1)) t[i]
    rwa [← ht] at this
  · have h' : i = t.length := by omega
    subst h'
    rw [List.set_append_right _ _ (Nat.le_refl _)]
    simp only [Nat.sub_self, List.set_cons_zero, List.dropLast_concat]
    simp only [List.getElem_append_right (Nat.le_refl _), Nat.sub_self, List.getElem_cons_zero]
    exact List.perm_append_comm (l₁ := [b])

theorem swap_get {l : List Ipa} {i j : Nat} (hj : j < l.length - 1) (hij : j ≠ i) :
    (l.set i (l.getLast?.getD ⟨0, 0⟩)).dropLast[j]? = l[j]? := by
  rw [List.getElem?_dropLast]
  rw [if_pos (by simpa using hj), List.getElem?_set_ne (by omega)]

/-- Removing an address: exactly that entry goes. -/
theorem ipRemove_perm {l : List Ipa} (hn : (l.map Ipa.ip).Nodup) (hl : l.length ≤ 7) {x : Ipa} (hx : x ∈ l) :
    (x :: ipRemove x.ip l).Perm l := by
  obtain ⟨i, hi, rfl⟩ := List.getElem_of_mem hx
  rw [ipRemove_at hn hl hi]
  exact swap_perm hi

theorem ipRemove_none {l : List Ipa} {a : Nat} (h : ∀ x ∈ l, x.ip ≠ a) : ipRemove a l = l := by
  unfold ipRemove; rw [ipFind_none.2 h]

theorem ipFind_append {l : List Ipa} {a : Nat} (h : ∀ x ∈ l, x.ip ≠ a) (m : Nat) :
    ipFind (l ++ [⟨a, m⟩]) a = some l.length := by
  have hz : List.findIdx? (fun x : Ipa => x.ip == a) l = none := ipFind_none.2 h
  unfold ipFind
  rw [List.findIdx?_append, hz]
  simp

theorem setFirst_nil (a m : Nat) : setFirst a m [⟨a, 0⟩] = [⟨a, m⟩] := by
  simp [setFirst, ipFind]

theorem setFirst_cons {y : Ipa} {t : List Ipa} {a : Nat} (h : ∀ x ∈ y :: t, x.ip ≠ a) (m : Nat) :
    setFirst a m (y :: t ++ [⟨a, 0⟩]) = ⟨a, m⟩ :: t ++ [y] := by
  unfold setFirst
  rw [ipFind_append h]
  simp

theorem updFields_append {l : List Ipa} {a : Nat} (h : ∀ x ∈ l, x.ip ≠ a) (m : Nat) :
    updFields a m (l ++ [⟨a, 0⟩]) = l ++ [⟨a, m⟩] := by
  unfold updFields
  rw [ipFind_append h]
  simp

theorem ipAdd_ok {l : List Ipa} {a : Nat} (ha : a ≠ 0) (hl : l.length ≤ 7) : ipAdd a l = l ++ [⟨a, 0⟩] := by
  unfold ipAdd maxIp
  rw [if_neg ha, if_pos (by omega)]

/-! ### State equalities -/

theorem St.ext' {s t : St} (h1 : s.ifs = t.ifs) (h2 : s.rt = t.rt) (h3 : s.ifq = t.ifq) (h4 : s.pool = t.pool)
    (h5 : s.crash = t.crash) : s = t := by
  cases s; cases t; simp_all

/-- State with interface `k` set to `i` and routing table `R`. -/
def put (s : St) (R : Key → Option Nh) (k : If) (i : Ifn) : St :=
  { s with rt := R, ifs := fun k' => if k' = k then some i else s.ifs k' }

/-- A table without the keys `K`. -/
def drop (R : Key → Option Nh) (K : List Key) : Key → Option Nh := fun k => if k ∈ K then none else R k

theorem drop_nil (R : Key → Option Nh) : drop R [] = R := by funext k; simp [drop]

theorem drop_drop (R : Key → Option Nh) (K K' : List Key) : drop (drop R K) K' = drop R (K ++ K') := by
  funext k; unfold drop; by_cases h : k ∈ K' <;> by_cases h' : k ∈ K <;> simp [h, h']

@[simp] theorem put_ifs (s : St) (R k i) : (put s R k i).ifs k = some i := by simp [put]
@[simp] theorem put_rt (s : St) (R k i) : (put s R k i).rt = R := rfl
@[simp] theorem put_put (s : St) (R R' k i i') : put (put s R k i) R' k i' = put s R' k i' := by
  apply St.ext' <;> simp only [put]
  funext k'; split <;> rfl

theorem put_self (s : St) {k i} (h : s.ifs k = some i) : put s s.rt k i = s := by
  apply St.ext' <;> simp only [put]
  funext k'; split
  · next e => rw [e, h]
  · rfl

theorem modIf_put (s : St) {k : If} {i : Ifn} (h : s.ifs k = some i) (f : Ifn → Ifn) :
    modIf s k f = put s s.rt k (f i) := by
  apply St.ext' <;> simp only [modIf, put]
  funext k'; split
  · rw [h]; rfl
  · rfl

/-- Deleting the route of a local address. -/
theorem delRoute_local {e : Env} {s : St} {vrf a : Nat} {k : If} {i : Ifn} {g : Nat} (hv : vrf < e.numVrf)
    (hr : s.rt (vrf, a, 32) = some ⟨k.1, k.2, g, true⟩) (hk : s.ifs k = some i) :
    delRoute e s vrf a 32 = put s (drop s.rt [(vrf, a, 32)]) k { i with addrs := ipRemove a i.addrs } := by
  unfold delRoute
  rw [if_neg (by omega)]
  simp only [net_32, hr]
  simp only [if_true]
  rw [show ((k.1, k.2) : If) = k from rfl, modIf_put (i := i) _ (by simpa [setRt] using hk)]
  apply St.ext' <;> simp only [put, setRt]
  funext k'; simp [drop]

/-- Deleting a route that is not local. -/
theorem delRoute_net {e : Env} {s : St} {vrf dst m : Nat} {nh : Nh} (hv : vrf < e.numVrf)
    (hr : s.rt (vrf, net dst m, m) = some nh) (hl : nh.isLocal = false) :
    delRoute e s vrf dst m = { s with rt := drop s.rt [(vrf, net dst m, m)] } := by
  unfold delRoute
  rw [if_neg (by omega)]
  simp only [hr, hl, Bool.false_eq_true, if_false]
  apply St.ext' <;> simp only [setRt]
  funext k'; simp [drop]

/-- Deleting a route that does not exist. -/
theorem delRoute_none {e : Env} {s : St} {vrf dst m : Nat} (hr : s.rt (vrf, net dst m, m) = none) :
    delRoute e s vrf dst m = s := by
  unfold delRoute
  split
  · rfl
  · simp only [hr]

/-- A table with one more entry. -/
def ins (R : Key → Option Nh) (k : Key) (nh : Nh) : Key → Option Nh := fun k' => if k' = k then some nh else R k'

theorem addRoute_local {e : Env} {s : St} {vrf a : Nat} {k : If} {i : Ifn} {g : Nat} (hv : vrf < e.numVrf)
    (hr : s.rt (vrf, a, 32) = none) (hk : s.ifs k = some i) :
    addRoute e s vrf k a 32 g true =
      put s (ins s.rt (vrf, a, 32) ⟨k.1, k.2, g, true⟩) k { i with addrs := ipAdd a i.addrs } := by
  unfold addRoute
  rw [if_neg (by omega)]
  simp only [net_32, hr, or_true, and_true]
  simp only [if_true]
  have hc : getCreate (setRt s (vrf, a, 32) (some ⟨k.1, k.2, g, true⟩)) k
      = setRt s (vrf, a, 32) (some ⟨k.1, k.2, g, true⟩) := by
    unfold getCreate; simp [setRt, hk]
  rw [hc, modIf_put (i := i) _ (by simpa [setRt] using hk)]
  rfl

theorem addRoute_net (e : Env) (s : St) {vrf dst m : Nat} (k : If) (g : Nat) (hv : vrf < e.numVrf) :
    addRoute e s vrf k dst m g false = { s with rt := ins s.rt (vrf, net dst m, m) ⟨k.1, k.2, g, false⟩ } := by
  unfold addRoute
  rw [if_neg (by omega)]
  simp only [Bool.false_eq_true, false_and, if_false]
  rfl

end Verif.Ifcfg

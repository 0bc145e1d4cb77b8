import Verif.Ifcfg.Props2

/-! # Failed calls, histories, look-ups -/

namespace Verif.Ifcfg

/-! ### Failed calls -/

/-- A failing `ofp_config_interface_up_v4` changes nothing, in any state. -/
theorem up_fail_noop (e : Env) (s : St) (k : If) (vrf a m : Nat) (h : (upV4 e s k vrf a m).2 ≠ .ok) :
    (upV4 e s k vrf a m).1 = s := by
  unfold upV4 at h ⊢
  split
  · rfl
  · rw [if_neg (by assumption)] at h
    split
    · rfl
    · rw [if_neg (by assumption)] at h
      exfalso; apply h
      simp only
      split
      · split <;> rfl
      · rfl

/-- A failing `ofp_config_interface_down` changes nothing, in any state. -/
theorem down_fail_noop (e : Env) (s : St) (k : If) (h : (down e s k).2 ≠ .ok) : (down e s k).1 = s := by
  unfold down at h ⊢
  split
  · rfl
  · rw [if_neg (by assumption)] at h
    cases hk : s.ifs k with
    | none => rfl
    | some i =>
      exfalso; apply h
      simp only [hk]
      split <;> rfl

/-- A failing `ofp_config_interface_add_ip_v4` whose routes were free changes nothing, in any state. -/
theorem addIp_fail_noop (e : Env) (s : St) (k : If) (vrf a m : Nat) (hm : m ≤ 31)
    (f1 : s.rt (vrf, a, 32) = none) (f2 : s.rt (vrf, net a m, m) = none)
    (h : (addIp e s k vrf a m).2 ≠ .ok) : (addIp e s k vrf a m).1 = s := by
  unfold addIp at h ⊢
  split
  · rfl
  · rw [if_neg (by assumption)] at h
    cases hk : s.ifs k with
    | none => rfl
    | some i =>
      simp only [hk] at h ⊢
      cases hf : ipFind i.addrs a with
      | some _ => rfl
      | none =>
        simp only [hf] at h ⊢
        by_cases hv : vrf < e.numVrf
        · have hadd : addPair e s vrf k a m = put s (ins (ins s.rt (vrf, a, 32) ⟨k.1, k.2, 0, true⟩) (vrf, net a m, m)
              ⟨k.1, k.2, 0, false⟩) k { i with addrs := ipAdd a i.addrs } := addPair_eq hk hv f1
          cases hf2 : ipFind (addrsOf (addPair e s vrf k a m) k) a with
          | some _ => exfalso; apply h; simp only [hf2]
          | none =>
            simp only
            rw [hadd] at hf2 ⊢
            rw [addrsOf_eq (put_ifs _ _ _ _)] at hf2
            simp only at hf2
            have hsame : ipAdd a i.addrs = i.addrs := by
              unfold ipAdd at hf2 ⊢
              split
              · rfl
              · rw [if_neg (by assumption)] at hf2
                split
                · rw [if_pos (by assumption)] at hf2
                  exact absurd rfl (ipFind_none.1 hf2 ⟨a, 0⟩ (by simp))
                · rfl
            rw [hsame, show ({ i with addrs := i.addrs } : Ifn) = i from rfl]
            have hne : ((vrf, a, 32) : Key) ≠ (vrf, net a m, m) := by
              intro h'; simp only [Prod.mk.injEq, true_and] at h'; omega
            rw [delRoute_net (dst := maskBy a m) (m := m) (nh := ⟨k.1, k.2, 0, false⟩) hv (by rw [net_mask]; simp [ins]) rfl, net_mask]
            rw [delRoute_local (k := k) (i := i) (g := 0) hv (by simp [drop, ins, hne]) (by simp [put])]
            rw [ipRemove_none (ipFind_none.1 hf)]
            apply St.ext'
            · funext k'; simp only [put]
              split
              · next h' => rw [h', hk]
              · rfl
            · funext q
              simp only [put, drop, ins, List.mem_singleton]
              by_cases h1 : q = (vrf, a, 32)
              · rw [if_pos h1, h1, f1]
              · by_cases h2 : q = (vrf, net a m, m)
                · rw [if_neg h1, if_pos h2, h2, f2]
                · simp [h1, h2]
            · rfl
            · rfl
            · rfl
        · have hr1 : ∀ s' : St, ∀ d l, addRoute e s' vrf k d l 0 true = s' := by
            intro s' d l; unfold addRoute; rw [if_pos (by omega)]
          have hr2 : ∀ s' : St, ∀ d l, addRoute e s' vrf k d l 0 false = s' := by
            intro s' d l; unfold addRoute; rw [if_pos (by omega)]
          have hr3 : ∀ s' : St, ∀ d l, delRoute e s' vrf d l = s' := by
            intro s' d l; unfold delRoute; rw [if_pos (by omega)]
          have hadd : addPair e s vrf k a m = s := by unfold addPair; rw [hr1, hr2]
          simp only [hadd, addrsOf_eq hk, hf, hr3]

/-- A failing `ofp_config_interface_del_ip_v4` on a consistent state changes nothing. -/
theorem delIp_fail_noop {e : Env} {s : St} (hg : Good e s) (k : If) (a m : Nat) (h : (delIp e s k a m).2 ≠ .ok) :
    (delIp e s k a m).1 = s := by
  by_cases hp : k.1 < 8
  · cases hk : s.ifs k with
    | none => unfold delIp; rw [if_neg (by unfold fpMax; omega)]; simp only [hk]
    | some i =>
      cases hf : ipFind i.addrs a with
      | none => unfold delIp; rw [if_neg (by unfold fpMax; omega)]; simp only [hk, hf]
      | some j =>
        obtain ⟨hj, hja⟩ := ipFind_some hf
        by_cases hm : m = i.addrs[j].mlen
        · exfalso; apply h
          have := (delIp_exact hg hk hp (List.getElem_mem hj)).1
          rwa [hja, ← hm] at this
        · unfold delIp; rw [if_neg (by unfold fpMax; omega)]
          simp only [hk, hf, infoAt_eq hk, List.getElem?_eq_getElem hj, Option.getD_some, ne_eq, hm, not_false_eq_true, if_true]
  · unfold delIp; rw [if_pos (by unfold fpMax; omega)]

/-- **When the calls refuse**: ports and VRFs out of range, unknown interfaces, addresses already
there (add) or not there (delete), and a prefix length other than the stored one. -/
theorem refusals (e : Env) (s : St) (k : If) (vrf a m : Nat) :
    (8 ≤ k.1 → upV4 e s k vrf a m = (s, .badPort) ∧ addIp e s k vrf a m = (s, .badPort) ∧
      delIp e s k a m = (s, .badPort)) ∧
    (k.1 < 8 → e.numVrf ≤ vrf → upV4 e s k vrf a m = (s, .badVrf)) ∧
    (k.1 < 8 → s.ifs k = none → addIp e s k vrf a m = (s, .badIf) ∧ delIp e s k a m = (s, .badIf)) ∧
    (∀ i, k.1 < 8 → s.ifs k = some i → (∃ x ∈ i.addrs, x.ip = a) → addIp e s k vrf a m = (s, .already)) ∧
    (∀ i, k.1 < 8 → s.ifs k = some i → (∀ x ∈ i.addrs, x.ip ≠ a) → delIp e s k a m = (s, .notFound)) ∧
    (∀ i, k.1 < 8 → s.ifs k = some i → (∃ x ∈ i.addrs, x.ip = a) → (∀ x ∈ i.addrs, x.ip = a → x.mlen ≠ m) →
      delIp e s k a m = (s, .maskDiff)) := by
  refine ⟨fun h => ?_, fun h hv => ?_, fun h hk => ?_, fun i h hk hx => ?_, fun i h hk hx => ?_, fun i h hk hx hm => ?_⟩
  · simp [upV4, addIp, delIp, fpMax, h]
  · unfold upV4; rw [if_neg (by unfold fpMax; omega), if_pos hv]
  · unfold addIp delIp; rw [if_neg (by unfold fpMax; omega), if_neg (by unfold fpMax; omega)]; simp only [hk, and_self]
  · unfold addIp; rw [if_neg (by unfold fpMax; omega)]
    simp only [hk]
    cases hf : ipFind i.addrs a with
    | none => obtain ⟨x, hx, hxa⟩ := hx; exact absurd hxa (ipFind_none.1 hf x hx)
    | some j => rfl
  · unfold delIp; rw [if_neg (by unfold fpMax; omega)]
    simp only [hk, ipFind_none.2 hx]
  · unfold delIp; rw [if_neg (by unfold fpMax; omega)]
    simp only [hk]
    cases hf : ipFind i.addrs a with
    | none => obtain ⟨x, hx, hxa⟩ := hx; exact absurd hxa (ipFind_none.1 hf x hx)
    | some j =>
      obtain ⟨hj, hja⟩ := ipFind_some hf
      simp only [infoAt_eq hk, List.getElem?_eq_getElem hj, Option.getD_some]
      rw [if_pos (Ne.symm (hm _ (List.getElem_mem hj) hja))]

/-- The network of an address is the multiple of its size that contains it. -/
theorem net_spec (a m : Nat) :
    2 ^ (32 - m) ∣ net a m ∧ net a m ≤ a ∧ a < net a m + 2 ^ (32 - m) := by
  have hp := Nat.two_pow_pos (32 - m)
  have h := Nat.div_add_mod a (2 ^ (32 - m))
  have hlt := Nat.mod_lt a hp
  unfold net
  rw [Nat.mul_comm (a / 2 ^ (32 - m))]
  exact ⟨Nat.dvd_mul_right _ _, by omega, by omega⟩

/-! ### Histories -/

/-- Configuration calls. -/
inductive Op where
  | up (k : If) (vrf a m : Nat)
  | add (k : If) (vrf a m : Nat)
  | del (k : If) (a m : Nat)
  | down (k : If)
  | loop (id vrf a : Nat)
  | rtAdd (vrf dst m gw : Nat) (k : If)
  | rtDel (vrf dst m : Nat)

/-- One call. -/
def step (e : Env) (s : St) : Op → St
  | .up k vrf a m => (upV4 e s k vrf a m).1
  | .add k vrf a m => (addIp e s k vrf a m).1
  | .del k a m => (delIp e s k a m).1
  | .down k => (down e s k).1
  | .loop id vrf a => (upLocal e s id vrf a 32).1
  | .rtAdd vrf dst m gw k => addRoute e s vrf k dst m gw false
  | .rtDel vrf dst m => delRoute e s vrf dst m

/-- What an administrator must respect: prefix lengths up to 31 on ports and VLANs, addresses and
subnets nobody else uses, at most seven addresses per interface, secondary addresses in the VRF of
the interface and only while it is listed, no default route when a VLAN interface without address
is configured; static routes on prefixes that belong to no interface.  Calls that are refused at
once, deletions of addresses and `down` need nothing. -/
def Allowed (e : Env) (s : St) : Op → Prop
  | .up k vrf a m => k.1 < 8 → vrf < e.numVrf → UpPre e s k vrf a m
  | .add k vrf a m => a ≠ 0 ∧ m ≤ 31 ∧ s.rt (vrf, a, 32) = none ∧ s.rt (vrf, net a m, m) = none ∧
      ∀ i, k.1 < 8 → s.ifs k = some i → vrf = i.vrf ∧ i.addrs.length ≤ 6 ∧ k ∈ s.ifq
  | .del _ _ _ => True
  | .down _ => True
  | .loop id vrf a => vrf < e.numVrf → a ≠ 0 ∧ (s.rt (vrf, a, 32) = none ∨ (vrf, a, 32) ∈ allRoutes s (8, id)) ∧
      (s.ifs (8, id) = none → s.pool ≠ 0)
  | .rtAdd vrf dst m _ _ => NotOwned s (vrf, net dst m, m)
  | .rtDel vrf dst m => NotOwned s (vrf, net dst m, m)

theorem step_good {e : Env} {s : St} (hg : Good e s) {op : Op} (ha : Allowed e s op) : Good e (step e s op) := by
  cases op with
  | up k vrf a m =>
    simp only [step]
    by_cases hp : k.1 < 8
    · by_cases hv : vrf < e.numVrf
      · exact (up_exact hg (ha hp hv)).2.1
      · rw [show (upV4 e s k vrf a m).1 = s from ?_]
        · exact hg
        · apply up_fail_noop
          unfold upV4; rw [if_neg (by unfold fpMax; omega), if_pos (by omega)]; simp
    · rw [show (upV4 e s k vrf a m).1 = s from ?_]
      · exact hg
      · apply up_fail_noop
        unfold upV4; rw [if_pos (by unfold fpMax; omega)]; simp
  | add k vrf a m =>
    obtain ⟨h0, h1, f1, f2, h⟩ := ha
    simp only [step]
    by_cases hok : (addIp e s k vrf a m).2 = .ok
    · have hp : k.1 < 8 := by
        rcases Nat.lt_or_ge k.1 8 with h' | h'
        · exact h'
        · unfold addIp at hok; rw [if_pos (by unfold fpMax; omega)] at hok; cases hok
      cases hk : s.ifs k with
      | none => unfold addIp at hok; rw [if_neg (by unfold fpMax; omega)] at hok; simp only [hk] at hok; cases hok
      | some i =>
        obtain ⟨rfl, h2, h3⟩ := h i hp hk
        exact (addIp_exact hg hk hp h0 h1 f1 f2 h2 h3).2.1
    · rw [addIp_fail_noop e s k vrf a m h1 f1 f2 hok]; exact hg
  | del k a m =>
    simp only [step]
    by_cases hok : (delIp e s k a m).2 = .ok
    · have hp : k.1 < 8 := by
        rcases Nat.lt_or_ge k.1 8 with h' | h'
        · exact h'
        · unfold delIp at hok; rw [if_pos (by unfold fpMax; omega)] at hok; cases hok
      cases hk : s.ifs k with
      | none => unfold delIp at hok; rw [if_neg (by unfold fpMax; omega)] at hok; simp only [hk] at hok; cases hok
      | some i =>
        cases hf : ipFind i.addrs a with
        | none => unfold delIp at hok; rw [if_neg (by unfold fpMax; omega)] at hok; simp only [hk, hf] at hok; cases hok
        | some j =>
          obtain ⟨hj, hja⟩ := ipFind_some hf
          by_cases hm : m = i.addrs[j].mlen
          · have := (delIp_exact hg hk hp (List.getElem_mem hj)).2.1
            rwa [hja, ← hm] at this
          · unfold delIp at hok; rw [if_neg (by unfold fpMax; omega)] at hok
            simp only [hk, hf, infoAt_eq hk, List.getElem?_eq_getElem hj, Option.getD_some, ne_eq, hm, not_false_eq_true,
              if_true] at hok
            cases hok
    · rw [delIp_fail_noop hg k a m hok]; exact hg
  | down k =>
    simp only [step]
    by_cases hp : k.1 < 11
    · cases hk : s.ifs k with
      | none =>
        rw [down_fail_noop e s k (by unfold down; rw [if_neg (by unfold numPorts; omega)]; simp [hk])]; exact hg
      | some i => exact (down_exact hg hk hp).2.1
    · rw [down_fail_noop e s k (by unfold down; rw [if_pos (by unfold numPorts; omega)]; simp)]; exact hg
  | loop id vrf a =>
    simp only [step]
    by_cases hv : vrf < e.numVrf
    · obtain ⟨h1, h2, h3⟩ := ha hv
      exact (upLocal_exact hg hv h1 h2 h3).2.1
    · unfold upLocal; rw [if_pos (by omega)]; exact hg
  | rtAdd vrf dst m gw k =>
    simp only [step]
    by_cases hv : vrf < e.numVrf
    · exact (static_add hg ha hv).1
    · unfold addRoute; rw [if_pos (by omega)]; exact hg
  | rtDel vrf dst m =>
    simp only [step]
    by_cases hv : vrf < e.numVrf
    · exact (static_del hg ha hv).1
    · unfold delRoute; rw [if_pos (by omega)]; exact hg

/-- Run a history. -/
def run (e : Env) (s : St) (ops : List Op) : St := ops.foldl (step e) s

/-- Every call of the history is allowed when it is made. -/
def AllAllowed (e : Env) : St → List Op → Prop
  | _, [] => True
  | s, op :: ops => Allowed e s op ∧ AllAllowed e (step e s op) ops

theorem run_good {e : Env} : ∀ (ops : List Op) {s : St}, Good e s → AllAllowed e s ops → Good e (run e s ops)
  | [], _, hg, _ => hg
  | op :: ops, s, hg, ha => run_good ops (step_good hg ha.1) ha.2

theorem init_good {e : Env} (hV : 0 < e.numVrf) (pool : Nat) : Good e (init pool) := by
  have hi : ∀ k i, (init pool).ifs k = some i → i = ⟨0, .ether, []⟩ := by
    intro k i h
    simp only [init] at h
    split at h
    · simpa using h.symm
    · cases h
  refine ⟨?_, ?_, ?_, ?_, ?_, ?_, ?_⟩
  · intro p hp
    exact ⟨⟨0, .ether, []⟩, by simp only [init]; rw [if_pos (by simp [numPorts, localPorts]; omega)]⟩
  · intro k i h _; rw [hi k i h]; exact ⟨by simp, by simp, by simp, by simp⟩
  · intro k i h hk; rw [hi k i h] at hk; cases hk
  · intro k i h; rw [hi k i h]; exact ⟨hV, by simp, by simp, by simp⟩
  · intro w a l nh h; simp [init] at h
  · intro k hk; simp [init] at hk
  · simp [init]

theorem local_iff {e : Env} {s : St} (hg : Good e s) (w a p v : Nat) :
    (∃ g, s.rt (w, a, 32) = some ⟨p, v, g, true⟩) ↔
      ∃ i, s.ifs (p, v) = some i ∧ i.vrf = w ∧ ∃ x ∈ i.addrs, x.ip = a := by
  constructor
  · rintro ⟨g, h⟩
    exact (hg.locR w a 32 _ h rfl).2
  · rintro ⟨i, hi, rfl, x, hx, rfl⟩
    cases hkd : i.kind with
    | ether => exact ⟨0, (hg.eth _ i hi hkd).loc x hx⟩
    | loop =>
      obtain ⟨_, h | ⟨b, h, hr⟩⟩ := hg.lp _ i hi hkd
      · rw [h] at hx; cases hx
      · rw [h] at hx; simp only [List.mem_singleton] at hx; subst hx; exact ⟨0, hr⟩

theorem owner_unique {e : Env} {s : St} (hg : Good e s) {k k' : If} {i i' : Ifn} (hk : s.ifs k = some i)
    (hk' : s.ifs k' = some i') (hv : i.vrf = i'.vrf) {x x' : Ipa} (hx : x ∈ i.addrs) (hx' : x' ∈ i'.addrs)
    (ha : x.ip = x'.ip) : k = k' := by
  obtain ⟨g, h1⟩ := (local_iff hg i.vrf x.ip k.1 k.2).2 ⟨i, hk, rfl, x, hx, rfl⟩
  obtain ⟨g', h2⟩ := (local_iff hg i'.vrf x'.ip k'.1 k'.2).2 ⟨i', hk', rfl, x', hx', rfl⟩
  rw [hv, ha, h2] at h1
  simp only [Option.some.injEq, Nh.mk.injEq] at h1
  exact (Prod.ext h1.1 h1.2.1).symm

/-- **Addresses and routes agree.**  After every history of allowed configuration calls: a host
route is local and leads through an interface exactly when that interface is in the VRF and has the
address; all local routes are host routes; every address of a port or VLAN interface has its subnet
route; and no address belongs to two interfaces of a VRF. -/
theorem addresses_match_routes_partial {e : Env} (hV : 0 < e.numVrf) (pool : Nat) (ops : List Op)
    (ha : AllAllowed e (init pool) ops) (s : St) (hs : s = run e (init pool) ops) :
    (∀ w a p v, (∃ g, s.rt (w, a, 32) = some ⟨p, v, g, true⟩) ↔
      ∃ i, s.ifs (p, v) = some i ∧ i.vrf = w ∧ ∃ x ∈ i.addrs, x.ip = a) ∧
    (∀ w a l p v g, s.rt (w, a, l) = some ⟨p, v, g, true⟩ → l = 32) ∧
    (∀ p v i, s.ifs (p, v) = some i → p < 8 → ∀ x ∈ i.addrs,
      s.rt (i.vrf, net x.ip x.mlen, x.mlen) = some ⟨p, v, 0, false⟩) ∧
    (∀ k k' i i', s.ifs k = some i → s.ifs k' = some i' → i.vrf = i'.vrf →
      ∀ x ∈ i.addrs, ∀ x' ∈ i'.addrs, x.ip = x'.ip → k = k') := by
  subst hs
  have hg := run_good ops (init_good hV pool) ha
  refine ⟨local_iff hg, fun w a l p v g h => (hg.locR w a l _ h rfl).1, fun p v i hi hp x hx => ?_,
    fun k k' i i' hk hk' hv x hx x' hx' h => owner_unique hg hk hk' hv hx hx' h⟩
  exact ((hg.eth _ i hi (kind_fp hg hi hp)).sub x hx).2

/-! ### Look-ups -/

theorem find_unique {α : Type} {p : α → Bool} {l : List α} (hu : ∀ x ∈ l, ∀ y ∈ l, p x = true → p y = true → x = y)
    (x : α) : l.find? p = some x ↔ x ∈ l ∧ p x = true := by
  constructor
  · intro h; exact ⟨List.mem_of_find?_eq_some h, List.find?_some h⟩
  · rintro ⟨hx, hp⟩
    cases h : l.find? p with
    | none => exact absurd hp (List.find?_eq_none.1 h x hx)
    | some y => rw [hu y (List.mem_of_find?_eq_some h) x hx (List.find?_some h) hp]

/-- `k` is in VRF `w` and `a` is its primary address. -/
def Primary (s : St) (k : If) (w a : Nat) : Prop :=
  ∃ i, s.ifs k = some i ∧ i.vrf = w ∧ ∃ m, i.addrs.head? = some ⟨a, m⟩

theorem primary_iff {s : St} {k : If} {w a : Nat} (ha : a ≠ 0) :
    ((decide ((infoAt s k 0).ip = a) && decide (vrfOf s k = w)) = true) ↔ Primary s k w a := by
  simp only [Bool.and_eq_true, decide_eq_true_eq]
  constructor
  · rintro ⟨h1, h2⟩
    cases hk : s.ifs k with
    | none => simp [infoAt, addrsOf, hk] at h1; exact absurd h1.symm ha
    | some i =>
      rw [infoAt_eq hk] at h1
      rw [vrfOf_eq hk] at h2
      cases hL : i.addrs with
      | nil => rw [hL] at h1; simp at h1; exact absurd h1.symm ha
      | cons x t => rw [hL] at h1; simp at h1; exact ⟨i, hk, h2, x.mlen, by rw [hL]; simp [← h1]⟩
  · rintro ⟨i, hk, h2, m, h⟩
    rw [infoAt_eq hk, vrfOf_eq hk]
    cases hL : i.addrs with
    | nil => rw [hL] at h; cases h
    | cons x t => rw [hL] at h; simp at h; exact ⟨by simp [h], h2⟩

theorem primary_unique {e : Env} {s : St} (hg : Good e s) {k k' : If} {w a : Nat} (h : Primary s k w a)
    (h' : Primary s k' w a) : k = k' := by
  obtain ⟨i, hk, h1, m, h2⟩ := h
  obtain ⟨i', hk', h1', m', h2'⟩ := h'
  have hm : ∀ (l : List Ipa) y, l.head? = some y → y ∈ l := fun l y hy => List.mem_of_head? hy
  exact owner_unique hg hk hk' (h1.trans h1'.symm) (hm _ _ h2) (hm _ _ h2') rfl

/-- **`bind` finds an address exactly when it is the primary address** of an interface of the VRF. -/
theorem bind_finds_primary_partial {e : Env} {s : St} (hg : Good e s) (w a : Nat) (ha : a ≠ 0) (k : If) :
    elemGet s w a = some k ↔ Primary s k w a := by
  unfold elemGet
  rw [find_unique]
  · rw [primary_iff ha]
    constructor
    · exact fun h => h.2
    · intro h
      refine ⟨?_, h⟩
      obtain ⟨i, hk, _, m, h2⟩ := h
      exact (hg.com k i hk).2.2.2 (by intro h0; rw [h0] at h2; cases h2)
  · intro x _ y _ hx hy
    exact primary_unique hg ((primary_iff ha).1 hx) ((primary_iff ha).1 hy)

theorem firstVlan_ne {s : St} {p : Nat} {f : Ifn → Bool} :
    firstVlan s p f ≠ 0 ↔ ∃ v i, v < 65536 ∧ v ≠ 0 ∧ s.ifs (p, v) = some i ∧ f i = true := by
  unfold firstVlan
  cases h : (List.range 65536).find? (fun v => v ≠ 0 && ((s.ifs (p, v)).map f).getD false) with
  | none =>
    simp only [Option.getD_none, ne_eq, not_true_eq_false, false_iff]
    rintro ⟨v, i, hv, h0, hi, hf⟩
    have := List.find?_eq_none.1 h v (List.mem_range.2 hv)
    simp [h0, hi, hf] at this
  | some v =>
    have h1 := List.find?_some h
    have h2 := List.mem_range.1 (List.mem_of_find?_eq_some h)
    simp only [Bool.and_eq_true, decide_eq_true_eq, ne_eq] at h1
    simp only [Option.getD_some]
    refine ⟨fun h0 => ?_, fun _ => h1.1⟩
    cases hi : s.ifs (p, v) with
    | none => rw [hi] at h1; simp at h1
    | some i => rw [hi] at h1; exact ⟨v, i, h2, h0, hi, by simpa using h1.2⟩

theorem firstVlan_sat {s : St} {p : Nat} {f : Ifn → Bool} (h : firstVlan s p f ≠ 0) :
    firstVlan s p f < 65536 ∧ ∃ i, s.ifs (p, firstVlan s p f) = some i ∧ f i = true := by
  unfold firstVlan at h ⊢
  cases h' : (List.range 65536).find? (fun v => v ≠ 0 && ((s.ifs (p, v)).map f).getD false) with
  | none => rw [h'] at h; exact absurd rfl h
  | some v =>
    have h1 := List.find?_some h'
    have h2 := List.mem_range.1 (List.mem_of_find?_eq_some h')
    simp only [Bool.and_eq_true, decide_eq_true_eq, ne_eq] at h1
    simp only [Option.getD_some]
    cases hi : s.ifs (p, v) with
    | none => rw [hi] at h1; simp at h1
    | some i => rw [hi] at h1; exact ⟨h2, i, rfl, by simpa using h1.2⟩

attribute [local irreducible] firstVlan in
/-- **`ofp_get_ifnet_by_ip`** finds the port or VLAN interface whose primary address it is. -/
theorem by_ip_exact {e : Env} {s : St} (hg : Good e s) (w a : Nat) (ha : a ≠ 0) (k : If) :
    byIp s a w = some k ↔ k.1 < 8 ∧ k.2 < 65536 ∧ Primary s k w a := by
  let f : Ifn → Bool := fun i => decide ((i.addrs[0]?.getD (Ipa.mk 0 0)).ip = a) && decide (i.vrf = w)
  have hf : ∀ (k' : If) (i : Ifn), s.ifs k' = some i → (f i = true ↔ Primary s k' w a) := by
    intro k' i hi
    rw [← primary_iff ha, infoAt_eq hi, vrfOf_eq hi]
  have hunf : byIp s a w = (match (List.range fpMax).find? (fun p => decide ((infoAt s (p, 0) 0).ip = a)
      && decide (vrfOf s (p, 0) = w)) with
    | some p => some (p, 0)
    | none => ((List.range fpMax).find? (fun p => firstVlan s p f ≠ 0)).map (fun p => (p, firstVlan s p f))) := rfl
  rw [hunf]
  cases h1 : (List.range fpMax).find? (fun p => decide ((infoAt s (p, 0) 0).ip = a)
      && decide (vrfOf s (p, 0) = w)) with
  | some p =>
    have hp : Primary s (p, 0) w a := by
      have := List.find?_some h1
      exact (primary_iff ha).1 this
    have hm : p < 8 := List.mem_range.1 (List.mem_of_find?_eq_some h1)
    simp only [Option.some.injEq]
    constructor
    · rintro rfl; exact ⟨hm, by simp, hp⟩
    · rintro ⟨_, _, h⟩; exact primary_unique hg hp h
  | none =>
    have hno : ∀ p, p < 8 → ¬ Primary s (p, 0) w a := fun p hp h =>
      List.find?_eq_none.1 h1 p (List.mem_range.2 hp) ((primary_iff ha).2 h)
    simp only [Option.map_eq_some_iff]
    constructor
    · rintro ⟨p, h2, rfl⟩
      have hm : p < 8 := List.mem_range.1 (List.mem_of_find?_eq_some h2)
      have hne : firstVlan s p f ≠ 0 := by
        have := List.find?_some h2
        rw [decide_eq_true_eq] at this; exact this
      obtain ⟨hv, i, hi, hfi⟩ := firstVlan_sat hne
      exact ⟨hm, hv, (hf _ i hi).1 hfi⟩
    · rintro ⟨h8, hv, hp⟩
      have hk2 : k.2 ≠ 0 := by
        intro h; apply hno k.1 h8; rw [← h]; exact hp
      have hfk : firstVlan s k.1 f ≠ 0 := by
        obtain ⟨i, hi, _⟩ := id hp
        exact firstVlan_ne.2 ⟨k.2, i, hv, hk2, hi, (hf k i hi).2 hp⟩
      have huniq : ∀ p, p < 8 → firstVlan s p f ≠ 0 → (p, firstVlan s p f) = k := by
        intro p _ hpf
        obtain ⟨_, i, hi, hfi⟩ := firstVlan_sat hpf
        exact primary_unique hg ((hf _ i hi).1 hfi) hp
      refine ⟨k.1, ?_, huniq k.1 h8 hfk⟩
      rw [find_unique]
      · exact ⟨List.mem_range.2 h8, decide_eq_true hfk⟩
      · intro x hx y hy h1 h2
        have e1 := huniq x (List.mem_range.1 hx) (of_decide_eq_true h1)
        have e2 := huniq y (List.mem_range.1 hy) (of_decide_eq_true h2)
        exact congrArg Prod.fst (e1.trans e2.symm)

/-- **`ofp_get_ifnet_match` without VLAN** finds the port that has the address, primary or not. -/
theorem match_port_exact {e : Env} {s : St} (hg : Good e s) (w a : Nat) (k : If) :
    ifMatch s a w 0 = some k ↔ k.1 < 8 ∧ k.2 = 0 ∧ ∃ i, s.ifs k = some i ∧ i.vrf = w ∧ ∃ x ∈ i.addrs, x.ip = a := by
  have hsat : ∀ p, p < 8 → ((decide (vrfOf s (p, 0) = w) && (ipFind (addrsOf s (p, 0)) a).isSome) = true ↔
      ∃ i, s.ifs (p, 0) = some i ∧ i.vrf = w ∧ ∃ x ∈ i.addrs, x.ip = a) := by
    intro p hp
    obtain ⟨i, hi⟩ := hg.base p hp
    rw [vrfOf_eq hi, addrsOf_eq hi]
    simp only [Bool.and_eq_true, decide_eq_true_eq]
    have : (ipFind i.addrs a).isSome = true ↔ ∃ x ∈ i.addrs, x.ip = a := by
      cases h : ipFind i.addrs a with
      | none =>
        simp only [Option.isSome_none, Bool.false_eq_true, false_iff]
        rintro ⟨x, hx, hxa⟩; exact ipFind_none.1 h x hx hxa
      | some j =>
        obtain ⟨hj, hja⟩ := ipFind_some h
        simp only [Option.isSome_some, true_iff]
        exact ⟨_, List.getElem_mem hj, hja⟩
    rw [this]
    constructor
    · rintro ⟨h1, h2⟩; exact ⟨i, hi, h1, h2⟩
    · rintro ⟨j, hj, h1, h2⟩; rw [hi] at hj; simp only [Option.some.injEq] at hj; subst hj; exact ⟨h1, h2⟩
  unfold ifMatch
  rw [if_pos rfl]
  simp only [Option.map_eq_some_iff]
  have huniq : ∀ x ∈ List.range fpMax, ∀ y ∈ List.range fpMax,
      (decide (vrfOf s (x, 0) = w) && (ipFind (addrsOf s (x, 0)) a).isSome) = true →
      (decide (vrfOf s (y, 0) = w) && (ipFind (addrsOf s (y, 0)) a).isSome) = true → x = y := by
    intro x hx y hy h1 h2
    obtain ⟨i, hi, hv, z, hz, hza⟩ := (hsat x (List.mem_range.1 hx)).1 h1
    obtain ⟨j, hj, hv', z', hz', hza'⟩ := (hsat y (List.mem_range.1 hy)).1 h2
    exact congrArg Prod.fst (owner_unique hg hi hj (hv.trans hv'.symm) hz hz' (hza.trans hza'.symm))
  constructor
  · rintro ⟨p, h, rfl⟩
    rw [find_unique huniq] at h
    have h8 : p < 8 := List.mem_range.1 h.1
    exact ⟨h8, rfl, (hsat p h8).1 h.2⟩
  · rintro ⟨h8, h0, h⟩
    have hk : k = (k.1, 0) := Prod.ext rfl h0
    refine ⟨k.1, (find_unique huniq _).2 ⟨List.mem_range.2 h8, (hsat k.1 h8).2 (by rw [← hk]; exact h)⟩, hk.symm⟩

end Verif.Ifcfg

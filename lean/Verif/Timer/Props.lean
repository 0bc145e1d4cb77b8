import Verif.Timer.Model
/-! # Properties C25 and C26 -/
namespace Verif.Timer
open Spec
variable {β : Type}

theorem mkId_toNat (n : BitVec 64) (ix : Nat) (hn : n.toNat < 2 ^ 50) (hx : ix < 8192) :
    (mkId n ix).toNat = n.toNat * 8192 + ix + 2 ^ 63 := by
  unfold mkId
  rw [BitVec.toNat_or, BitVec.toNat_or, BitVec.toNat_shiftLeft, BitVec.toNat_ofNat]
  have h1 : n.toNat <<< 13 % 2 ^ 64 = n.toNat <<< 13 := by
    rw [Nat.shiftLeft_eq, Nat.mod_eq_of_lt]; omega
  have h2 : ix % 2 ^ 64 = ix := Nat.mod_eq_of_lt (by omega)
  rw [h1, h2]
  rw [← Nat.shiftLeft_add_eq_or_of_lt (b := ix) (i := 13) (by omega)]
  have h3 : ((1#64) <<< 63).toNat = 1 <<< 63 := by decide
  rw [h3, Nat.or_comm, ← Nat.shiftLeft_add_eq_or_of_lt (i := 63), Nat.shiftLeft_eq, Nat.shiftLeft_eq]
  · omega
  · rw [Nat.shiftLeft_eq]; omega

theorem mkId_mod (n : BitVec 64) (ix : Nat) (hn : n.toNat < 2 ^ 50) (hx : ix < 8192) :
    (mkId n ix).toNat % 8192 = ix := by rw [mkId_toNat n ix hn hx]; omega

theorem mkId_mask (n : BitVec 64) (ix : Nat) : (mkId n ix).getLsbD 63 = true := by
  unfold mkId; simp

theorem mkId_inj (n m : BitVec 64) (i j : Nat) (hn : n.toNat < 2 ^ 50) (hm : m.toNat < 2 ^ 50)
    (hi : i < 8192) (hj : j < 8192) (h : mkId n i = mkId m j) : n = m ∧ i = j := by
  have := congrArg BitVec.toNat h
  rw [mkId_toNat n i hn hi, mkId_toNat m j hm hj] at this
  exact ⟨BitVec.eq_of_toNat_eq (by omega), by omega⟩

/-- `i` was handed out before the counter reached `c`. -/
def Issued (c : BitVec 64) (i : BitVec 64) : Prop :=
  ∃ (n : BitVec 64) (k : Nat), n.toNat < c.toNat ∧ k < 8192 ∧ i = mkId n k

/-- Invariant of the wheel. -/
structure Inv (s : St β) : Prop where
  sec : s.sec < 8192
  ids : ∀ k e, k < 8192 → e ∈ s.table k → Issued s.id e.1 ∧ e.1.toNat % 8192 = k
  nodup : ∀ k, k < 8192 → ((s.table k).map (·.1)).Nodup

/-- Entry `i` calling `p` sits in the wheel and will fire at the `r`-th tick from now. -/
def Pending (s : St β) (i : BitVec 64) (p : β) (r : Nat) : Prop :=
  (i, p) ∈ s.table (i.toNat % 8192) ∧ 1 ≤ r ∧ r ≤ 8192 ∧ (s.sec + r) % 8192 = i.toNat % 8192

def Absent (s : St β) (i : BitVec 64) : Prop := ∀ e ∈ s.table (i.toNat % 8192), e.1 ≠ i

theorem unlink_spec (t : BitVec 64) : ∀ l : List (Entry β), (l.map (·.1)).Nodup →
    (∀ l', unlink t l = some l' → (∃ e ∈ l, e.1 = t) ∧ (l'.map (·.1)).Nodup ∧ l.length = l'.length + 1 ∧
      ∀ e, e ∈ l' ↔ e ∈ l ∧ e.1 ≠ t) ∧
    (unlink t l = none ↔ ∀ e ∈ l, e.1 ≠ t) := by
  intro l
  induction l with
  | nil => intro _; simp [unlink]
  | cons a l ih =>
    intro hn
    rw [List.map_cons, List.nodup_cons] at hn
    have hi := ih hn.2
    unfold unlink
    by_cases ha : a.1 = t
    · simp only [ha, if_true]
      refine ⟨?_, by simp [ha]⟩
      intro l' h
      cases h
      refine ⟨⟨a, by simp, ha⟩, hn.2, rfl, ?_⟩
      intro e
      constructor
      · intro he
        refine ⟨by simp [he], ?_⟩
        intro h
        apply hn.1
        rw [ha, ← h]
        exact List.mem_map_of_mem he
      · rintro ⟨he, hne⟩
        rcases List.mem_cons.1 he with rfl | he
        · exact absurd ha hne
        · exact he
    · simp only [ha, if_false]
      constructor
      · intro l' h
        rw [Option.map_eq_some_iff] at h
        obtain ⟨m, hm, rfl⟩ := h
        obtain ⟨⟨e, he, het⟩, h2, h3, h4⟩ := hi.1 m hm
        refine ⟨⟨e, by simp [he], het⟩, ?_, by simp [h3], ?_⟩
        · rw [List.map_cons, List.nodup_cons]
          refine ⟨?_, h2⟩
          intro h
          apply hn.1
          obtain ⟨x, hx, hxe⟩ := List.mem_map.1 h
          rw [← hxe]
          exact List.mem_map_of_mem ((h4 x).1 hx).1
        · intro e
          simp only [List.mem_cons, h4]
          constructor
          · rintro (rfl | ⟨h, h'⟩)
            · exact ⟨Or.inl rfl, ha⟩
            · exact ⟨Or.inr h, h'⟩
          · rintro ⟨rfl | h, h'⟩
            · exact Or.inl rfl
            · exact Or.inr ⟨h, h'⟩
      · rw [Option.map_eq_none_iff, hi.2]
        simp [ha]

theorem issued_mono {c d i : BitVec 64} (h : Issued c i) (hcd : c.toNat ≤ d.toNat) : Issued d i := by
  obtain ⟨n, k, h1, h2, h3⟩ := h
  exact ⟨n, k, by omega, h2, h3⟩

theorem succ_toNat (c : BitVec 64) (h : c.toNat < 2 ^ 50) : (c + 1#64).toNat = c.toNat + 1 := by
  rw [BitVec.toNat_add]; simp; omega

/-- The counter grows by at most one per action. -/
theorem step_id (s : St β) (op : Op β) (hb : s.id.toNat < 2 ^ 50) :
    s.id.toNat ≤ (step s op).1.id.toNat ∧ (step s op).1.id.toNat ≤ s.id.toNat + 1 := by
  cases op with
  | start us p =>
    simp only [step, start]
    split
    · simp
    · split
      · simp
      · simp only [succ_toNat _ hb]; omega
  | cancel t =>
    simp only [step, cancel]
    split
    · split <;> simp
    · simp
  | tick => simp [step, oneSec]

theorem step_inv {s : St β} (op : Op β) (hb : s.id.toNat < 2 ^ 50) (h : Inv s) : Inv (step s op).1 := by
  cases op with
  | start us p =>
    simp only [step, start]
    split
    · exact h
    · split
      · exact h
      · have hix : (s.sec + us / 1000000) % slots < 8192 := Nat.mod_lt _ (by decide)
        refine ⟨h.sec, ?_, ?_⟩
        · intro k e hk he
          simp only [setSlot] at he
          by_cases hkx : k = (s.sec + us / 1000000) % slots
          · rw [if_pos hkx] at he
            rcases List.mem_cons.1 he with rfl | he
            · refine ⟨⟨s.id, _, ?_, hix, rfl⟩, ?_⟩
              · simp only [succ_toNat _ hb]; omega
              · simp only [mkId_mod _ _ hb hix]; exact hkx.symm
            · rw [← hkx] at he
              have := h.ids k e hk he
              exact ⟨issued_mono this.1 (by simp only [succ_toNat _ hb]; omega), this.2⟩
          · rw [if_neg hkx] at he
            have := h.ids k e hk he
            exact ⟨issued_mono this.1 (by simp only [succ_toNat _ hb]; omega), this.2⟩
        · intro k hk
          simp only [setSlot]
          by_cases hkx : k = (s.sec + us / 1000000) % slots
          · rw [if_pos hkx, List.map_cons, List.nodup_cons]
            refine ⟨?_, by rw [← hkx]; exact h.nodup k hk⟩
            intro hm
            obtain ⟨e, he, hee⟩ := List.mem_map.1 hm
            rw [← hkx] at he
            obtain ⟨n, k', h1, h2, h3⟩ := (h.ids k e hk he).1
            rw [h3] at hee
            have := (mkId_inj _ _ _ _ (by omega) hb h2 hix hee).1
            rw [this] at h1; omega
          · rw [if_neg hkx]; exact h.nodup k hk
  | cancel t =>
    simp only [step, cancel]
    split
    · have hm : t.toNat % slots < 8192 := Nat.mod_lt _ (by decide)
      have hu := unlink_spec t (s.table (t.toNat % slots)) (h.nodup _ hm)
      split
      · rename_i l hl
        obtain ⟨_, h2, _, h4⟩ := hu.1 l hl
        refine ⟨h.sec, ?_, ?_⟩
        · intro k e hk he
          simp only [setSlot] at he
          by_cases hkx : k = t.toNat % slots
          · rw [if_pos hkx] at he
            exact h.ids k e hk (by rw [hkx]; exact ((h4 e).1 he).1)
          · rw [if_neg hkx] at he; exact h.ids k e hk he
        · intro k hk
          simp only [setSlot]
          by_cases hkx : k = t.toNat % slots
          · rw [if_pos hkx]; exact h2
          · rw [if_neg hkx]; exact h.nodup k hk
      · exact h
    · exact h
  | tick =>
    simp only [step, oneSec]
    refine ⟨Nat.mod_lt _ (by decide), ?_, ?_⟩
    · intro k e hk he
      simp only [setSlot] at he
      split at he
      · simp at he
      · exact h.ids k e hk he
    · intro k hk
      simp only [setSlot]
      split
      · simp
      · exact h.nodup k hk

theorem filter_eq_single {α : Type} [DecidableEq α] {γ : Type} (i : α) (p : γ) : ∀ l : List (α × γ),
    (l.map (·.1)).Nodup → (i, p) ∈ l → l.filter (fun e => e.1 == i) = [(i, p)] := by
  intro l
  induction l with
  | nil => intro _ h; simp at h
  | cons a l ih =>
    intro hn hm
    rw [List.map_cons, List.nodup_cons] at hn
    rcases List.mem_cons.1 hm with h | h
    · subst h
      have : l.filter (fun e => e.1 == i) = [] := by
        rw [List.filter_eq_nil_iff]
        intro e he h
        apply hn.1
        rw [beq_iff_eq] at h
        have := List.mem_map_of_mem (f := (·.1)) he
        rw [h] at this; exact this
      rw [List.filter_cons]; simp [this]
    · have : a.1 ≠ i := by
        intro ha; apply hn.1; rw [ha]; exact List.mem_map_of_mem (f := (·.1)) h
      rw [List.filter_cons]; simp [this, ih hn.2 h]

theorem pending_step {s : St β} {i : BitVec 64} {p : β} {r : Nat} (hb : s.id.toNat < 2 ^ 50) (h : Inv s)
    (hp : Pending s i p r) (op : Op β) (hc : op ≠ .cancel i) :
    (op ≠ .tick → Pending (step s op).1 i p r ∧ ∀ l, (step s op).2 ≠ .fired l) ∧
    (op = .tick → ∃ l, (step s op).2 = .fired l ∧
      (r = 1 → l.filter (fun e => e.1 == i) = [(i, p)] ∧ Absent (step s op).1 i) ∧
      (1 < r → l.filter (fun e => e.1 == i) = [] ∧ Pending (step s op).1 i p (r - 1))) := by
  obtain ⟨h1, h2, h3, h4⟩ := hp
  have hi8 : i.toNat % 8192 < 8192 := Nat.mod_lt _ (by decide)
  cases op with
  | start us q =>
    refine ⟨fun _ => ?_, by simp⟩
    simp only [step, start]
    split
    · exact ⟨⟨h1, h2, h3, h4⟩, by simp⟩
    · split
      · exact ⟨⟨h1, h2, h3, h4⟩, by simp⟩
      · refine ⟨⟨?_, h2, h3, h4⟩, by simp⟩
        simp only [setSlot]
        split
        · rename_i he; rw [he] at h1; exact List.mem_cons_of_mem _ h1
        · exact h1
  | cancel t =>
    refine ⟨fun _ => ?_, by simp⟩
    have hti : t ≠ i := fun h => hc (by rw [h])
    simp only [step, cancel]
    split
    · have hm : t.toNat % slots < 8192 := Nat.mod_lt _ (by decide)
      have hu := unlink_spec t (s.table (t.toNat % slots)) (h.nodup _ hm)
      split
      · rename_i l hl
        obtain ⟨_, _, _, h5⟩ := hu.1 l hl
        refine ⟨⟨?_, h2, h3, h4⟩, by simp⟩
        simp only [setSlot]
        split
        · rename_i he
          rw [h5]; rw [he] at h1; exact ⟨h1, fun h => hti h.symm⟩
        · exact h1
      · exact ⟨⟨h1, h2, h3, h4⟩, by simp⟩
    · exact ⟨⟨h1, h2, h3, h4⟩, by simp⟩
  | tick =>
    refine ⟨fun h => absurd rfl h, fun _ => ⟨_, rfl, ?_, ?_⟩⟩
    · intro hr
      have : (s.sec + 1) % slots = i.toNat % 8192 := by rw [hr] at h4; exact h4
      rw [this]
      refine ⟨filter_eq_single i p _ (h.nodup _ hi8) h1, ?_⟩
      intro e he
      simp only [step, oneSec, setSlot, this, if_true] at he
      simp at he
    · intro hr
      have hs := h.sec
      have hne : (s.sec + 1) % slots ≠ i.toNat % 8192 := by
        unfold slots; omega
      refine ⟨?_, ?_⟩
      · rw [List.filter_eq_nil_iff]
        intro e he hh
        rw [beq_iff_eq] at hh
        have := (h.ids _ e (Nat.mod_lt _ (by decide)) he).2
        rw [hh] at this
        exact hne this.symm
      · refine ⟨?_, by omega, by omega, ?_⟩
        · simp only [step, oneSec, setSlot]
          rw [if_neg (fun h => hne h.symm)]; exact h1
        · simp only [step, oneSec]
          unfold slots; omega

theorem absent_step {s : St β} {i : BitVec 64} (hb : s.id.toNat < 2 ^ 50) (h : Inv s)
    (hi : Issued s.id i) (hp : Absent s i) (op : Op β) :
    Absent (step s op).1 i ∧ Issued (step s op).1.id i ∧
    (∀ l, (step s op).2 = .fired l → l.filter (fun e => e.1 == i) = []) ∧
    (op = .cancel i → (step s op).2 = .cancelled (-1)) := by
  have hmono : Issued (step s op).1.id i := issued_mono hi (step_id s op hb).1
  have hi8 : i.toNat % 8192 < 8192 := Nat.mod_lt _ (by decide)
  cases op with
  | start us q =>
    refine ⟨?_, hmono, ?_, by simp⟩
    · simp only [step, start]
      split
      · exact hp
      · split
        · exact hp
        · intro e he
          simp only [setSlot] at he
          split at he
          · rename_i hx
            rcases List.mem_cons.1 he with rfl | he
            · intro heq
              obtain ⟨n, k, a1, a2, a3⟩ := hi
              simp only at heq
              rw [a3] at heq
              have hix : (s.sec + us / 1000000) % slots < 8192 := Nat.mod_lt _ (by decide)
              have := (mkId_inj _ _ _ _ hb (by omega) hix a2 heq).1
              rw [this] at a1; omega
            · rw [← hx] at he; exact hp e he
          · exact hp e he
    · intro l
      simp only [step, start]
      split
      · simp
      · split <;> simp
  | cancel t =>
    have hm : t.toNat % slots < 8192 := Nat.mod_lt _ (by decide)
    have hu := unlink_spec t (s.table (t.toNat % slots)) (h.nodup _ hm)
    refine ⟨?_, hmono, ?_, ?_⟩
    · simp only [step, cancel]
      split
      · split
        · rename_i l hl
          obtain ⟨_, _, _, h5⟩ := hu.1 l hl
          intro e he
          simp only [setSlot] at he
          split at he
          · rename_i hx
            exact hp e (by rw [hx]; exact ((h5 e).1 he).1)
          · exact hp e he
        · exact hp
      · exact hp
    · intro l
      simp only [step, cancel]
      split
      · split <;> simp
      · simp
    · intro heq
      cases heq
      have : i.getLsbD 63 = true := by
        obtain ⟨n, k, a1, a2, a3⟩ := hi
        rw [a3]; exact mkId_mask n k
      simp only [step, cancel, this, if_true]
      have : unlink i (s.table (i.toNat % slots)) = none := hu.2.2 hp
      rw [this]
  | tick =>
    refine ⟨?_, hmono, ?_, by simp⟩
    · intro e he
      simp only [step, oneSec, setSlot] at he
      split at he
      · simp at he
      · exact hp e he
    · intro l hl
      simp only [step, oneSec] at hl
      cases hl
      rw [List.filter_eq_nil_iff]
      intro e he hh
      rw [beq_iff_eq] at hh
      have := (h.ids _ e (Nat.mod_lt _ (by decide)) he).2
      rw [hh] at this
      unfold slots at he
      rw [← this] at he
      exact hp e he hh

theorem run_inv (ops : List (Op β)) : ∀ (s : St β), s.id.toNat + ops.length < 2 ^ 50 → Inv s →
    Inv (run s ops).1 ∧ (run s ops).1.id.toNat ≤ s.id.toNat + ops.length ∧
      s.id.toNat ≤ (run s ops).1.id.toNat := by
  induction ops with
  | nil => intro s hb h; exact ⟨h, by simp [run], by simp [run]⟩
  | cons op ops ih =>
    intro s hb h
    simp only [List.length_cons] at hb
    have hid := step_id s op (by omega)
    have := ih (step s op).1 (by omega) (step_inv op (by omega) h)
    simp only [run, List.length_cons]
    exact ⟨this.1, by omega, by omega⟩

theorem run_absent (ops : List (Op β)) (i : BitVec 64) : ∀ (s : St β) (t : Nat),
    s.id.toNat + ops.length < 2 ^ 50 → Inv s → Issued s.id i → Absent s i →
    firings i t (run s ops).2 = [] ∧ Absent (run s ops).1 i ∧ Issued (run s ops).1.id i := by
  induction ops with
  | nil => intro s t hb h h2 h3; exact ⟨by simp [run, firings], h3, h2⟩
  | cons op ops ih =>
    intro s t hb h h2 h3
    simp only [List.length_cons] at hb
    have hid := step_id s op (by omega)
    obtain ⟨a1, a2, a3, _⟩ := absent_step (by omega) h h2 h3 op
    have hh := fun t => ih (step s op).1 t (by omega) (step_inv op (by omega) h) a2 a1
    simp only [run]
    refine ⟨?_, (hh 0).2⟩
    cases ho : (step s op).2 with
    | fired l => simp [firings, a3 l ho, (hh (t + 1)).1]
    | _ => simp [firings, (hh t).1]

theorem run_pending (ops : List (Op β)) (i : BitVec 64) (p : β) : ∀ (s : St β) (t r : Nat),
    s.id.toNat + ops.length < 2 ^ 50 → Inv s → Issued s.id i → Pending s i p r →
    (∀ op ∈ ops, op ≠ .cancel i) →
    firings i t (run s ops).2 = (if r ≤ ticks ops then [(t + r, p)] else []) ∧
    (r ≤ ticks ops → Absent (run s ops).1 i) ∧
    (ticks ops < r → Pending (run s ops).1 i p (r - ticks ops)) ∧ Issued (run s ops).1.id i := by
  induction ops with
  | nil =>
    intro s t r hb h h2 h3 _
    have := h3.2.1
    have h0 : ticks ([] : List (Op β)) = 0 := rfl
    rw [if_neg (by omega)]
    exact ⟨rfl, fun h => by omega, fun _ => h3, h2⟩
  | cons op ops ih =>
    intro s t r hb h h2 h3 hc
    simp only [List.length_cons] at hb
    have hid := step_id s op (by omega)
    have hinv := step_inv op (by omega) h
    have hiss := issued_mono h2 hid.1
    have hc' : ∀ op ∈ ops, op ≠ .cancel i := fun o ho => hc o (by simp [ho])
    obtain ⟨b1, b2⟩ := pending_step (by omega) h h3 op (hc op (by simp))
    simp only [run]
    by_cases ht : op = .tick
    · obtain ⟨l, hl, c1, c2⟩ := b2 ht
      have htk : ticks (op :: ops) = ticks ops + 1 := by rw [ht]; rfl
      rw [htk, hl]
      by_cases hr : r = 1
      · obtain ⟨d1, d2⟩ := c1 hr
        have := run_absent ops i (step s op).1 (t + 1) (by omega) hinv hiss d2
        simp only [firings, d1, this.1]
        subst hr
        rw [if_pos (by omega)]
        exact ⟨by simp, fun _ => this.2.1, by omega, this.2.2⟩
      · have hr1 := h3.2.1
        obtain ⟨d1, d2⟩ := c2 (by omega)
        have := ih (step s op).1 (t + 1) (r - 1) (by omega) hinv hiss d2 hc'
        simp only [firings, d1, this.1]
        refine ⟨?_, fun h => this.2.1 (by omega), fun h => ?_, this.2.2.2⟩
        · by_cases h5 : r - 1 ≤ ticks ops
          · rw [if_pos h5, if_pos (by omega)]; simp; omega
          · rw [if_neg h5, if_neg (by omega)]; simp
        · have := this.2.2.1 (by omega)
          rw [show r - (ticks ops + 1) = r - 1 - ticks ops by omega]; exact this
    · obtain ⟨d1, d2⟩ := b1 ht
      have htk : ticks (op :: ops) = ticks ops := by cases op <;> simp_all [ticks]
      rw [htk]
      have := ih (step s op).1 t r (by omega) hinv hiss d1 hc'
      refine ⟨?_, this.2⟩
      rw [← this.1]
      cases ho : (step s op).2 with
      | fired l => exact absurd ho (d2 l)
      | _ => simp [firings]

theorem init_inv (n : Nat) : Inv (init n : St β) :=
  ⟨by simp [init], by simp [init], by simp [init]⟩

/-- Facts about the state right after a start. -/
theorem start_pending {s : St β} (hb : s.id.toNat < 2 ^ 50) (h : Inv s) {us : Nat} {p : β} {i : BitVec 64}
    (hs : us / 1000000 ≤ 8192) (hi : (step s (.start us p)).2 = .started i) :
    Pending (step s (.start us p)).1 i p (us / 1000000) ∧ Issued (step s (.start us p)).1.id i ∧
    ¬ Issued s.id i := by
  simp only [step, start] at hi ⊢
  split at hi
  · cases hi
  · rename_i hbuf
    split at hi
    · cases hi
    · rename_i hus
      rw [if_neg hbuf, if_neg hus]
      have hix : (s.sec + us / 1000000) % slots < 8192 := Nat.mod_lt _ (by decide)
      cases hi
      have hm := mkId_mod s.id _ hb hix
      refine ⟨⟨?_, by omega, hs, ?_⟩, ⟨s.id, _, ?_, hix, rfl⟩, ?_⟩
      · rw [hm]; simp [setSlot]
      · rw [hm]; rfl
      · simp only [succ_toNat _ hb]; omega
      · rintro ⟨n, k, a1, a2, a3⟩
        have := (mkId_inj _ _ _ _ hb (by omega) hix a2 a3).1
        rw [← this] at a1; omega

/-- **C25.** Start a long timer after any history `h`; let anything happen afterwards (`ops`: starts, cancels
of other handles, ticks) except cancelling it.  It calls back exactly once, in the `s`-th tick after the
start (`s` whole seconds), and not at all if fewer ticks have happened.  (`2^50` is the number of long
timers after which the identifier counter would repeat.) -/
theorem long_timer_fires_once (n : Nat) (h ops : List (Op β)) (us : Nat) (p : β) (i : BitVec 64)
    (hlen : h.length + ops.length + 1 < 2 ^ 50) (hs : us / 1000000 ≤ 8192)
    (hi : (step (run (init n) h).1 (.start us p)).2 = .started i)
    (hc : ∀ op ∈ ops, op ≠ .cancel i) :
    firings i 0 (run (step (run (init n) h).1 (.start us p)).1 ops).2 =
      if us / 1000000 ≤ ticks ops then [(us / 1000000, p)] else [] := by
  have h0 : (init n : St β).id.toNat = 0 := rfl
  obtain ⟨a1, a2, _⟩ := run_inv h (init n : St β) (by omega) (init_inv n)
  have hb : (run (init n) h).1.id.toNat < 2 ^ 50 := by omega
  obtain ⟨b1, b2, _⟩ := start_pending hb a1 hs hi
  have hid := step_id (run (init n) h).1 (.start us p) hb
  have := run_pending ops i p _ 0 _ (by omega) (step_inv (.start us p) hb a1) b2 b1 hc
  rw [this.1]; simp

/-- **C26.** Cancelling a started timer that has not fired yet returns 0, after which it never fires and
cancelling it again returns -1, whatever else happens; cancelling it after it fired returns -1. -/
theorem cancel_exact (n : Nat) (h ops later : List (Op β)) (us : Nat) (p : β) (i : BitVec 64)
    (hlen : h.length + ops.length + later.length + 2 < 2 ^ 50) (hs : us / 1000000 ≤ 8192)
    (hi : (step (run (init n) h).1 (.start us p)).2 = .started i)
    (hc : ∀ op ∈ ops, op ≠ .cancel i) :
    let s1 := (run (step (run (init n) h).1 (.start us p)).1 ops).1
    let s2 := (step s1 (.cancel i)).1
    (step s1 (.cancel i)).2 = (if ticks ops < us / 1000000 then .cancelled 0 else .cancelled (-1)) ∧
    firings i 0 (run s2 later).2 = [] ∧
    (step (run s2 later).1 (.cancel i)).2 = .cancelled (-1) := by
  intro s1 s2
  have h0 : (init n : St β).id.toNat = 0 := rfl
  obtain ⟨a1, a2, _⟩ := run_inv h (init n : St β) (by omega) (init_inv n)
  have hb : (run (init n) h).1.id.toNat < 2 ^ 50 := by omega
  obtain ⟨b1, b2, _⟩ := start_pending hb a1 hs hi
  have hid := step_id (run (init n) h).1 (.start us p) hb
  have hiv := step_inv (.start us p) hb a1
  have hr := run_pending ops i p _ 0 _ (by omega) hiv b2 b1 hc
  obtain ⟨c1, c2, _⟩ := run_inv ops _ (by omega) hiv
  have hb1 : s1.id.toNat < 2 ^ 50 := by show (run _ ops).1.id.toNat < _; omega
  have key : (step s1 (.cancel i)).2 = (if ticks ops < us / 1000000 then .cancelled 0 else .cancelled (-1)) ∧
      Absent s2 i := by
    by_cases ht : ticks ops < us / 1000000
    · rw [if_pos ht]
      obtain ⟨d1, _, _, _⟩ := hr.2.2.1 ht
      have hmask : i.getLsbD 63 = true := by
        obtain ⟨m, k, _, _, a3⟩ := b2; rw [a3]; exact mkId_mask m k
      have hm : i.toNat % slots < 8192 := Nat.mod_lt _ (by decide)
      have hu := unlink_spec i (s1.table (i.toNat % slots)) (c1.nodup _ hm)
      have hne : unlink i (s1.table (i.toNat % slots)) ≠ none := by
        rw [Ne, hu.2]; intro h; exact h _ d1 rfl
      obtain ⟨l, hl⟩ := Option.ne_none_iff_exists'.1 hne
      refine ⟨by simp only [step, cancel, hmask, if_true, hl], ?_⟩
      intro e he
      have : e ∈ l := by
        have h' : s2.table (i.toNat % 8192) = l := by
          show (step s1 (.cancel i)).1.table _ = l
          simp only [step, cancel, hmask, if_true, hl, setSlot]
          exact if_pos rfl
        rw [← h']; exact he
      exact (((hu.1 l hl).2.2.2 e).1 this).2
    · rw [if_neg ht]
      have := absent_step hb1 c1 hr.2.2.2 (hr.2.1 (by omega)) (.cancel i)
      exact ⟨this.2.2.2 rfl, this.1⟩
  have hiss : Issued s2.id i := issued_mono hr.2.2.2 (step_id s1 (.cancel i) hb1).1
  have hid2 := step_id s1 (.cancel i) hb1
  have hs1 : s1.id.toNat ≤ h.length + ops.length + 1 := by
    show (run _ ops).1.id.toNat ≤ _; omega
  have hs2 : s2.id.toNat ≤ s1.id.toNat + 1 := hid2.2
  have hinv2 : Inv s2 := step_inv (.cancel i) hb1 c1
  have ha := run_absent later i s2 0 (by omega) hinv2 hiss key.2
  have hri := run_inv later s2 (by omega) hinv2
  have hf := absent_step (s := (run s2 later).1) (by omega) hri.1 ha.2.2 ha.2.1 (.cancel i)
  exact ⟨key.1, ha.1, hf.2.2.2 rfl⟩

/-- **C26, distinctness.** A handle returned by a start is different from every handle returned before, and is
never `ODP_TIMER_INVALID` (its top bit is set). -/
theorem handles_distinct (n : Nat) (h ops : List (Op β)) (us us' : Nat) (p p' : β) (i j : BitVec 64)
    (hlen : h.length + ops.length + 2 < 2 ^ 50) (hs : us / 1000000 ≤ 8192) (hs' : us' / 1000000 ≤ 8192)
    (hi : (step (run (init n) h).1 (.start us p)).2 = .started i)
    (hj : (step (run (step (run (init n) h).1 (.start us p)).1 ops).1 (.start us' p')).2 = .started j) :
    i ≠ j ∧ i.getLsbD 63 = true := by
  have h0 : (init n : St β).id.toNat = 0 := rfl
  obtain ⟨a1, a2, _⟩ := run_inv h (init n : St β) (by omega) (init_inv n)
  have hb : (run (init n) h).1.id.toNat < 2 ^ 50 := by omega
  obtain ⟨b1, b2, _⟩ := start_pending hb a1 hs hi
  have hid := step_id (run (init n) h).1 (.start us p) hb
  have hiv := step_inv (.start us p) hb a1
  obtain ⟨c1, c2, c3⟩ := run_inv ops _ (by omega) hiv
  have hn := (start_pending (by omega) c1 hs' hj).2.2
  refine ⟨?_, ?_⟩
  · rintro rfl; exact hn (issued_mono b2 c3)
  · obtain ⟨m, k, _, _, a3⟩ := b2; rw [a3]; exact mkId_mask m k

/-- Number of entries in the wheel. -/
def pendingCount (s : St β) : Nat := ((List.range 8192).map (fun k => (s.table k).length)).sum

theorem sum_range_set (f g : Nat → Nat) (n k : Nat) (hk : k < n) (h : ∀ j, j ≠ k → g j = f j) :
    ((List.range n).map g).sum + f k = ((List.range n).map f).sum + g k := by
  induction n with
  | zero => omega
  | succ n ih =>
    rw [List.range_succ, List.map_append, List.map_append, List.sum_append, List.sum_append]
    simp only [List.map_cons, List.map_nil, List.sum_cons, List.sum_nil]
    by_cases hn : k = n
    · subst hn
      have : (List.range k).map g = (List.range k).map f := by
        apply List.map_congr_left
        intro j hj; exact h j (by have := List.mem_range.1 hj; omega)
      rw [this]; omega
    · have := ih (by omega)
      have := h n (fun h => hn h.symm)
      omega

theorem count_setSlot (s : St β) (k : Nat) (l : List (Entry β)) (hk : k < 8192) (a b c : _) :
    pendingCount (⟨setSlot s.table k l, a, b, c⟩ : St β) + (s.table k).length =
      pendingCount s + l.length := by
  have := sum_range_set (fun k => (s.table k).length) (fun j => (setSlot s.table k l j).length) 8192 k hk
    (by intro j hj; simp [setSlot, hj])
  simp only [setSlot, if_true] at this
  exact this

theorem step_count {s : St β} (op : Op β) (h : Inv s) :
    (step s op).1.bufs + pendingCount (step s op).1 = s.bufs + pendingCount s := by
  cases op with
  | start us p =>
    simp only [step, start]
    split
    · rfl
    · rename_i hb0
      split
      · rfl
      · have hix : (s.sec + us / 1000000) % slots < 8192 := Nat.mod_lt _ (by decide)
        have := count_setSlot s _ ((mkId s.id ((s.sec + us / 1000000) % slots), p) ::
          s.table ((s.sec + us / 1000000) % slots)) hix s.sec (s.id + 1#64) (s.bufs - 1)
        simp only [List.length_cons] at this
        dsimp only
        omega
  | cancel t =>
    simp only [step, cancel]
    split
    · have hm : t.toNat % slots < 8192 := Nat.mod_lt _ (by decide)
      have hu := unlink_spec t (s.table (t.toNat % slots)) (h.nodup _ hm)
      split
      · rename_i l hl
        have := count_setSlot s _ l hm s.sec s.id (s.bufs + 1)
        have := (hu.1 l hl).2.2.1
        dsimp only
        omega
      · rfl
    · rfl
  | tick =>
    simp only [step, oneSec]
    have := count_setSlot s ((s.sec + 1) % slots) [] (Nat.mod_lt _ (by decide)) ((s.sec + 1) % slots) s.id
      (s.bufs + (s.table ((s.sec + 1) % slots)).length)
    simp only [List.length_nil] at this
    omega

/-- **C25/C26, no leak.** After any history the free buffers plus the timers pending in the wheel make up the
whole buffer pool: a buffer is given back exactly when its timer fires or is cancelled. -/
theorem timer_buffers_conserved (n : Nat) (h : List (Op β)) (hlen : h.length < 2 ^ 50) :
    (run (init n : St β) h).1.bufs + pendingCount (run (init n : St β) h).1 = n := by
  have gen : ∀ (h : List (Op β)) (s : St β), s.id.toNat + h.length < 2 ^ 50 → Inv s →
      (run s h).1.bufs + pendingCount (run s h).1 = s.bufs + pendingCount s := by
    intro h
    induction h with
    | nil => intro s _ _; rfl
    | cons op ops ih =>
      intro s hb hv
      simp only [List.length_cons] at hb
      have hid := step_id s op (by omega)
      simp only [run]
      rw [ih _ (by omega) (step_inv op (by omega) hv), step_count op hv]
  rw [gen h _ (by show 0 + h.length < 2 ^ 50; omega) (init_inv n)]
  show n + pendingCount (init n : St β) = n
  have : pendingCount (init n : St β) = 0 := by
    have : ∀ m, ((List.range m).map (fun k => ((init n : St β).table k).length)).sum = 0 := by
      intro m
      induction m with
      | zero => rfl
      | succ m ih => rw [List.range_succ, List.map_append, List.sum_append, ih]; rfl
    exact this 8192
  omega

/-- **C25 violated beyond the wheel.** A timer of 8193 s (accepted: the code only logs an error) fires at the
very next tick. -/
theorem too_long_timer_violated : ∃ i : BitVec 64,
    (step (init 10000) (.start 8193000000 7)).2 = .started i ∧
    firings i 0 (run (step (init 10000) (.start 8193000000 7)).1 [.tick]).2 = [(1, 7)] :=
  ⟨mkId 0#64 1, by decide +kernel, by decide +kernel⟩

-- Non-vacuity: hypotheses of C25/C26 are met by a concrete history with other timers around.
example : ∃ i : BitVec 64,
    (step (run (init 10000) [.start 12000000 1, .tick, .start 10000000 2]).1 (.start 11500000 3)).2 = .started i ∧
    (∀ op ∈ ([.start 10000000 4, .tick, .cancel (mkId 0#64 12)] : List (Op Nat)), op ≠ .cancel i) ∧
    11500000 / 1000000 ≤ 8192 :=
  ⟨mkId 2#64 12, by decide +kernel, by decide +kernel, by decide⟩

end Verif.Timer

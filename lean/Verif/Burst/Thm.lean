import Verif.Burst.Model
/-! # Sending packets in bursts: every packet once, in order (C129) -/
namespace Verif.Burst

/-! ## What is claimed, in terms of calls and of what happens to packets -/

/-- The packets handed over for a port, in order. -/
def handed (port : Nat) : List Op → List Pkt
  | [] => []
  | .send q p _ :: os => if q = port then p :: handed port os else handed port os
  | _ :: os => handed port os

/-- The packets of a port that were disposed of, in order. -/
def disposed (port : Nat) : List Ev → List Pkt
  | [] => []
  | .sent q p :: es => if q = port then p :: disposed port es else disposed port es
  | .freed q p :: es => if q = port then p :: disposed port es else disposed port es

/-- A driver that sends all it is given. -/
def Eager (n : Nat) : Op → Prop
  | .send _ _ r => r = n
  | .flush r => ∀ i, r i = n
  | .term => False

/-- Calls as a program can make them: for existing ports. -/
def Op.Valid : Op → Prop
  | .send port _ _ => port < NUM_PORTS
  | _ => True

/-! ## Proof -/

/-- The packets waiting for a port. -/
def Waits (s : St) (port : Nat) (ps : List Pkt) : Prop :=
  ps.length = s.cnt port ∧ ∀ k (h : k < ps.length), s.mem (port * s.burst + k) = some ps[k]

structure Inv (s : St) (w : Nat → List Pkt) : Prop where
  pos : 1 ≤ s.burst
  waits : ∀ p < NUM_PORTS, Waits s p (w p)
  room : ∀ p < NUM_PORTS, s.cnt p < s.burst

theorem slots_ok (s : St) (ps : List Pkt) : ∀ off, off + ps.length ≤ NUM_PORTS * s.burst →
    (∀ k (h : k < ps.length), s.mem (off + k) = some ps[k]) → slots s off ps.length = .ok ps := by
  induction ps with
  | nil => intro off _ _; rfl
  | cons p ps ih =>
    intro off h1 h2
    rw [List.length_cons] at h1
    rw [List.length_cons]
    unfold slots
    rw [if_neg (by omega)]
    have h0 := h2 0 (by rw [List.length_cons]; omega)
    rw [Nat.add_zero] at h0
    rw [h0]
    have k := ih (off + 1) (by omega) (fun k hk => by
      have := h2 (k + 1) (by rw [List.length_cons]; omega)
      rw [show off + 1 + k = off + (k + 1) by omega, this]; rfl)
    rw [k]
    rfl

theorem base_room {b port n : Nat} (hp : port < NUM_PORTS) (hn : n ≤ b) : port * b + n ≤ NUM_PORTS * b := by
  have : (port + 1) * b ≤ NUM_PORTS * b := Nat.mul_le_mul_right b hp
  rw [Nat.succ_mul] at this
  omega

/-- Slots of different ports are different. -/
theorem apart {b p q k l : Nat} (h : p ≠ q) (hk : k < b) (hl : l < b) : p * b + k ≠ q * b + l := by
  intro e
  apply h
  have e1 : (p * b + k) / b = p := by
    rw [Nat.mul_comm, Nat.mul_add_div (by omega), Nat.div_eq_of_lt hk, Nat.add_zero]
  have e2 : (q * b + l) / b = q := by
    rw [Nat.mul_comm, Nat.mul_add_div (by omega), Nat.div_eq_of_lt hl, Nat.add_zero]
  rw [← e1, e, e2]

theorem disposed_append (p : Nat) (a b : List Ev) : disposed p (a ++ b) = disposed p a ++ disposed p b := by
  induction a with
  | nil => rfl
  | cons e a ih =>
    cases e with
    | sent q x =>
      show (if q = p then x :: disposed p (a ++ b) else disposed p (a ++ b)) = (if q = p then x :: disposed p a else disposed p a) ++ _
      by_cases h : q = p
      · rw [if_pos h, if_pos h, ih]; rfl
      · rw [if_neg h, if_neg h, ih]
    | freed q x =>
      show (if q = p then x :: disposed p (a ++ b) else disposed p (a ++ b)) = (if q = p then x :: disposed p a else disposed p a) ++ _
      by_cases h : q = p
      · rw [if_pos h, if_pos h, ih]; rfl
      · rw [if_neg h, if_neg h, ih]

theorem disposed_sent (p q : Nat) (xs : List Pkt) : disposed p (xs.map (Ev.sent q)) = if q = p then xs else [] := by
  induction xs with
  | nil => rw [List.map_nil]; by_cases h : q = p <;> simp [h, disposed]
  | cons x xs ih =>
    show (if q = p then x :: disposed p (xs.map (Ev.sent q)) else disposed p (xs.map (Ev.sent q))) = _
    rw [ih]
    by_cases h : q = p
    · rw [if_pos h, if_pos h, if_pos h]
    · rw [if_neg h, if_neg h, if_neg h]

theorem disposed_freed (p q : Nat) (xs : List Pkt) : disposed p (xs.map (Ev.freed q)) = if q = p then xs else [] := by
  induction xs with
  | nil => rw [List.map_nil]; by_cases h : q = p <;> simp [h, disposed]
  | cons x xs ih =>
    show (if q = p then x :: disposed p (xs.map (Ev.freed q)) else disposed p (xs.map (Ev.freed q))) = _
    rw [ih]
    by_cases h : q = p
    · rw [if_pos h, if_pos h, if_pos h]
    · rw [if_neg h, if_neg h, if_neg h]

/-- What `send_table` does, whenever the packets of the port are where they should be. -/
theorem sendTable_ok (s : St) (port : Nat) (r : Int) (ps : List Pkt) (hp : port < NUM_PORTS) (hw : Waits s port ps) (hl : ps.length ≤ s.burst) :
    sendTable s port r = .ok { s with
      cnt := fun i => if i = port then 0 else s.cnt i
      log := s.log ++ ((ps.take r.toNat).map (Ev.sent port) ++ (ps.drop r.toNat).map (Ev.freed port)) } := by
  unfold sendTable
  rw [← hw.1, slots_ok s ps _ (base_room hp hl) hw.2]
  have e : (if r < 0 then 0 else r.toNat) = r.toNat := by
    by_cases h : r < 0
    · rw [if_pos h]; omega
    · rw [if_neg h]
  dsimp only
  rw [e, List.append_assoc]

/-- What a step adds to the log: only packets of the right port, in order. -/
structure Adds (s s' : St) (w w' : Nat → List Pkt) (new : Nat → List Pkt) : Prop where
  burst : s'.burst = s.burst
  ok : ∀ p < NUM_PORTS, disposed p s'.log ++ w' p = disposed p s.log ++ w p ++ new p

theorem send_ok {s : St} {w : Nat → List Pkt} (h : Inv s w) (port : Nat) (p : Pkt) (r : Int) (hp : port < NUM_PORTS) :
    ∃ s' w', sendPktOut s port p r = .ok s' ∧ Inv s' w' ∧ Adds s s' w w' (fun q => if q = port then [p] else []) ∧
      (s.burst = 1 → ∀ q < NUM_PORTS, w' q = []) ∧
      s'.log = s.log ++ (if s.cnt port + 1 = s.burst then
        ((w port ++ [p]).take r.toNat).map (Ev.sent port) ++ ((w port ++ [p]).drop r.toNat).map (Ev.freed port) else []) := by
  have hr := h.room port hp
  have hb1 : port * s.burst + s.cnt port < NUM_PORTS * s.burst := by
    have := base_room (b := s.burst) hp (show s.cnt port + 1 ≤ s.burst from hr); omega
  unfold sendPktOut
  rw [if_neg (by omega)]
  dsimp only
  have hcc : ((if port = port then s.cnt port + 1 else s.cnt port) = s.burst) = (s.cnt port + 1 = s.burst) := by rw [if_pos rfl]
  have hw1 : Waits { s with mem := fun i => if i = port * s.burst + s.cnt port then some p else s.mem i, cnt := fun i => if i = port then s.cnt port + 1 else s.cnt i } port (w port ++ [p]) := by
    obtain ⟨a, b⟩ := h.waits port hp
    refine ⟨?_, ?_⟩
    · dsimp only
      rw [if_pos rfl, List.length_append, a]; rfl
    · intro k hk
      dsimp only
      rw [List.length_append, List.length_singleton, a] at hk
      by_cases hkl : k = s.cnt port
      · rw [if_pos (by rw [hkl])]
        subst hkl
        congr 1
        simp [a]
      · rw [if_neg (by omega), b k (by omega), List.getElem_append_left]
  have hw2 : ∀ q < NUM_PORTS, q ≠ port → Waits { s with mem := fun i => if i = port * s.burst + s.cnt port then some p else s.mem i, cnt := fun i => if i = port then s.cnt port + 1 else s.cnt i } q (w q) := by
    intro q hq hne
    obtain ⟨a, b⟩ := h.waits q hq
    have hrq := h.room q hq
    refine ⟨?_, ?_⟩
    · dsimp only; rw [if_neg hne]; exact a
    · intro k hk
      dsimp only
      rw [if_neg (apart hne (by omega) hr)]
      exact b k hk
  by_cases hf : s.cnt port + 1 = s.burst
  · rw [if_pos (hcc.symm ▸ hf : (if port = port then s.cnt port + 1 else s.cnt port) = s.burst), if_pos hf]
    have hl : (w port ++ [p]).length ≤ s.burst := by
      rw [List.length_append, List.length_singleton, (h.waits port hp).1]; omega
    rw [sendTable_ok _ port r _ hp hw1 hl]
    refine ⟨_, fun q => if q = port then [] else w q, rfl, ⟨h.pos, ?_, ?_⟩, ⟨rfl, ?_⟩, ?_, rfl⟩
    · intro q hq
      by_cases hqp : q = port
      · subst hqp
        refine ⟨?_, ?_⟩
        · dsimp only; rw [if_pos rfl, if_pos rfl]; rfl
        · intro k hk; rw [if_pos rfl] at hk; exact absurd hk (Nat.not_lt_zero _)
      · have := hw2 q hq hqp
        refine ⟨?_, ?_⟩
        · dsimp only; rw [if_neg hqp, if_neg hqp, if_neg hqp]; exact (h.waits q hq).1
        · dsimp only; rw [if_neg hqp]; exact this.2
    · intro q hq
      dsimp only
      by_cases hqp : q = port
      · rw [if_pos hqp]; exact h.pos
      · rw [if_neg hqp, if_neg hqp]; exact h.room q hq
    · intro q hq
      dsimp only
      rw [disposed_append, disposed_append, disposed_sent, disposed_freed]
      by_cases hqp : q = port
      · subst hqp
        rw [if_pos rfl, if_pos rfl, if_pos rfl, if_pos rfl, List.take_append_drop, List.append_nil, List.append_assoc]
      · rw [if_neg hqp, if_neg hqp, if_neg (fun x => hqp x.symm), if_neg (fun x => hqp x.symm)]
        simp
    · intro hb1 q hq
      dsimp only
      by_cases hqp : q = port
      · rw [if_pos hqp]
      · rw [if_neg hqp]
        have h1 := h.room q hq
        have h2 := (h.waits q hq).1
        exact List.length_eq_zero_iff.1 (by omega)
  · rw [if_neg (hcc.symm ▸ hf : ¬ (if port = port then s.cnt port + 1 else s.cnt port) = s.burst), if_neg hf]
    refine ⟨_, fun q => if q = port then w port ++ [p] else w q, rfl, ⟨h.pos, ?_, ?_⟩, ⟨rfl, ?_⟩, ?_, (List.append_nil _).symm⟩
    · intro q hq
      by_cases hqp : q = port
      · subst hqp; rw [if_pos rfl]; exact hw1
      · rw [if_neg hqp]; exact hw2 q hq hqp
    · intro q hq
      dsimp only
      by_cases hqp : q = port
      · rw [if_pos hqp]; omega
      · rw [if_neg hqp]; exact h.room q hq
    · intro q hq
      dsimp only
      by_cases hqp : q = port
      · subst hqp; rw [if_pos rfl, if_pos rfl, List.append_assoc]
      · rw [if_neg hqp, if_neg hqp, List.append_nil]
    · intro hb1; omega

/-- The state after the packets of a port were disposed of. -/
theorem cleared {s : St} {w : Nat → List Pkt} (h : Inv s w) (port : Nat) (es : List Ev)
    (he : ∀ q < NUM_PORTS, disposed q es = if q = port then w port else []) :
    Inv { s with cnt := fun i => if i = port then 0 else s.cnt i, log := s.log ++ es } (fun q => if q = port then [] else w q) ∧
      Adds s { s with cnt := fun i => if i = port then 0 else s.cnt i, log := s.log ++ es } w (fun q => if q = port then [] else w q) (fun _ => []) := by
  refine ⟨⟨h.pos, ?_, ?_⟩, ⟨rfl, ?_⟩⟩
  · intro q hq
    by_cases hqp : q = port
    · refine ⟨?_, ?_⟩
      · dsimp only; rw [if_pos hqp, if_pos hqp]; rfl
      · intro k hk; rw [if_pos hqp] at hk; exact absurd hk (Nat.not_lt_zero _)
    · refine ⟨?_, ?_⟩
      · dsimp only; rw [if_neg hqp, if_neg hqp]; exact (h.waits q hq).1
      · dsimp only; rw [if_neg hqp]; exact (h.waits q hq).2
  · intro q hq
    dsimp only
    by_cases hqp : q = port
    · rw [if_pos hqp]; exact h.pos
    · rw [if_neg hqp]; exact h.room q hq
  · intro q hq
    dsimp only
    rw [disposed_append, he q hq, List.append_nil]
    by_cases hqp : q = port
    · subst hqp; rw [if_pos rfl, if_pos rfl, List.append_nil]
    · rw [if_neg hqp, if_neg hqp, List.append_nil]

theorem Adds.trans {a b c : St} {u v w : Nat → List Pkt} (h1 : Adds a b u v (fun _ => [])) (h2 : Adds b c v w (fun _ => [])) :
    Adds a c u w (fun _ => []) :=
  ⟨h2.burst.trans h1.burst, fun p hp => by rw [h2.ok p hp, List.append_nil, h1.ok p hp]⟩

theorem pending_ok (r : Nat → Int) (n : Nat) : ∀ (i : Nat) {s : St} {w : Nat → List Pkt}, Inv s w → i + n ≤ NUM_PORTS →
    ∃ s' w', pendingFrom s r i n = .ok s' ∧ Inv s' w' ∧ Adds s s' w w' (fun _ => []) ∧ (∀ q, i ≤ q → q < i + n → w' q = []) ∧
      (∀ q, q < i → w' q = w q) ∧ ∃ es, s'.log = s.log ++ es ∧ ((∀ i, r i = s.burst) → ∀ q x, Ev.freed q x ∉ es) := by
  induction n with
  | zero =>
    intro i s w h hi
    exact ⟨s, w, rfl, h, ⟨rfl, fun p _ => by rw [List.append_nil]⟩, fun q h1 h2 => by omega, fun q _ => rfl, [], by rw [List.append_nil], fun _ q x hx => by cases hx⟩
  | succ n ih =>
    intro i s w h hi
    unfold pendingFrom
    by_cases hc : s.cnt i = 0
    · rw [if_pos hc]
      obtain ⟨s', w', k1, k2, k3, k4, k5, k6⟩ := ih (i + 1) h (by omega)
      refine ⟨s', w', k1, k2, k3, ?_, fun q hq => k5 q (by omega), k6⟩
      intro q h1 h2
      by_cases hqi : q = i
      · rw [k5 q (by omega), hqi]
        exact List.length_eq_zero_iff.1 (by rw [(h.waits i (by omega)).1, hc])
      · exact k4 q (by omega) (by omega)
    · rw [if_neg hc]
      have hr := h.room i (by omega)
      rw [sendTable_ok s i (r i) (w i) (by omega) (h.waits i (by omega)) (by rw [(h.waits i (by omega)).1]; omega)]
      have he : ∀ q < NUM_PORTS, disposed q (((w i).take (r i).toNat).map (Ev.sent i) ++ ((w i).drop (r i).toNat).map (Ev.freed i)) = if q = i then w i else [] := by
        intro q _
        rw [disposed_append, disposed_sent, disposed_freed]
        by_cases hqi : q = i
        · rw [if_pos hqi.symm, if_pos hqi.symm, if_pos hqi, List.take_append_drop]
        · rw [if_neg (fun x => hqi x.symm), if_neg (fun x => hqi x.symm), if_neg hqi]; rfl
      obtain ⟨c1, c2⟩ := cleared h i _ he
      obtain ⟨s', w', k1, k2, k3, k4, k5, es, k6, k7⟩ := ih (i + 1) c1 (by omega)
      refine ⟨s', w', k1, k2, c2.trans k3, ?_, ?_, _, by rw [k6]; exact List.append_assoc _ _ _, ?_⟩
      · intro q h1 h2
        by_cases hqi : q = i
        · rw [k5 q (by omega), if_pos hqi]
        · exact k4 q (by omega) (by omega)
      · intro q hq
        rw [k5 q (by omega), if_neg (by omega)]
      · intro hall q x hx
        rcases List.mem_append.1 hx with hx | hx
        · rcases List.mem_append.1 hx with hx | hx
          · obtain ⟨y, _, e⟩ := List.mem_map.1 hx; cases e
          · rw [hall i, List.drop_of_length_le (by rw [(h.waits i (by omega)).1]; show _ ≤ s.burst; omega)] at hx
            cases hx
        · exact k7 hall q x hx

theorem term_ok (n : Nat) : ∀ (i : Nat) {s : St} {w : Nat → List Pkt}, Inv s w → i + n ≤ NUM_PORTS →
    ∃ s' w', termFrom s i n = .ok s' ∧ Inv s' w' ∧ Adds s s' w w' (fun _ => []) ∧ (∀ q, i ≤ q → q < i + n → w' q = []) ∧
      (∀ q, q < i → w' q = w q) := by
  induction n with
  | zero =>
    intro i s w h hi
    exact ⟨s, w, rfl, h, ⟨rfl, fun p _ => by rw [List.append_nil]⟩, fun q h1 h2 => by omega, fun q _ => rfl⟩
  | succ n ih =>
    intro i s w h hi
    unfold termFrom
    have hr := h.room i (by omega)
    have hw := h.waits i (by omega)
    rw [← hw.1, slots_ok s (w i) _ (base_room (by omega) (by rw [hw.1]; omega)) hw.2]
    have he : ∀ q < NUM_PORTS, disposed q ((w i).map (Ev.freed i)) = if q = i then w i else [] := by
      intro q _
      rw [disposed_freed]
      by_cases hqi : q = i
      · rw [if_pos hqi.symm, if_pos hqi]
      · rw [if_neg (fun x => hqi x.symm), if_neg hqi]
    obtain ⟨c1, c2⟩ := cleared h i _ he
    obtain ⟨s', w', k1, k2, k3, k4, k5⟩ := ih (i + 1) c1 (by omega)
    refine ⟨s', w', k1, k2, c2.trans k3, ?_, ?_⟩
    · intro q h1 h2
      by_cases hqi : q = i
      · rw [k5 q (by omega), if_pos hqi]
      · exact k4 q (by omega) (by omega)
    · intro q hq
      rw [k5 q (by omega), if_neg (by omega)]

/-- Nothing waits after this call. -/
def Drains (burst : Nat) : Op → Prop
  | .send .. => burst = 1
  | .flush _ => True
  | .term => True

theorem idle {s : St} {w : Nat → List Pkt} (h : Inv s w) (hb : s.burst = 1) : ∀ q < NUM_PORTS, w q = [] := by
  intro q hq
  have h1 := h.room q hq
  have h2 := (h.waits q hq).1
  exact List.length_eq_zero_iff.1 (by omega)

theorem step_ok {s : St} {w : Nat → List Pkt} (h : Inv s w) (o : Op) (ho : o.Valid) :
    ∃ s' w', step s o = .ok s' ∧ Inv s' w' ∧ Adds s s' w w' (fun q => handed q [o]) ∧ (Drains s.burst o → ∀ q < NUM_PORTS, w' q = []) ∧
      ∃ es, s'.log = s.log ++ es ∧ (Eager s.burst o → ∀ q x, Ev.freed q x ∉ es) := by
  cases o with
  | send port p r =>
    obtain ⟨s', w', k1, k2, k3, k4, k5⟩ := send_ok h port p r ho
    refine ⟨s', w', k1, k2, ⟨k3.burst, fun q hq => ?_⟩, k4, _, k5, ?_⟩
    · rw [k3.ok q hq]
      congr 1
      show _ = if port = q then [p] else []
      by_cases hqp : q = port
      · rw [if_pos hqp, if_pos hqp.symm]
      · rw [if_neg hqp, if_neg (fun x => hqp x.symm)]
    · intro he q x hx
      have he : r = s.burst := he
      by_cases hf : s.cnt port + 1 = s.burst
      · rw [if_pos hf] at hx
        rcases List.mem_append.1 hx with hx | hx
        · obtain ⟨y, _, e⟩ := List.mem_map.1 hx; cases e
        · rw [he, List.drop_of_length_le (by rw [List.length_append, (h.waits port ho).1]; show _ + 1 ≤ s.burst; omega)] at hx
          cases hx
      · rw [if_neg hf] at hx; cases hx
  | flush r =>
    show ∃ s' w', sendPending s r = .ok s' ∧ _
    unfold sendPending
    by_cases hb : s.burst > 1
    · rw [if_pos hb]
      obtain ⟨s', w', k1, k2, k3, k4, _, es, k6, k7⟩ := pending_ok r NUM_PORTS 0 h (by omega)
      exact ⟨s', w', k1, k2, k3, fun _ q hq => k4 q (Nat.zero_le _) (by omega), es, k6, k7⟩
    · rw [if_neg hb]
      refine ⟨s, w, rfl, h, ⟨rfl, fun q _ => by rw [show handed q [Op.flush r] = [] from rfl, List.append_nil]⟩, fun _ => idle h (by have := h.pos; omega), [], by rw [List.append_nil], fun _ q x hx => by cases hx⟩
  | term =>
    obtain ⟨s', w', k1, k2, k3, k4, _⟩ := term_ok NUM_PORTS 0 h (by omega)
    have hl : ∃ es, s'.log = s.log ++ es := by
      have : ∀ n i (s s' : St), termFrom s i n = .ok s' → ∃ es, s'.log = s.log ++ es := by
        intro n
        induction n with
        | zero => intro i s s' e; cases e; exact ⟨[], by rw [List.append_nil]⟩
        | succ n ih =>
          intro i s s' e
          unfold termFrom at e
          split at e
          · cases e
          · obtain ⟨es, he⟩ := ih _ _ _ e
            exact ⟨_, by rw [he]; exact List.append_assoc _ _ _⟩
      exact this _ _ _ _ k1
    obtain ⟨es, hes⟩ := hl
    exact ⟨s', w', k1, k2, k3, fun _ q hq => k4 q (Nat.zero_le _) (by omega), es, hes, fun hx => absurd hx id⟩

theorem handed_append (q : Nat) (a b : List Op) : handed q (a ++ b) = handed q a ++ handed q b := by
  induction a with
  | nil => rfl
  | cons o a ih =>
    cases o with
    | send port p r =>
      show (if port = q then p :: handed q (a ++ b) else handed q (a ++ b)) = (if port = q then p :: handed q a else handed q a) ++ _
      by_cases h : port = q
      · rw [if_pos h, if_pos h, ih]; rfl
      · rw [if_neg h, if_neg h, ih]
    | flush r => exact ih
    | term => exact ih

theorem run_ok (ops : List Op) (hv : ∀ o ∈ ops, o.Valid) : ∀ {s : St} {w : Nat → List Pkt}, Inv s w →
    ∃ s' w', run s ops = .ok s' ∧ Inv s' w' ∧ Adds s s' w w' (fun q => handed q ops) ∧
      (∀ b o, ops = b ++ [o] → Drains s.burst o → ∀ q < NUM_PORTS, w' q = []) ∧
      ∃ es, s'.log = s.log ++ es ∧ ((∀ o ∈ ops, Eager s.burst o) → ∀ q x, Ev.freed q x ∉ es) := by
  induction ops with
  | nil =>
    intro s w h
    exact ⟨s, w, rfl, h, ⟨rfl, fun q _ => by rw [show handed q [] = [] from rfl, List.append_nil]⟩, (fun b o e => by cases b <;> cases e), [], by rw [List.append_nil], fun _ q x hx => by cases hx⟩
  | cons o ops ih =>
    intro s w h
    obtain ⟨s1, w1, k1, k2, k3, k4, es, k5, k6⟩ := step_ok h o (hv o List.mem_cons_self)
    obtain ⟨s2, w2, j1, j2, j3, j4, fs, j5, j6⟩ := ih (fun x hx => hv x (List.mem_cons_of_mem _ hx)) k2
    refine ⟨s2, w2, ?_, j2, ⟨j3.burst.trans k3.burst, ?_⟩, ?_, es ++ fs, ?_, ?_⟩
    · unfold run; rw [k1]; exact j1
    · intro q hq
      show _ = _ ++ handed q (o :: ops)
      rw [j3.ok q hq, k3.ok q hq, show o :: ops = [o] ++ ops from rfl, handed_append]
      simp only [List.append_assoc]
    · intro b x e hd
      cases b with
      | nil =>
        rw [List.nil_append, List.cons.injEq] at e
        obtain ⟨rfl, rfl⟩ := e
        cases j1
        have hw : ∀ q < NUM_PORTS, w2 q = [] := by
          intro q hq
          have a := (j2.waits q hq).1
          have b := (k2.waits q hq).1
          rw [k4 hd q hq] at b
          exact List.length_eq_zero_iff.1 (by rw [a, ← b]; rfl)
        exact hw
      | cons y b =>
        rw [List.cons_append, List.cons.injEq] at e
        exact j4 b x e.2 (by rw [k3.burst]; exact hd)
    · rw [j5, k5, List.append_assoc]
    · intro hall q x hx
      rcases List.mem_append.1 hx with hx | hx
      · exact k6 (hall o List.mem_cons_self) q x hx
      · exact j6 (fun y hy => by rw [k3.burst]; exact hall y (List.mem_cons_of_mem _ hy)) q x hx

theorem init_inv (burst : Nat) (h : 1 ≤ burst) : Inv (init burst) (fun _ => []) :=
  ⟨h, fun _ _ => ⟨rfl, fun _ hk => absurd hk (Nat.not_lt_zero _)⟩, fun _ _ => h⟩

/-- **C129.** With a burst size of at least 1 (what the documentation asks for), whatever one thread sends and whatever the drivers answer:
    no access outside the table and no use of an empty slot; for each port, the packets given to the driver or freed and then the ones
    waiting are exactly the packets handed over, each once, in the order they were handed over; fewer than `burst` packets wait; none after
    `ofp_send_pending_pkt`, after the end of the thread's use of the stack, or after any call if the burst size is 1. -/
theorem burst_exact (burst : Nat) (hb : 1 ≤ burst) (ops : List Op) (hv : ∀ o ∈ ops, o.Valid) :
    ∃ s, run (init burst) ops = .ok s ∧
      ∀ port < NUM_PORTS, ∃ waiting : List Pkt, disposed port s.log ++ waiting = handed port ops ∧ waiting.length < burst ∧
        (∀ k (h : k < waiting.length), s.mem (port * burst + k) = some waiting[k]) ∧
        (∀ before r, ops = before ++ [.flush r] → waiting = []) ∧ (∀ before, ops = before ++ [.term] → waiting = []) ∧
        (burst = 1 → waiting = []) := by
  obtain ⟨s, w, k1, k2, k3, k4, _⟩ := run_ok ops hv (init_inv burst hb)
  have hbs : s.burst = burst := k3.burst
  refine ⟨s, k1, fun port hp => ⟨w port, ?_, ?_, ?_, ?_, ?_, ?_⟩⟩
  · have := k3.ok port hp
    rw [this]; rfl
  · rw [(k2.waits port hp).1, ← hbs]; exact k2.room port hp
  · have := (k2.waits port hp).2
    rw [hbs] at this; exact this
  · intro b r e; exact k4 b _ e trivial port hp
  · intro b e; exact k4 b _ e trivial port hp
  · intro h1; exact idle k2 (hbs.trans h1) port hp

/-- **C129.** If the drivers take whatever they are given, no packet is freed: what is sent on a port is what was handed over. -/
theorem burst_lossless (burst : Nat) (hb : 1 ≤ burst) (ops : List Op) (hv : ∀ o ∈ ops, o.Valid) (he : ∀ o ∈ ops, Eager burst o) :
    ∃ s, run (init burst) ops = .ok s ∧ ∀ port x, Ev.freed port x ∉ s.log := by
  obtain ⟨s, w, k1, k2, k3, k4, es, k5, k6⟩ := run_ok ops hv (init_inv burst hb)
  refine ⟨s, k1, fun port x hx => ?_⟩
  rw [k5] at hx
  exact k6 he port x hx

/-- **C129.** A packet the driver refused is freed, one it took is not: what a full table of `n` packets turns into. -/
theorem refused_freed (s : St) (port : Nat) (r : Int) (ps : List Pkt) (hp : port < NUM_PORTS) (hl : ps.length = s.cnt port) (hb : ps.length ≤ s.burst)
    (hm : ∀ k (h : k < ps.length), s.mem (port * s.burst + k) = some ps[k]) :
    ∃ s', sendTable s port r = .ok s' ∧ s'.log = s.log ++ ((ps.take r.toNat).map (Ev.sent port) ++ (ps.drop r.toNat).map (Ev.freed port)) :=
  ⟨_, sendTable_ok s port r ps hp ⟨hl, hm⟩ hb, rfl⟩

/-- Without the condition of the documentation, the very first packet is written outside its port's part of the table. -/
theorem burst_zero (port : Nat) (p : Pkt) (r : Int) : run (init 0) [.send port p r] = .error .oob := by
  have h : sendPktOut (init 0) port p r = .error .oob := if_pos (by show NUM_PORTS * 0 ≤ port * 0 + 0; omega)
  show (match sendPktOut (init 0) port p r with | .error e => (Except.error e : Except Fault St) | .ok s => run s []) = _
  rw [h]

/-- The theorems at work: bursts of 2, ports 0 and 3, a driver that takes one of two packets, then a flush. -/
example : ∃ s, run (init 2) [.send 0 10 1, .send 3 11 2, .send 0 12 1, .send 0 13 2, .flush (fun _ => -1)] = .ok s ∧
    s.log = [.sent 0 10, .freed 0 12, .freed 0 13, .freed 3 11] := ⟨_, rfl, rfl⟩

example : ∀ o ∈ ([.send 0 10 2, .send 3 11 2, .send 0 12 2, .flush (fun _ => 2)] : List Op), o.Valid ∧ Eager 2 o := by
  intro o ho
  simp only [List.mem_cons, List.not_mem_nil, or_false] at ho
  rcases ho with rfl | rfl | rfl | rfl
  · exact ⟨by show (0 : Nat) < 11; omega, rfl⟩
  · exact ⟨by show (3 : Nat) < 11; omega, rfl⟩
  · exact ⟨by show (0 : Nat) < 11; omega, rfl⟩
  · exact ⟨trivial, fun _ => rfl⟩

end Verif.Burst

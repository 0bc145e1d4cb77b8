import Verif.Tw.Model

/-!
# Theorems about TIME_WAIT
-/

namespace Verif.Tw

open Verif.Rto (i32)

/-! ## Sequence and time arithmetic -/

theorem i32_range (x : Int) : -2147483648 ≤ i32 x ∧ i32 x < 2147483648 := by unfold i32; omega

/-- The signed difference of two wrapped times is their real difference, if that fits. -/
theorem i32_diff (a b d : Int) (h1 : -2147483648 ≤ a + d - b) (h2 : a + d - b < 2147483648) : i32 (i32 (i32 a + d) - i32 b) = a + d - b := by
  unfold i32; omega

/-! ## Segments -/

/-- RFC 793 and RFC 1337: what a connection in TIME_WAIT does with a segment, in words that do
not mention the implementation: it ends for a new connection request with a larger sequence
number, and for nothing else. -/
theorem segment_ends_only_new (t : Tw) (g : Seg) :
    twcheck t g = .startOver ↔ g.fRst = false ∧ g.fSyn = true ∧ 0 < (g.seq - t.rcvNxt).toInt := by
  unfold twcheck seqGt
  cases g.fRst <;> cases g.fSyn <;> cases g.fAck <;> simp

/-- **C143.**  A reset is ignored: it neither ends TIME_WAIT nor is answered (RFC 1337). -/
theorem reset_ignored (k : W) (s : St) (i : Nat) (g : Seg) (h : g.fRst = true) : step k s (.seg i g) = (s, []) := by
  unfold step
  dsimp only
  match hf : s.q.find? (fun t => t.inp == i) with
  | none => rw [hf]
  | some t =>
    have : twcheck t g = .drop := by unfold twcheck; rw [if_pos h]
    rw [hf]
    dsimp only
    rw [this]

/-- The FIN of the peer, sent again: its sequence number ends just before what we expect next. -/
def LastFin (t : Tw) (g : Seg) : Prop :=
  g.fFin = true ∧ g.fAck = true ∧ g.fSyn = false ∧ g.fRst = false ∧ g.seq + BitVec.ofNat 32 g.len + 1 = t.rcvNxt

/-- **C143.**  A retransmitted FIN is acknowledged, with the right numbers, and starts the waiting
time again. -/
theorem fin_again (k : W) (s : St) (t : Tw) (g : Seg) (hf : s.q.find? (fun x => x.inp == t.inp) = some t) (h : LastFin t g) :
    ∃ s' r, step k s (.seg t.inp g) = (s', [.sent r]) ∧ r.seq = t.sndNxt ∧ r.ack = t.rcvNxt ∧
      (∃ t' ∈ s'.q, t'.inp = t.inp ∧ t'.since = s.now ∧ t'.sndNxt = t.sndNxt ∧ t'.rcvNxt = t.rcvNxt) := by
  obtain ⟨h1, h2, h3, h4, h5⟩ := h
  have e : twcheck t g = .go true true := by
    unfold twcheck
    have h6 : g.seq + BitVec.ofNat 32 g.len + 0 + 1 = t.rcvNxt := by
      rw [show g.seq + BitVec.ofNat 32 g.len + 0 = g.seq + BitVec.ofNat 32 g.len from BitVec.add_zero _]; exact h5
    rw [if_neg (by rw [h4]; decide), if_neg (by rw [h3]; simp), if_neg (by rw [h2]; decide), h3]
    dsimp only
    simp only [Bool.false_eq_true, if_false]
    rw [h6, h1]
    simp
  unfold step
  dsimp only
  rw [hf]
  dsimp only
  rw [e]
  refine ⟨_, _, rfl, rfl, rfl, stamp s t, ?_, rfl, rfl, rfl, rfl⟩
  simp

/-- **C143.**  Whatever is answered, the answer acknowledges all that was received and nothing
more, carries no data, and echoes a timestamp only if timestamps were in use. -/
theorem answers (k : W) (s : St) (i : Nat) (g : Seg) (r : Resp) (h : .sent r ∈ (step k s (.seg i g)).2) :
    ∃ t ∈ s.q, t.inp = i ∧ r.inp = i ∧ r.seq = t.sndNxt ∧ r.ack = t.rcvNxt ∧ (r.ts = none ↔ t.recent = 0) := by
  unfold step at h
  dsimp only at h
  match hf : s.q.find? (fun t => t.inp == i) with
  | none => rw [hf] at h; cases h
  | some t =>
    rw [hf] at h
    dsimp only at h
    have hm := List.mem_of_find?_eq_some hf
    have hi := List.find?_some hf
    have hi : t.inp = i := by simpa using hi
    match hv : twcheck t g with
    | .drop => rw [hv] at h; cases h
    | .startOver => rw [hv] at h; simp at h
    | .go a b =>
      rw [hv] at h
      cases b with
      | false => simp at h
      | true =>
        simp only [if_true, List.mem_cons, List.not_mem_nil, or_false, Out.sent.injEq] at h
        subst h
        refine ⟨t, hm, hi, hi, rfl, rfl, ?_⟩
        unfold respond
        dsimp only
        by_cases hr : t.recent = 0
        · rw [if_pos hr]; exact ⟨fun _ => hr, fun _ => rfl⟩
        · rw [if_neg hr]; exact ⟨fun x => (by cases x), fun x => absurd x hr⟩

/-- A pure acknowledgement that repeats what both sides know already. -/
def pureAck (r : Resp) : Seg := { seq := r.seq, ack := r.ack, fSyn := false, fAck := true, fFin := false, fRst := false, other := false, len := 0 }

/-- **C144, violated.**  An acknowledgement without data, in sequence and of everything sent, needs
no answer, and must not get one: but every such segment is answered. -/
theorem pure_ack_answered_violated (k : W) (s : St) (t : Tw) (g : Seg) (hf : s.q.find? (fun x => x.inp == t.inp) = some t)
    (hg : g = { seq := t.rcvNxt, ack := t.sndNxt, fSyn := false, fAck := true, fFin := false, fRst := false, other := false, len := 0 }) :
    (step k s (.seg t.inp g)).2 = [.sent (respond k t)] ∧ (step k s (.seg t.inp g)).1 = s := by
  have e : twcheck t g = .go false true := by
    subst hg
    unfold twcheck
    simp
  unfold step
  dsimp only
  rw [hf]
  dsimp only
  rw [e]
  exact ⟨rfl, rfl⟩

/-- Two hosts, each with its half of the same connection in TIME_WAIT; one segment is under way to
the first (`some (true, g)`), to the second, or none.  One step delivers it. -/
def volley (k : W) (a b : St) (i j : Nat) : Nat → Option (Bool × Seg) → Option (Bool × Seg)
  | 0, x => x
  | _ + 1, none => none
  | n + 1, some (true, g) => volley k a b i j n (match (step k a (.seg i g)).2 with | [.sent r] => some (false, pureAck r) | _ => none)
  | n + 1, some (false, g) => volley k a b i j n (match (step k b (.seg j g)).2 with | [.sent r] => some (true, pureAck r) | _ => none)

/-- **C144, violated.**  After both sides closed at the same time, a single duplicate
acknowledgement makes them acknowledge each other's acknowledgements without end: after any
number of steps there is still one under way. -/
theorem ack_war_violated (k : W) (a b : St) (ta tb : Tw) (ha : a.q.find? (fun x => x.inp == ta.inp) = some ta) (hb : b.q.find? (fun x => x.inp == tb.inp) = some tb)
    (h1 : ta.sndNxt = tb.rcvNxt) (h2 : tb.sndNxt = ta.rcvNxt) (n : Nat) :
    volley k a b ta.inp tb.inp n (some (true, pureAck (respond k tb))) ≠ none := by
  have key : ∀ n, volley k a b ta.inp tb.inp n (some (true, pureAck (respond k tb))) ≠ none ∧
      volley k a b ta.inp tb.inp n (some (false, pureAck (respond k ta))) ≠ none := by
    intro n
    induction n with
    | zero => exact ⟨fun x => (by cases x), fun x => (by cases x)⟩
    | succ n ih =>
      have e1 := (pure_ack_answered_violated k a ta (pureAck (respond k tb)) ha (by unfold pureAck respond; dsimp only; rw [h2, h1])).1
      have e2 := (pure_ack_answered_violated k b tb (pureAck (respond k ta)) hb (by unfold pureAck respond; dsimp only; rw [h2, h1])).1
      constructor
      · unfold volley; rw [e1]; exact ih.2
      · unfold volley; rw [e2]; exact ih.1
  exact (key n).1

/-- The two halves of one connection. -/
example : ∃ a b : Tw, a.sndNxt = b.rcvNxt ∧ b.sndNxt = a.rcvNxt ∧
    ({ init 0 3000 10 with q := [a] } : St).q.find? (fun x => x.inp == a.inp) = some a ∧
    ({ init 0 3000 10 with q := [b] } : St).q.find? (fun x => x.inp == b.inp) = some b :=
  ⟨⟨1, 10, 20, 0, 0, 0, 0, 0⟩, ⟨2, 20, 10, 0, 0, 0, 0, 0⟩, rfl, rfl, rfl, rfl⟩

/-- On the other hand a data segment in sequence, alone with the ACK flag, is dropped without an
answer: the condition on the length is inverted (harmless after the peer's FIN). -/
theorem data_not_answered_violated (k : W) (s : St) (t : Tw) (n : Nat) (hn : 0 < n) (hf : s.q.find? (fun x => x.inp == t.inp) = some t) :
    step k s (.seg t.inp { seq := t.rcvNxt, ack := t.sndNxt, fSyn := false, fAck := true, fFin := false, fRst := false, other := false, len := n }) = (s, []) := by
  unfold step
  dsimp only
  rw [hf]
  have e : twcheck t { seq := t.rcvNxt, ack := t.sndNxt, fSyn := false, fAck := true, fFin := false, fRst := false, other := false, len := n } = .go false false := by
    unfold twcheck
    simp [show n ≠ 0 by omega]
  dsimp only
  rw [e]
  rfl

/-! ## How long it lasts -/

/-- Histories with a constant MSL; the same connection is not put into TIME_WAIT twice. -/
def Steady : St → List (W × Op) → Prop
  | _, [] => True
  | s, (k, o) :: ops => (match o with | .setMsl _ => False | .start c => ∀ t ∈ s.q, t.inp ≠ c.inp | _ => True) ∧ Steady (step k s o).1 ops

structure Inv (s : St) : Prop where
  past : ∀ t ∈ s.q, t.since ≤ s.now
  time : ∀ t ∈ s.q, t.time = i32 (i32 t.since + 2 * s.msl)
  sorted : s.q.Pairwise (fun a b => a.since ≤ b.since)
  uniq : (s.q.map (·.inp)).Nodup
  cap : s.q.length ≤ s.cap

theorem scan_suffix (tk : Int) : ∀ q : List Tw, ∃ d, q = d ++ (scan tk q).1 ∧ (∀ t ∈ d, i32 (t.time - tk) ≤ 0) ∧
    (scan tk q).2 = d.map (fun t => .ended t.inp .timeout) ∧ (∀ t r, (scan tk q).1 = t :: r → 0 < i32 (t.time - tk)) := by
  intro q
  induction q with
  | nil => exact ⟨[], rfl, fun t ht => (by cases ht), rfl, fun t r h => (by cases h)⟩
  | cons t r ih =>
    by_cases h : i32 (t.time - tk) > 0
    · have e : scan tk (t :: r) = (t :: r, []) := by unfold scan; rw [if_pos h]
      rw [e]
      exact ⟨[], rfl, fun t ht => (by cases ht), rfl, fun t' r' h' => (by cases h'; exact h)⟩
    · have e : scan tk (t :: r) = ((scan tk r).1, .ended t.inp .timeout :: (scan tk r).2) := by
        rw [scan, if_neg h]
      obtain ⟨d, h1, h2, h3, h4⟩ := ih
      rw [e]
      refine ⟨t :: d, ?_, ?_, ?_, h4⟩
      · rw [List.cons_append, ← h1]
      · intro x hx
        rcases List.mem_cons.mp hx with hx | hx
        · subst hx; omega
        · exact h2 x hx
      · dsimp only; rw [h3]; rfl

theorem append_inv {s : St} {q : List Tw} {t : Tw} (hq : q.Sublist s.q) (hi : Inv s) (hn : ∀ x ∈ q, x.inp ≠ t.inp) (hl : q.length + 1 ≤ s.cap) :
    Inv { s with q := q ++ [stamp s t] } := by
  refine ⟨?_, ?_, ?_, ?_, ?_⟩
  · intro x hx
    rcases List.mem_append.mp hx with hx | hx
    · exact hi.past x (hq.subset hx)
    · rw [List.mem_singleton] at hx; subst hx; exact Int.le_refl _
  · intro x hx
    rcases List.mem_append.mp hx with hx | hx
    · exact hi.time x (hq.subset hx)
    · rw [List.mem_singleton] at hx; subst hx; rfl
  · show (q ++ [stamp s t]).Pairwise _
    rw [List.pairwise_append]
    refine ⟨hi.sorted.sublist hq, List.pairwise_singleton _ _, fun a ha b hb => ?_⟩
    rw [List.mem_singleton] at hb; subst hb
    exact hi.past a (hq.subset ha)
  · show ((q ++ [stamp s t]).map (·.inp)).Nodup
    rw [List.map_append, List.nodup_append]
    refine ⟨(List.Sublist.nodup (hq.map _) hi.uniq), by simp, fun a ha b hb => ?_⟩
    rw [List.map_singleton, List.mem_singleton] at hb
    obtain ⟨x, hx, he⟩ := List.mem_map.mp ha
    subst hb
    rw [← he]
    exact hn x hx
  · show (q ++ [stamp s t]).length ≤ s.cap
    rw [List.length_append, List.length_singleton]; exact hl

theorem sub_inv {s : St} {q : List Tw} (hq : q.Sublist s.q) (hi : Inv s) : Inv { s with q := q } :=
  ⟨fun x hx => hi.past x (hq.subset hx), fun x hx => hi.time x (hq.subset hx), hi.sorted.sublist hq,
    (hq.map _).nodup hi.uniq, Nat.le_trans hq.length_le hi.cap⟩

theorem step_seg (k : W) (s : St) (i : Nat) (g : Seg) : (step k s (.seg i g)).1 = s ∨
    ∃ t, s.q.find? (fun t => t.inp == i) = some t ∧
      ((twcheck t g = .startOver ∧ (step k s (.seg i g)).1 = { s with q := s.q.filter (fun t => t.inp != i) }) ∨
       (step k s (.seg i g)).1 = { s with q := s.q.filter (fun t => t.inp != i) ++ [stamp s t] }) := by
  unfold step
  dsimp only
  match hf : s.q.find? (fun t => t.inp == i) with
  | none => rw [hf]; exact .inl rfl
  | some t =>
    rw [hf]
    dsimp only
    match hv : twcheck t g with
    | .drop => exact .inl rfl
    | .startOver => exact .inr ⟨t, rfl, .inl ⟨hv, rfl⟩⟩
    | .go true _ => exact .inr ⟨t, rfl, .inr rfl⟩
    | .go false _ => exact .inl rfl

theorem filter_length_lt {q : List Tw} {t : Tw} {i : Nat} (hm : t ∈ q) (hi : t.inp = i) : (q.filter (fun t => t.inp != i)).length < q.length := by
  induction q with
  | nil => cases hm
  | cons x q ih =>
    by_cases hx : (x.inp != i) = true
    · rw [List.filter_cons_of_pos (p := fun t : Tw => t.inp != i) hx]
      rcases List.mem_cons.mp hm with e | e
      · subst e; simp [hi] at hx
      · simp only [List.length_cons]; have := ih e; omega
    · rw [List.filter_cons_of_neg (p := fun t : Tw => t.inp != i) hx]
      have := List.length_filter_le (fun t : Tw => t.inp != i) q
      simp only [List.length_cons]; omega

theorem step_inv {k : W} {s : St} {o : Op} (hi : Inv s)
    (ho : match o with | .setMsl _ => False | .start c => ∀ t ∈ s.q, t.inp ≠ c.inp | _ => True) : Inv (step k s o).1 := by
  cases o with
  | start c =>
    show Inv (twstart k s c).1
    unfold twstart
    dsimp only
    by_cases hl : s.q.length < s.cap
    · rw [if_pos hl]
      exact append_inv (List.Sublist.refl _) hi ho hl
    · rw [if_neg hl]
      match hq : s.q with
      | [] => exact hi
      | o :: r =>
        dsimp only
        have hs : r.Sublist s.q := by rw [hq]; exact List.sublist_cons_self _ _
        refine append_inv hs hi (fun x hx => ho x (hs.subset hx)) ?_
        have := hi.cap
        rw [hq] at this
        exact this
  | seg i g =>
    rcases step_seg k s i g with e | ⟨t, hf, ⟨_, e⟩ | e⟩
    · rw [e]; exact hi
    · rw [e]; exact sub_inv List.filter_sublist hi
    · rw [e]
      have hm := List.mem_of_find?_eq_some hf
      have ht : t.inp = i := by simpa using List.find?_some hf
      refine append_inv List.filter_sublist hi (fun x hx => ?_) ?_
      · rw [ht]
        simpa using (List.mem_filter.mp hx).2
      · have := filter_length_lt hm ht
        have := hi.cap
        omega
  | slowtimo =>
    show Inv { s with q := (scan (ticks s) s.q).1 }
    obtain ⟨d, h1, _⟩ := scan_suffix (ticks s) s.q
    refine sub_inv ?_ hi
    conv => rhs; rw [h1]
    exact List.sublist_append_right _ _
  | pass d =>
    refine ⟨fun t ht => Int.le_trans (hi.past t ht) ?_, hi.time, hi.sorted, hi.uniq, hi.cap⟩
    show s.now ≤ s.now + (d : Int)
    omega
  | setMsl m => exact ho.elim
  | setMax n =>
    show Inv (if n ≥ 32 then _ else _)
    by_cases h : n ≥ 32
    · rw [if_pos h]; exact ⟨hi.past, hi.time, hi.sorted, hi.uniq, hi.cap⟩
    · rw [if_neg h]; exact hi

theorem run_inv : ∀ ops : List (W × Op), ∀ s : St, Inv s → Steady s ops → Inv (run s ops) := by
  intro ops
  induction ops with
  | nil => intro s h _; exact h
  | cons p ops ih =>
    intro s h hs
    exact ih _ (step_inv h hs.1) hs.2

theorem run_msl : ∀ ops : List (W × Op), ∀ s : St, Steady s ops → (run s ops).msl = s.msl ∧ (run s ops).cap = s.cap := by
  intro ops
  induction ops with
  | nil => intro s _; exact ⟨rfl, rfl⟩
  | cons p ops ih =>
    intro s hs
    have h := ih _ hs.2
    have e : (step p.1 s p.2).1.msl = s.msl ∧ (step p.1 s p.2).1.cap = s.cap := by
      have h1 := hs.1
      match p with
      | (k, .start c) =>
        show (twstart k s c).1.msl = s.msl ∧ (twstart k s c).1.cap = s.cap
        unfold twstart
        dsimp only
        by_cases hl : s.q.length < s.cap
        · rw [if_pos hl]; exact ⟨rfl, rfl⟩
        · rw [if_neg hl]
          match s.q with
          | [] => exact ⟨rfl, rfl⟩
          | _ :: _ => exact ⟨rfl, rfl⟩
      | (k, .seg i g) =>
        rcases step_seg k s i g with e | ⟨t, hf, ⟨_, e⟩ | e⟩ <;> · dsimp only; rw [e]; exact ⟨rfl, rfl⟩
      | (k, .slowtimo) => exact ⟨rfl, rfl⟩
      | (k, .pass d) => exact ⟨rfl, rfl⟩
      | (k, .setMsl m) => exact h1.elim
      | (k, .setMax n) =>
        show (if n ≥ 32 then ({ s with maxtw := n } : St) else s).msl = _ ∧ (if n ≥ 32 then ({ s with maxtw := n } : St) else s).cap = _
        by_cases hn : n ≥ 32
        · rw [if_pos hn]; exact ⟨rfl, rfl⟩
        · rw [if_neg hn]; exact ⟨rfl, rfl⟩
    exact ⟨h.1.trans e.1, h.2.trans e.2⟩

theorem init_inv (now msl : Int) (cap : Nat) : Inv (init now msl cap) :=
  ⟨fun t h => (by cases h), fun t h => (by cases h), List.Pairwise.nil, List.nodup_nil, Nat.zero_le _⟩

/-- **C142.**  In every history with a constant MSL: a connection leaves TIME_WAIT only when two MSL
have passed since it entered (or since the peer's FIN was last repeated), for a new connection
request of the peer with a larger sequence number, or, when the table is full, to make room,
and then it is the one that has waited longest. -/
theorem ends_for_reason (now msl : Int) (cap : Nat) (h : List (W × Op)) (k : W) (o : Op) (t : Tw)
    (hm0 : 0 ≤ msl) (hm : 2 * msl < 2147483648) (hs : Steady (init now msl cap) (h ++ [(k, o)]))
    (ht : t ∈ (run (init now msl cap) h).q) (hgone : ∀ x ∈ (step k (run (init now msl cap) h) o).1.q, x.inp ≠ t.inp) :
    (o = .slowtimo ∧ t.since + 2 * msl ≤ (run (init now msl cap) h).now) ∨
    (∃ g, o = .seg t.inp g ∧ g.fSyn = true ∧ g.fRst = false ∧ 0 < (g.seq - t.rcvNxt).toInt) ∨
    (∃ c, o = .start c ∧ (run (init now msl cap) h).q.length = cap ∧ ∀ x ∈ (run (init now msl cap) h).q, t.since ≤ x.since) := by
  have split : ∀ h : List (W × Op), ∀ s, Steady s (h ++ [(k, o)]) → Steady s h := by
    intro h
    induction h with
    | nil => intro s _; trivial
    | cons p h ih => intro s hs; exact ⟨hs.1, ih _ hs.2⟩
  have hs' := split h _ hs
  have hi := run_inv h _ (init_inv now msl cap) hs'
  have hc := run_msl h _ hs'
  generalize run (init now msl cap) h = s at *
  have hmsl : s.msl = msl := hc.1
  have hcap : s.cap = cap := hc.2
  cases o with
  | pass d => exact absurd rfl (hgone t ht)
  | setMsl m => exact absurd rfl (hgone t ht)
  | setMax n =>
    refine absurd rfl (hgone t ?_)
    show t ∈ (if n ≥ 32 then ({ s with maxtw := n } : St) else s).q
    by_cases hn : n ≥ 32
    · rw [if_pos hn]; exact ht
    · rw [if_neg hn]; exact ht
  | slowtimo =>
    left
    refine ⟨rfl, ?_⟩
    obtain ⟨d, h1, h2, _⟩ := scan_suffix (ticks s) s.q
    rw [h1] at ht
    rcases List.mem_append.mp ht with hd | hk
    · have he := h2 t hd
      have hmem : t ∈ s.q := by rw [h1]; exact List.mem_append_left _ hd
      have hp := hi.past t hmem
      rw [hi.time t hmem, hmsl] at he
      unfold ticks at he
      by_cases hl : t.since + 2 * msl ≤ s.now
      · exact hl
      · exfalso
        rw [i32_diff t.since s.now (2 * msl) (by omega) (by omega)] at he
        omega
    · exact absurd rfl (hgone t hk)
  | seg i g =>
    right; left
    rcases step_seg k s i g with e | ⟨t', hf, ⟨hv, e⟩ | e⟩
    · rw [e] at hgone; exact absurd rfl (hgone t ht)
    · rw [e] at hgone
      have hti : t.inp = i := by
        by_cases x : t.inp = i
        · exact x
        · exact absurd rfl (hgone t (List.mem_filter.mpr ⟨ht, by simpa using x⟩))
      have hm := List.mem_of_find?_eq_some hf
      have ht' : t'.inp = i := by simpa using List.find?_some hf
      -- the entry found is the one in question
      have heq : t' = t := by
        have hu := hi.uniq
        have : ∀ q : List Tw, (q.map (·.inp)).Nodup → t ∈ q → t' ∈ q → t' = t := by
          intro q
          induction q with
          | nil => intro _ h _; cases h
          | cons x q ih =>
            intro hn h1 h2
            rw [List.map_cons, List.nodup_cons] at hn
            rcases List.mem_cons.mp h1 with a | a <;> rcases List.mem_cons.mp h2 with b | b
            · rw [a, b]
            · exfalso; apply hn.1; rw [← a, hti, ← ht']; exact List.mem_map_of_mem b
            · exfalso; apply hn.1; rw [← b, ht', ← hti]; exact List.mem_map_of_mem a
            · exact ih hn.2 a b
        exact this s.q hu ht hm
      subst heq
      have := (segment_ends_only_new t' g).mp hv
      exact ⟨g, by rw [hti], this.2.1, this.1, this.2.2⟩
    · rw [e] at hgone
      exfalso
      have ht' : t'.inp = i := by simpa using List.find?_some hf
      by_cases x : t.inp = i
      · exact absurd (show t'.inp = t.inp by rw [ht', x]) (hgone (stamp s t') (List.mem_append_right _ (List.mem_singleton.mpr rfl)))
      · exact absurd rfl (hgone t (List.mem_append_left _ (List.mem_filter.mpr ⟨ht, by simpa using x⟩)))
  | start c =>
    right; right
    replace hgone : ∀ x ∈ (twstart k s c).1.q, x.inp ≠ t.inp := hgone
    unfold twstart at hgone
    dsimp only at hgone
    by_cases hl : s.q.length < s.cap
    · rw [if_pos hl] at hgone; exact absurd rfl (hgone t (List.mem_append_left _ ht))
    · rw [if_neg hl] at hgone
      have hlen : s.q.length = cap := by have := hi.cap; omega
      refine ⟨c, rfl, hlen, ?_⟩
      match hq : s.q with
      | [] => rw [hq] at ht; cases ht
      | o :: r =>
        rw [hq] at hgone ht
        dsimp only at hgone
        have hto : t = o := by
          rcases List.mem_cons.mp ht with e | e
          · exact e
          · exact absurd rfl (hgone t (List.mem_append_left _ e))
        subst hto
        have hso := hi.sorted
        rw [hq, List.pairwise_cons] at hso
        intro x hx
        rcases List.mem_cons.mp hx with e | e
        · rw [e]; exact Int.le_refl _
        · exact hso.1 x e

/-- **C142.**  And it does leave: after each of the periodic checks (every 500 ms) only connections
are left whose two MSL have not passed, provided the checks were not suspended for 248 days. -/
theorem ends_in_time (now msl : Int) (cap : Nat) (h : List (W × Op)) (k : W)
    (hm0 : 0 ≤ msl) (hm : 2 * msl < 2147483648) (hs : Steady (init now msl cap) h)
    (hrec : ∀ t ∈ (run (init now msl cap) h).q, (run (init now msl cap) h).now - (t.since + 2 * msl) ≤ 2147483648) :
    ∀ t ∈ (step k (run (init now msl cap) h) .slowtimo).1.q, (run (init now msl cap) h).now < t.since + 2 * msl := by
  have hi := run_inv h _ (init_inv now msl cap) hs
  have hc := run_msl h _ hs
  generalize run (init now msl cap) h = s at *
  have hmsl : s.msl = msl := hc.1
  intro t ht
  replace ht : t ∈ (scan (ticks s) s.q).1 := ht
  obtain ⟨d, h1, _, _, h4⟩ := scan_suffix (ticks s) s.q
  match hq : (scan (ticks s) s.q).1 with
  | [] => rw [hq] at ht; cases ht
  | x :: r =>
    have hx := h4 x r hq
    have hmem : x ∈ s.q := by rw [h1, hq]; exact List.mem_append_right _ List.mem_cons_self
    rw [hi.time x hmem, hmsl] at hx
    unfold ticks at hx
    have hp := hi.past x hmem
    have hr := hrec x hmem
    rw [i32_diff x.since s.now (2 * msl) (by omega) (by omega)] at hx
    have hso := hi.sorted
    rw [h1, hq, List.pairwise_append] at hso
    have hso := (List.pairwise_cons.mp hso.2.1).1
    rw [hq] at ht
    rcases List.mem_cons.mp ht with e | e
    · rw [e]; omega
    · have := hso t e; omega

/-- **C142.**  The number of connections in TIME_WAIT never exceeds the size of the table, and no
connection is in it twice. -/
theorem bounded (now msl : Int) (cap : Nat) (h : List (W × Op)) (hs : Steady (init now msl cap) h) :
    (run (init now msl cap) h).q.length ≤ cap ∧ ((run (init now msl cap) h).q.map (·.inp)).Nodup := by
  have hi := run_inv h _ (init_inv now msl cap) hs
  have hc := run_msl h _ hs
  have := hi.cap
  rw [hc.2] at this
  exact ⟨this, hi.uniq⟩

/-- A closing connection, for examples. -/
def demo (i : Nat) : Closing := ⟨i, 100, 200, 300, 0, false, 0, 0, true⟩

/-- All ways to leave occur: two connections in a table for two, the first is displaced by a third
one, the second times out, the third is replaced by the peer. -/
example : ((run (init 0 3000 2) [(0, .start (demo 1)), (0, .pass 10), (0, .start (demo 2)), (0, .pass 10), (0, .start (demo 3))]).q.map (·.inp)) = [2, 3] ∧
    ((run (init 0 3000 2) [(0, .start (demo 1)), (0, .pass 10), (0, .start (demo 2)), (0, .pass 10), (0, .start (demo 3)), (0, .pass 5999), (0, .slowtimo)]).q.map (·.inp)) = [3] ∧
    ((run (init 0 3000 2) [(0, .start (demo 1)), (0, .pass 10), (0, .start (demo 2)), (0, .pass 10), (0, .start (demo 3)), (0, .pass 5999), (0, .slowtimo),
      (0, .seg 3 ⟨201, 0, true, false, false, false, false, 0⟩)]).q.map (·.inp)) = [] ∧
    Steady (init 0 3000 2) [(0, .start (demo 1)), (0, .pass 10), (0, .start (demo 2)), (0, .pass 10), (0, .start (demo 3)), (0, .pass 5999), (0, .slowtimo)] := by
  refine ⟨by decide +kernel, by decide +kernel, by decide +kernel, ?_⟩
  simp only [Steady]
  refine ⟨by decide +kernel, trivial, by decide +kernel, trivial, by decide +kernel, trivial, trivial, trivial⟩

/-- **C142, violated.**  If the MSL is lowered by `sysctl` while the server runs, connections that
entered before hold up those that entered after: the second one here stays although twice the
new MSL has passed more than 50 times over. -/
theorem msl_change_violated : ∃ ops : List (W × Op),
    ops = [(0, .start (demo 1)), (0, .setMsl 50), (0, .start (demo 2)), (0, .pass 5999), (0, .slowtimo)] ∧
    ((run (init 0 3000 10) ops).q.map (fun t => (t.inp, t.since))) = [(1, 0), (2, 0)] ∧
    (run (init 0 3000 10) ops).now = 5999 ∧ (run (init 0 3000 10) ops).msl = 50 := by
  refine ⟨_, rfl, by decide +kernel, by decide +kernel, by decide +kernel⟩

/-- **C142, violated.**  `net.inet.tcp.maxtcptw` is accepted and reported back but has no effect. -/
theorem maxtcptw_violated (s : St) (k : W) (n : Nat) (hn : 32 ≤ n) :
    (step k s (.setMax n)).1.maxtw = n ∧ ∀ c, ((step k (step k s (.setMax n)).1 (.start c)).1.q) = (step k s (.start c)).1.q := by
  have e : (step k s (.setMax n)).1 = { s with maxtw := n } := by
    show (if n ≥ 32 then _ else _) = _
    rw [if_pos hn]
  rw [e]
  refine ⟨rfl, fun c => ?_⟩
  show (twstart k { s with maxtw := n } c).1.q = (twstart k s c).1.q
  unfold twstart
  dsimp only
  by_cases hl : s.q.length < s.cap
  · rw [if_pos hl, if_pos hl]; rfl
  · rw [if_neg hl, if_neg hl]
    cases hq : s.q with
    | nil => exact hq.symm
    | cons _ _ => rfl

/-- **C142.**  With the default port range and at least 160 control blocks the table has room for at
least 32 connections. -/
theorem table_size (lastauto firstauto pcbMax : Int) (hp : 160 ≤ pcbMax) : 32 ≤ autoSize lastauto firstauto pcbMax := by
  unfold autoSize
  dsimp only
  rw [Int.tdiv_eq_ediv_of_nonneg (a := pcbMax) (by omega)]
  omega

/-- ... but with fewer than 5 it has none, and connections go without TIME_WAIT. -/
theorem no_table_violated (k : W) (s : St) (c : Closing) (hq : s.q = []) (hc : s.cap = 0) :
    step k s (.start c) = (s, [.ended c.inp .noEntry]) ∧ autoSize 65535 10000 4 = 0 := by
  refine ⟨?_, by decide⟩
  show twstart k s c = _
  unfold twstart
  dsimp only
  rw [if_neg (by rw [hc]; omega), hq]

/-! ## Release of control block and socket (C145) -/

/-- A connection about to enter TIME_WAIT: closed by the application already, or not yet. -/
def before (closed : Bool) : Life := { sock := true, sockref := closed, fd := !closed, dropped := false, pcbFreed := 0, soFreed := 0 }

/-- The events that can follow, in any order and any number. -/
inductive LEv where
  | close | ended
  deriving DecidableEq

/-- The end of TIME_WAIT happens once: the entry is gone afterwards. -/
def lstep (l : Life) : LEv → Life
  | .close => lifeClose l
  | .ended => if l.dropped then l else lifeEnd l

/-- **C145.**  Whatever the order of the application's `close` and the end of TIME_WAIT: the control
block is never freed while the connection is in TIME_WAIT or the descriptor open, nothing is
ever freed twice, and once both have happened both are freed. -/
theorem released_once (closed : Bool) (es : List LEv) :
    (es.foldl lstep (lifeStart (before closed))).pcbFreed = (if (closed = true ∨ .close ∈ es) ∧ .ended ∈ es then 1 else 0) ∧
    (es.foldl lstep (lifeStart (before closed))).soFreed ≤ 1 ∧
    ((closed = true ∨ .close ∈ es) → .ended ∈ es → (es.foldl lstep (lifeStart (before closed))).soFreed = 1) := by
  -- the states that occur
  have key : ∀ es : List LEv,
      (∀ n, es.foldl lstep ⟨false, false, false, true, n, 1⟩ = ⟨false, false, false, true, n, 1⟩) ∧
      (es.foldl lstep ⟨false, false, false, false, 0, 1⟩ = if .ended ∈ es then ⟨false, false, false, true, 1, 1⟩ else ⟨false, false, false, false, 0, 1⟩) ∧
      (es.foldl lstep ⟨true, false, true, true, 0, 0⟩ = if .close ∈ es then ⟨false, false, false, true, 1, 1⟩ else ⟨true, false, true, true, 0, 0⟩) ∧
      (es.foldl lstep ⟨true, true, false, false, 0, 0⟩ = if .ended ∈ es then ⟨false, false, false, true, 1, 1⟩ else ⟨true, true, false, false, 0, 0⟩) ∧
      (es.foldl lstep ⟨true, false, true, false, 0, 0⟩ =
        if .close ∈ es then (if .ended ∈ es then ⟨false, false, false, true, 1, 1⟩ else ⟨true, true, false, false, 0, 0⟩)
        else (if .ended ∈ es then ⟨true, false, true, true, 0, 0⟩ else ⟨true, false, true, false, 0, 0⟩)) := by
    intro es
    induction es with
    | nil => exact ⟨fun _ => rfl, rfl, rfl, rfl, rfl⟩
    | cons e es ih =>
      obtain ⟨i1, i2, i3, i4, i5⟩ := ih
      cases e
      · refine ⟨fun n => ?_, ?_, ?_, ?_, ?_⟩
        · exact i1 n
        · simpa [lstep, lifeClose] using i2
        · have := i1 1
          simpa [lstep, lifeClose, sofree] using this
        · simpa [lstep, lifeClose] using i4
        · simpa [lstep, lifeClose, sofree] using i4
      · refine ⟨fun n => ?_, ?_, ?_, ?_, ?_⟩
        · exact i1 n
        · have := i1 1
          simpa [lstep, lifeEnd, sofree] using this
        · simpa [lstep] using i3
        · have := i1 1
          simpa [lstep, lifeEnd, sofree] using this
        · simpa [lstep, lifeEnd, sofree] using i3
  obtain ⟨_, k2, _, _, k5⟩ := key es
  cases closed with
  | true =>
    have e : lifeStart (before true) = ⟨false, false, false, false, 0, 1⟩ := by decide
    rw [e, k2]
    by_cases h : LEv.ended ∈ es <;> simp [h]
  | false =>
    have e : lifeStart (before false) = ⟨true, false, true, false, 0, 0⟩ := by decide
    rw [e, k5]
    by_cases h : LEv.ended ∈ es <;> by_cases h' : LEv.close ∈ es <;> simp [h, h']

end Verif.Tw

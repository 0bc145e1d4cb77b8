import Verif.Sockbuf.Spec
/-! # C34, C48: socket buffers -/
namespace Verif.Sockbuf

/-- Walking from ring index `i` to the put index one meets exactly the packets `q`. -/
def Rep (mb : Nat → Pkt) (put : Nat) : Nat → List Pkt → Prop
  | i, [] => i = put
  | i, p :: q => i ≠ put ∧ mb i = p ∧ Rep mb put (nxt i) q

theorem nxt_lt (i : Nat) (h : i < 64) : nxt i < 64 := by unfold nxt LEN; split <;> omega

theorem nxt_eq (i : Nat) (h : i < 64) : nxt i = (i + 1) % 64 := by unfold nxt LEN; split <;> omega

theorem rep_length (mb : Nat → Pkt) (put : Nat) (hp : put < 64) : ∀ (q : List Pkt) (i : Nat), i < 64 → Rep mb put i q →
    q.length ≤ 63 → q.length = (put + 64 - i) % 64 := by
  intro q
  induction q with
  | nil => intro i hi h _; unfold Rep at h; subst h; simp
  | cons p q ih =>
    intro i hi h hl
    unfold Rep at h
    have := ih (nxt i) (nxt_lt i hi) h.2.2 (by simp only [List.length_cons] at hl; omega)
    rw [List.length_cons, this]
    have := nxt_eq i hi
    simp only [List.length_cons] at hl
    omega

theorem rep_mk (mb : Nat → Pkt) (put : Nat) (hp : put < 64) : ∀ (n i : Nat), i < 64 → n = (put + 64 - i) % 64 →
    Rep mb put i ((List.range n).map fun k => mb ((i + k) % 64)) := by
  intro n
  induction n with
  | zero => intro i hi h; simp only [List.range_zero, List.map_nil, Rep]; omega
  | succ n ih =>
    intro i hi h
    rw [List.range_succ_eq_map, List.map_cons, List.map_map]
    unfold Rep
    refine ⟨by omega, by rw [Nat.add_zero, Nat.mod_eq_of_lt hi], ?_⟩
    have := nxt_eq i hi
    have e := ih (nxt i) (nxt_lt i hi) (by omega)
    have : ((fun k => mb ((i + k) % 64)) ∘ Nat.succ) = fun k => mb ((nxt i + k) % 64) := by
      funext k
      simp only [Function.comp]
      congr 1
      omega
    rw [this]; exact e

theorem rep_unique (mb : Nat → Pkt) (put : Nat) : ∀ (q r : List Pkt) (i : Nat), Rep mb put i q → Rep mb put i r →
    q = r := by
  intro q
  induction q with
  | nil =>
    intro r i h h'
    cases r with
    | nil => rfl
    | cons => unfold Rep at h h'; exact absurd h h'.1
  | cons p q ih =>
    intro r i h h'
    cases r with
    | nil => unfold Rep at h h'; exact absurd h' h.1
    | cons p' r =>
      unfold Rep at h h'
      rw [ih r _ h.2.2 h'.2.2, ← h.2.1, ← h'.2.1]

/-- The ring invariant. -/
structure Ok (sb : SB) (q : List Pkt) : Prop where
  hput : sb.put < 64
  hget : sb.get < 64
  rep : Rep sb.mb sb.put sb.get q
  len : q.length ≤ 63

theorem Ok.held {sb : SB} {q : List Pkt} (h : Ok sb q) : held sb = q :=
  rep_unique _ _ _ _ _ (rep_mk _ _ h.hput _ _ h.hget rfl) h.rep

theorem Ok.length {sb : SB} {q : List Pkt} (h : Ok sb q) : q.length = (sb.put + 64 - sb.get) % 64 :=
  rep_length _ _ h.hput _ _ h.hget h.rep h.len

theorem Ok.full {sb : SB} {q : List Pkt} (h : Ok sb q) : nxt sb.put = sb.get ↔ ¬ q.length < 63 := by
  have := h.length
  have := nxt_eq _ h.hput
  have := h.hget
  have := h.hput
  have := h.len
  omega

theorem rep_put (mb : Nat → Pkt) (put : Nat) (p : Pkt) (hp : put < 64) : ∀ (q : List Pkt) (i : Nat), i < 64 →
    q.length < 63 → Rep mb put i q →
    Rep (fun j => if j = put then p else mb j) (nxt put) i (q ++ [p]) := by
  intro q
  induction q with
  | nil =>
    intro i hi _ h
    unfold Rep at h
    subst h
    have := nxt_eq i hi
    simp only [List.nil_append, Rep, if_true, and_true, true_and]
    omega
  | cons x q ih =>
    intro i hi hl h
    have hlen := rep_length mb put hp (x :: q) i hi h (by omega)
    unfold Rep at h
    simp only [List.length_cons] at hl
    have := nxt_eq put hp
    rw [List.cons_append]
    unfold Rep
    refine ⟨?_, ?_, ih _ (nxt_lt i hi) (by omega) h.2.2⟩
    · simp only [List.length_cons] at hlen; omega
    · show (if i = put then p else mb i) = x
      rw [if_neg h.1]; exact h.2.1

theorem ok_put {sb : SB} {q : List Pkt} (h : Ok sb q) (p : Pkt) (hl : q.length < 63) (cc : BitVec 32) (fr : List Nat) :
    Ok { sb with mb := fun i => if i = sb.put then p else sb.mb i, put := nxt sb.put, cc := cc, freed := fr }
      (q ++ [p]) :=
  ⟨nxt_lt _ h.hput, h.hget, rep_put _ _ _ h.hput _ _ h.hget hl h.rep, by rw [List.length_append, List.length_singleton]; omega⟩

theorem ok_first {sb : SB} {q : List Pkt} (h : Ok sb q) : getFirst sb = q.head? := by
  unfold getFirst
  cases q with
  | nil => have := h.rep; unfold Rep at this; rw [if_pos this]; rfl
  | cons p q => have := h.rep; unfold Rep at this; rw [if_neg this.1, this.2.1]; rfl

theorem ok_remove {sb : SB} {p : Pkt} {q : List Pkt} (h : Ok sb (p :: q)) : Ok (removeFirst sb) q := by
  have hr := h.rep
  unfold Rep at hr
  unfold removeFirst
  rw [if_pos hr.1]
  exact ⟨h.hput, nxt_lt _ h.hget, hr.2.2, by have := h.len; simp only [List.length_cons] at this; omega⟩

/-- The counter and free list play no part in the invariant. -/
theorem Ok.congr {sb sb' : SB} {q : List Pkt} (h : Ok sb q) (h1 : sb'.mb = sb.mb) (h2 : sb'.put = sb.put)
    (h3 : sb'.get = sb.get) : Ok sb' q := by
  obtain ⟨a, b, c, d⟩ := h
  exact ⟨h2 ▸ a, h3 ▸ b, by rw [h1, h2, h3]; exact c, d⟩

theorem rep_congr (mb mb' : Nat → Pkt) (put : Nat) : ∀ (q : List Pkt) (i : Nat) (j : Nat), i < 64 → j < 64 → put < 64 →
    q.length < (j + 64 - i) % 64 + (if i = j then 64 else 0) → (∀ k, k ≠ j → mb' k = mb k) → Rep mb put i q →
    q.length ≤ 63 → (i = j → q = []) →  Rep mb' put i q := by
  intro q
  induction q with
  | nil => intro i j _ _ _ _ _ h _ _; exact h
  | cons x q ih =>
    intro i j hi hj hp hl hc h hq hij
    have hne : i ≠ j := fun e => by cases hij e
    unfold Rep at h ⊢
    rw [if_neg hne] at hl
    simp only [List.length_cons] at hl hq
    have := nxt_eq i hi
    refine ⟨h.1, by rw [hc i hne]; exact h.2.1, ih _ j (nxt_lt i hi) hj hp ?_ hc h.2.2 (by omega) ?_⟩
    · split <;> omega
    · intro e
      have : q.length = 0 := by omega
      exact List.length_eq_zero_iff.mp this

theorem ok_pull {sb : SB} {p : Pkt} {q : List Pkt} (h : Ok sb (p :: q)) (n : Nat) :
    Ok (pullHead sb sb.get n) ({ p with data := p.data.drop n } :: q) := by
  have hr := h.rep
  have hlen := h.length
  unfold Rep at hr
  have hn := nxt_eq sb.get h.hget
  have hl := h.len
  simp only [List.length_cons] at hl hlen
  refine ⟨h.hput, h.hget, ?_, h.len⟩
  unfold Rep
  refine ⟨hr.1, ?_, ?_⟩
  · unfold pullHead; simp only [if_true]; rw [hr.2.1]
  · have hpl := h.hput
    have hgl := h.hget
    refine rep_congr sb.mb _ sb.put q (nxt sb.get) sb.get (nxt_lt _ h.hget) h.hget h.hput ?_ ?_ hr.2.2 (by omega) ?_
    · have := hr.1; split <;> omega
    · intro k hk; unfold pullHead; simp only [if_neg hk]
    · intro e; omega

/-- Total number of bytes as the 32-bit counter sees it. -/
def ccOk (sb : SB) (q : List Pkt) : Prop := sb.cc = BitVec.ofNat 32 (bytes q).length

theorem bytes_cons (p : Pkt) (q : List Pkt) : bytes (p :: q) = p.data ++ bytes q := by simp [bytes]

theorem bytes_append (q r : List Pkt) : bytes (q ++ r) = bytes q ++ bytes r := by simp [bytes]

theorem cc_sub (a n : Nat) : BitVec.ofNat 32 (a + n) - BitVec.ofNat 32 a = BitVec.ofNat 32 n := by
  rw [BitVec.ofNat_add, BitVec.add_comm, BitVec.add_sub_cancel]

theorem dropBytes_zero (q : List Pkt) : dropBytes 0 q = q := by unfold dropBytes; rfl

theorem dropBytes_cons (n : Nat) (hn : n ≠ 0) (p : Pkt) (q : List Pkt) :
    dropBytes n (p :: q) = if p.data.length > n then { p with data := p.data.drop n } :: q
      else dropBytes (n - p.data.length) q := by
  cases n with
  | zero => exact absurd rfl hn
  | succ n => rw [dropBytes]

theorem dropBytes_nil (n : Nat) : dropBytes n [] = [] := by
  cases n <;> rfl

theorem bytes_dropBytes : ∀ (q : List Pkt) (n : Nat), bytes (dropBytes n q) = (bytes q).drop n := by
  intro q
  induction q with
  | nil => intro n; rw [dropBytes_nil]; simp [bytes]
  | cons p q ih =>
    intro n
    by_cases hn : n = 0
    · subst hn; rw [dropBytes_zero]; rfl
    rw [dropBytes_cons n hn]
    split
    · next h =>
      rw [bytes_cons, bytes_cons, List.drop_append_of_le_length (by omega)]
    · next h =>
      rw [ih, bytes_cons, List.drop_append, List.drop_eq_nil_of_le (by omega : p.data.length ≤ n), List.nil_append]

theorem dropBytes_length : ∀ (q : List Pkt) (n : Nat), (dropBytes n q).length ≤ q.length := by
  intro q
  induction q with
  | nil => intro n; rw [dropBytes_nil]; exact Nat.le_refl _
  | cons p q ih =>
    intro n
    by_cases hn : n = 0
    · subst hn; rw [dropBytes_zero]; exact Nat.le_refl _
    rw [dropBytes_cons n hn]
    split
    · exact Nat.le_refl _
    · have := ih (n - p.data.length); simp only [List.length_cons]; omega

theorem cc_remove {sb : SB} {p : Pkt} {q : List Pkt} (hc : ccOk sb (p :: q)) :
    sb.cc - BitVec.ofNat 32 p.data.length = BitVec.ofNat 32 (bytes q).length := by
  unfold ccOk at hc
  rw [hc, bytes_cons, List.length_append, cc_sub]

theorem cc_pull {sb : SB} {p : Pkt} {q : List Pkt} (len : Nat) (hl : p.data.length > len) (hc : ccOk sb (p :: q)) :
    sb.cc - BitVec.ofNat 32 len = BitVec.ofNat 32 (bytes ({ p with data := p.data.drop len } :: q)).length := by
  unfold ccOk at hc
  rw [hc, bytes_cons, bytes_cons, List.length_append, List.length_append, List.length_drop]
  have e : p.data.length + (bytes q).length = len + (p.data.length - len + (bytes q).length) := by omega
  rw [e, cc_sub]

theorem dropLoop_spec : ∀ (n : Nat) (sb : SB) (q : List Pkt) (len : Nat), Ok sb q → q.length < n →
    ∃ sb', dropLoop n sb len = some sb' ∧ Ok sb' (dropBytes len q) ∧ (ccOk sb q → ccOk sb' (dropBytes len q)) := by
  intro n
  induction n with
  | zero => intro sb q len _ h; omega
  | succ n ih =>
    intro sb q len h hn
    unfold dropLoop
    by_cases hz : len = 0
    · rw [if_pos hz]; subst hz; rw [dropBytes_zero]; exact ⟨sb, rfl, h, id⟩
    rw [if_neg hz, ok_first h]
    cases q with
    | nil => rw [dropBytes_nil]; exact ⟨sb, rfl, h, id⟩
    | cons p q =>
      simp only [List.head?_cons]
      rw [dropBytes_cons len hz]
      simp only [List.length_cons] at hn
      split
      · next hl =>
        exact ⟨_, rfl, (ok_pull h len).congr rfl rfl rfl, cc_pull len hl⟩
      · next hl =>
        obtain ⟨sb', e1, e2, e3⟩ := ih { (removeFirst sb) with
          cc := sb.cc - BitVec.ofNat 32 p.data.length, freed := sb.freed ++ [p.id] } q (len - p.data.length)
          ((ok_remove h).congr rfl rfl rfl) (by omega)
        exact ⟨sb', e1, e2, fun hc => e3 (cc_remove hc)⟩

theorem readLoop_spec : ∀ (n : Nat) (sb : SB) (q : List Pkt) (len : Nat), Ok sb q → q.length + 1 < n →
    ∃ sb', readLoop n sb len = some ((bytes q).take len, sb') ∧ Ok sb' (dropBytes len q) ∧
      (ccOk sb q → ccOk sb' (dropBytes len q)) := by
  intro n
  induction n with
  | zero => intro sb q len _ h; omega
  | succ n ih =>
    intro sb q len h hn
    unfold readLoop
    rw [ok_first h]
    cases q with
    | nil => rw [dropBytes_nil]; exact ⟨sb, by simp [bytes], h, id⟩
    | cons p q =>
      simp only [List.head?_cons]
      by_cases hz : len = 0
      · rw [if_pos hz]; subst hz; rw [dropBytes_zero]; exact ⟨sb, by simp, h, id⟩
      rw [if_neg hz, dropBytes_cons len hz]
      simp only [List.length_cons] at hn
      by_cases hl : p.data.length > len
      · have hmin : min len p.data.length = len := by omega
        rw [hmin, Nat.sub_self, if_pos hl, if_neg (by omega)]
        obtain ⟨m, rfl⟩ : ∃ m, n = m + 1 := ⟨n - 1, by omega⟩
        have hok' : Ok { (pullHead sb sb.get len) with cc := sb.cc - BitVec.ofNat 32 len }
          ({ p with data := p.data.drop len } :: q) := (ok_pull h len).congr rfl rfl rfl
        refine ⟨{ (pullHead sb sb.get len) with cc := sb.cc - BitVec.ofNat 32 len }, ?_, hok', cc_pull len hl⟩
        unfold readLoop
        rw [ok_first hok']
        simp only [List.head?_cons, if_true, List.append_nil]
        rw [bytes_cons, List.take_append_of_le_length (by omega)]
      · have hmin : min len p.data.length = p.data.length := by omega
        rw [hmin, if_neg hl, if_pos rfl]
        obtain ⟨sb', e, h1, h2⟩ := ih { (removeFirst sb) with
          cc := sb.cc - BitVec.ofNat 32 p.data.length, freed := sb.freed ++ [p.id] } q (len - p.data.length)
          ((ok_remove h).congr rfl rfl rfl) (by omega)
        refine ⟨sb', ?_, h1, fun hc => h2 (cc_remove hc)⟩
        rw [e]
        simp only
        rw [bytes_cons, List.take_append, List.take_of_length_le (Nat.le_refl _),
          List.take_of_length_le (by omega : p.data.length ≤ len)]

theorem skip_spec (sb : SB) : ∀ (n : Nat) (q : List Pkt) (i off : Nat), i < 64 → q.length < n →
    Rep sb.mb sb.put i q → ∃ i' off' r, skipLoop sb n i off = some (i', off') ∧ i' < 64 ∧ Rep sb.mb sb.put i' r ∧
      r.length ≤ q.length ∧ (bytes r).drop off' = (bytes q).drop off ∧
      (∀ p r', r = p :: r' → off' < p.data.length) := by
  intro n
  induction n with
  | zero => intro q i off _ h; omega
  | succ n ih =>
    intro q i off hi hn h
    unfold skipLoop
    cases q with
    | nil =>
      have h' := h
      unfold Rep at h
      rw [if_pos h]
      exact ⟨i, off, [], rfl, hi, h', Nat.le_refl _, rfl, fun p r' e => by cases e⟩
    | cons p q =>
      have h' := h
      unfold Rep at h
      rw [if_neg h.1]
      simp only [List.length_cons] at hn
      split
      · next hge =>
        rw [h.2.1] at hge ⊢
        obtain ⟨i', off', r, e1, e2, e3, e4, e5, e6⟩ := ih q (nxt i) (off - p.data.length) (nxt_lt i hi) (by omega) h.2.2
        refine ⟨i', off', r, e1, e2, e3, by simp only [List.length_cons]; omega, ?_, e6⟩
        rw [e5, bytes_cons, List.drop_append, List.drop_eq_nil_of_le (by omega : p.data.length ≤ off), List.nil_append]
      · next hge =>
        rw [h.2.1] at hge
        refine ⟨i, off, p :: q, rfl, hi, h', Nat.le_refl _, rfl, ?_⟩
        intro p' r' e; cases e; omega

theorem copy_spec (sb : SB) : ∀ (n : Nat) (q : List Pkt) (i off len : Nat), i < 64 → q.length < n →
    Rep sb.mb sb.put i q → (∀ p r', q = p :: r' → off ≤ p.data.length) →
    copyLoop sb n i off len = some (((bytes q).drop off).take len) := by
  intro n
  induction n with
  | zero => intro q i off len _ h; omega
  | succ n ih =>
    intro q i off len hi hn h hoff
    unfold copyLoop
    cases q with
    | nil =>
      unfold Rep at h
      rw [if_pos (Or.inr h)]
      simp [bytes]
    | cons p q =>
      unfold Rep at h
      simp only [List.length_cons] at hn
      by_cases hz : len = 0
      · rw [if_pos (Or.inl hz)]; subst hz; simp
      · rw [if_neg (fun e => e.elim hz h.1)]
        have e1 := ih q (nxt i) 0 (len - min (p.data.length - off) len) (nxt_lt i hi) (by omega) h.2.2
          (fun _ _ _ => Nat.zero_le _)
        rw [h.2.1]
        simp only
        rw [e1]
        simp only
        have ho := hoff p q rfl
        congr 1
        rw [List.drop_zero, bytes_cons, List.drop_append_of_le_length ho, List.take_append, List.length_drop]
        by_cases hm : p.data.length - off ≤ len
        · rw [Nat.min_eq_left hm]
          rw [List.take_of_length_le (by rw [List.length_drop]; omega),
            List.take_of_length_le (by rw [List.length_drop]; omega : (p.data.drop off).length ≤ len)]
        · rw [Nat.min_eq_right (by omega), Nat.sub_self]
          have : len - (p.data.length - off) = 0 := by omega
          rw [this]

theorem flushLoop_spec : ∀ (n : Nat) (sb : SB) (q : List Pkt), Ok sb q → q.length < n →
    ∃ sb', flushLoop n sb = some sb' ∧ Ok sb' [] ∧ sb'.cc = sb.cc ∧ sb'.freed = sb.freed ++ q.map Pkt.id := by
  intro n
  induction n with
  | zero => intro sb q _ h; omega
  | succ n ih =>
    intro sb q h hn
    unfold flushLoop
    cases q with
    | nil =>
      have := h.rep; unfold Rep at this
      rw [if_pos this]; exact ⟨sb, rfl, h, rfl, by simp⟩
    | cons p q =>
      have hr := h.rep; unfold Rep at hr
      rw [if_neg hr.1]
      have h2 := ok_remove h
      unfold removeFirst at h2
      rw [if_pos hr.1] at h2
      simp only [List.length_cons] at hn
      obtain ⟨sb', e1, e2, e3, e4⟩ := ih { sb with get := nxt sb.get, freed := sb.freed ++ [(sb.mb sb.get).id] } q
        (h2.congr rfl rfl rfl) (by omega)
      refine ⟨sb', e1, e2, e3, ?_⟩
      rw [e4, hr.2.1]; simp

theorem step_spec (sb : SB) (q : List Pkt) (h : Ok sb q) (o : Op) : ∃ sb', step sb o = some sb' ∧
    Ok sb' (specStep q o) ∧ (o ≠ .flush → ccOk sb q → ccOk sb' (specStep q o)) := by
  have hput : ∀ p, q.length < 63 → ccOk sb q → (sb.cc + BitVec.ofNat 32 p.data.length) = BitVec.ofNat 32 (bytes (q ++ [p])).length := by
    intro p _ hc
    rw [hc, bytes_append, List.length_append, BitVec.ofNat_add]
    simp [bytes]
  cases o with
  | put p =>
    refine ⟨_, rfl, ?_⟩
    unfold putLast
    simp only [specStep]
    by_cases hl : q.length < 63
    · rw [if_pos hl, if_neg (fun e => (h.full.1 e) hl)]
      exact ⟨ok_put h p hl _ _, fun _ hc => hput p hl hc⟩
    · rw [if_neg hl, if_pos (h.full.2 hl)]
      exact ⟨h.congr rfl rfl rfl, fun _ hc => hc⟩
  | appendAddr p =>
    refine ⟨_, rfl, ?_⟩
    unfold appendAddr
    simp only [specStep]
    by_cases hl : q.length < 63
    · rw [if_pos hl, if_neg (fun e => (h.full.1 e) hl)]
      exact ⟨ok_put h p hl _ _, fun _ hc => hput p hl hc⟩
    · rw [if_neg hl, if_pos (h.full.2 hl)]
      exact ⟨h, fun _ hc => hc⟩
  | drop n =>
    obtain ⟨sb', e1, e2, e3⟩ := dropLoop_spec LEN sb q n h (by have := h.len; unfold LEN; omega)
    exact ⟨sb', e1, e2, fun _ => e3⟩
  | dropRecord =>
    refine ⟨_, rfl, ?_⟩
    unfold dropRecord
    simp only [specStep]
    rw [ok_first h]
    cases q with
    | nil => exact ⟨h, fun _ => id⟩
    | cons p q => exact ⟨(ok_remove h).congr rfl rfl rfl, fun _ hc => cc_remove hc⟩
  | read n =>
    obtain ⟨sb', e1, e2, e3⟩ := readLoop_spec (LEN + 1) sb q n h (by have := h.len; unfold LEN; omega)
    refine ⟨sb', ?_, e2, fun _ => e3⟩
    show (match read sb n with | none => none | some r => some r.2) = _
    unfold read; rw [e1]
  | flush =>
    obtain ⟨sb', e1, e2, _, _⟩ := flushLoop_spec LEN sb q h (by have := h.len; unfold LEN; omega)
    exact ⟨sb', e1, e2, fun e => absurd rfl e⟩

theorem ok_empty : Ok SB.empty [] := ⟨by decide, by decide, rfl, by decide⟩

theorem run_spec : ∀ (ops : List Op) (sb : SB) (q : List Pkt), Ok sb q → ∃ sb', run sb ops = some sb' ∧
    Ok sb' (ops.foldl specStep q) ∧ (NoFlush ops → ccOk sb q → ccOk sb' (ops.foldl specStep q)) := by
  intro ops
  induction ops with
  | nil => intro sb q h; exact ⟨sb, rfl, h, fun _ => id⟩
  | cons o ops ih =>
    intro sb q h
    obtain ⟨sb1, e1, e2, e3⟩ := step_spec sb q h o
    obtain ⟨sb2, f1, f2, f3⟩ := ih sb1 _ e2
    refine ⟨sb2, ?_, f2, fun hn hc => f3 (fun o' ho => hn o' (List.mem_cons_of_mem _ ho)) (e3 (hn o (List.mem_cons_self ..)) hc)⟩
    unfold run; rw [e1]; exact f1

/-- **C34.** After any history of operations no loop has run away, and the ring holds exactly the packets that the
bounded queue of the specification holds. -/
theorem sockbuf_is_queue (ops : List Op) : ∃ sb, run SB.empty ops = some sb ∧ held sb = specRun ops := by
  obtain ⟨sb, e1, e2, _⟩ := run_spec ops SB.empty [] ok_empty
  exact ⟨sb, e1, e2.held⟩

/-- **C34.** Copying out and reading return exactly the bytes held at that place, dropping and reading remove
exactly these bytes, and a full buffer refuses a packet and keeps what it holds; a packet is refused only when 63
packets are held. -/
theorem sockbuf_bytes (ops : List Op) (sb : SB) (h : run SB.empty ops = some sb) :
    (∀ off len, copyOut sb off len = some (((bytes (held sb)).drop off).take len)) ∧
    (∀ n, ∃ sb', read sb n = some ((bytes (held sb)).take n, sb') ∧
      bytes (held sb') = (bytes (held sb)).drop n) ∧
    (∀ n, ∃ sb', drop sb n = some sb' ∧ bytes (held sb') = (bytes (held sb)).drop n) ∧
    (∀ p, (putLast sb p).2 = decide ((held sb).length < 63) ∧
      held (putLast sb p).1 = if (held sb).length < 63 then held sb ++ [p] else held sb) ∧
    (∀ b, space b sb = b * (63 - (held sb).length)) := by
  obtain ⟨sb1, e1, e2, _⟩ := run_spec ops SB.empty [] ok_empty
  rw [h] at e1
  cases e1
  generalize List.foldl specStep [] ops = q at e2
  rw [e2.held]
  have hl := e2.len
  refine ⟨?_, ?_, ?_, ?_, ?_⟩
  · intro off len
    obtain ⟨i, off', r, f1, f2, f3, f4, f5, f6⟩ := skip_spec sb LEN q sb.get off e2.hget
      (by unfold LEN; omega) e2.rep
    have g1 := copy_spec sb LEN r i off' len f2 (by unfold LEN; omega) f3
      (fun p r' e => by have := f6 p r' e; omega)
    unfold copyOut
    rw [f1]
    simp only
    rw [g1, f5]
  · intro n
    obtain ⟨sb', f1, f2, _⟩ := readLoop_spec (LEN + 1) sb q n e2 (by unfold LEN; omega)
    exact ⟨sb', f1, by rw [f2.held, bytes_dropBytes]⟩
  · intro n
    obtain ⟨sb', f1, f2, _⟩ := dropLoop_spec LEN sb q n e2 (by unfold LEN; omega)
    exact ⟨sb', f1, by rw [f2.held, bytes_dropBytes]⟩
  · intro p
    unfold putLast
    by_cases hq : q.length < 63
    · rw [if_neg (fun e => (e2.full.1 e) hq), if_pos hq]
      exact ⟨by simp [hq], (ok_put e2 p hq _ _).held⟩
    · rw [if_pos (e2.full.2 hq), if_neg hq]
      exact ⟨by simp [hq], (e2.congr (sb' := { sb with freed := sb.freed ++ [p.id] }) rfl rfl rfl).held⟩
  · intro b
    unfold space LEN
    have := e2.length
    have := e2.hput
    have := e2.hget
    congr 1
    split <;> omega

/-- **C34, byte counter (partial: histories without a flush).** `sb_cc` is the number of bytes held, as long as
that fits the counter. -/
theorem sockbuf_counter_partial (ops : List Op) (hn : NoFlush ops) (sb : SB) (h : run SB.empty ops = some sb)
    (hb : (bytes (held sb)).length < 2 ^ 32) : sb.cc.toNat = (bytes (held sb)).length := by
  obtain ⟨sb1, e1, e2, e3⟩ := run_spec ops SB.empty [] ok_empty
  rw [h] at e1
  cases e1
  have := e3 hn rfl
  unfold ccOk at this
  rw [this, e2.held] at *
  rw [BitVec.toNat_ofNat, Nat.mod_eq_of_lt hb]

/-- **C34 is false with a flush.** Whatever was held when the buffer is flushed stays in the counter: the buffer is
empty and `sb_cc` still has the old value. -/
theorem sockbuf_counter_violated (ops : List Op) (sb : SB) (h : run SB.empty ops = some sb) :
    ∃ sb', flush sb = some sb' ∧ held sb' = [] ∧ sb'.cc = sb.cc := by
  obtain ⟨sb1, e1, e2, _⟩ := run_spec ops SB.empty [] ok_empty
  rw [h] at e1
  cases e1
  obtain ⟨sb', f1, f2, f3, _⟩ := flushLoop_spec LEN sb _ e2 (by have := e2.len; unfold LEN; omega)
  exact ⟨sb', f1, f2.held, f3⟩

-- Non-vacuity: wrap-around of the ring, then a counter that is wrong after a flush.
example : ∃ sb, run SB.empty (((List.range 70).map fun i => [Op.put ⟨i, [1, 2, 3]⟩, Op.read 2]).flatten) = some sb ∧
    sb.put < sb.get ∧ sb.cc.toNat = 70 := by
  refine ⟨_, rfl, ?_, ?_⟩ <;> decide +kernel
example : ∃ sb, run SB.empty [.put ⟨1, [1, 2, 3]⟩, .flush] = some sb ∧ held sb = [] ∧ sb.cc = 3 := by
  refine ⟨_, rfl, ?_, ?_⟩ <;> decide +kernel

theorem held_first {sb : SB} {q : List Pkt} (h : Ok sb q) : getFirst sb = (held sb).head? := by
  rw [h.held]; exact ok_first h

/-- **C48 (partial: requests of at most the length of the first packet held).** Peeking returns the bytes the next
read would return. -/
theorem peek_partial (ops : List Op) (sb : SB) (h : run SB.empty ops = some sb) (n fuel : Nat) (hf : 2 ≤ fuel)
    (p : Pkt) (hp : (held sb).head? = some p) (hn : n ≤ p.data.length) :
    peek fuel sb n = some ((bytes (held sb)).take n) := by
  obtain ⟨sb1, e1, e2, _⟩ := run_spec ops SB.empty [] ok_empty
  rw [h] at e1
  cases e1
  unfold peek
  rw [held_first e2, hp]
  obtain ⟨m, rfl⟩ : ∃ m, fuel = m + 2 := ⟨fuel - 2, by omega⟩
  have hq : ∃ q, held sb = p :: q := by
    cases hh : held sb with
    | nil => rw [hh] at hp; cases hp
    | cons a q => rw [hh] at hp; cases hp; exact ⟨q, rfl⟩
  obtain ⟨q, hq⟩ := hq
  rw [hq, bytes_cons, List.take_append_of_le_length hn]
  simp only
  unfold peekLoop
  by_cases hz : n = 0
  · subst hz; simp
  rw [if_neg hz]
  simp only [Nat.sub_zero, List.drop_zero]
  rw [Nat.min_eq_left hn, Nat.sub_self]
  unfold peekLoop
  simp

/-- **C48 is false beyond that**: asking for one byte more than the (non-empty) first packet holds repeats the first
byte of that packet, whatever else is held. -/
theorem peek_violated (ops : List Op) (sb : SB) (h : run SB.empty ops = some sb) (fuel : Nat) (hf : 3 ≤ fuel)
    (id : Nat) (b : UInt8) (bs : List UInt8) (hp : (held sb).head? = some ⟨id, b :: bs⟩) :
    peek fuel sb (bs.length + 2) = some (b :: bs ++ [b]) := by
  obtain ⟨sb1, e1, e2, _⟩ := run_spec ops SB.empty [] ok_empty
  rw [h] at e1
  cases e1
  unfold peek
  rw [held_first e2, hp]
  obtain ⟨m, rfl⟩ : ∃ m, fuel = m + 3 := ⟨fuel - 3, by omega⟩
  simp only
  unfold peekLoop
  have e : min (bs.length + 2) (bs.length + 1) = bs.length + 1 := by omega
  simp only [List.length_cons, Nat.sub_zero, e, if_true, List.drop_zero]
  rw [if_neg (by omega)]
  have e' : bs.length + 2 - (bs.length + 1) = 1 := by omega
  rw [e']
  unfold peekLoop
  have e2 : min 1 (bs.length + 1) = 1 := by omega
  simp only [List.length_cons, Nat.sub_zero, e2, List.drop_zero, Nat.sub_self]
  rw [if_neg (by omega)]
  unfold peekLoop
  simp

/-- **C48 is false, termination.** If the first packet held is empty (as the packet of a segment that carries only a
FIN is) a peek of at least one byte loops for ever. -/
theorem peek_hangs_violated (ops : List Op) (sb : SB) (h : run SB.empty ops = some sb) (id : Nat)
    (hp : (held sb).head? = some ⟨id, []⟩) (n : Nat) (hn : 0 < n) : ∀ fuel, peek fuel sb n = none := by
  obtain ⟨sb1, e1, e2, _⟩ := run_spec ops SB.empty [] ok_empty
  rw [h] at e1
  cases e1
  intro fuel
  unfold peek
  rw [held_first e2, hp]
  simp only
  induction fuel with
  | zero => rfl
  | succ f ih =>
    unfold peekLoop
    rw [if_neg (by omega)]
    simp only [List.length_nil, Nat.sub_self, Nat.min_zero, if_true, Nat.sub_zero]
    rw [ih]

-- Non-vacuity: the application sees 1 2 1 although 1 2 3 4 are waiting.
example : ∃ sb, run SB.empty [.put ⟨1, [1, 2]⟩, .put ⟨2, [3, 4]⟩] = some sb ∧ (held sb).head? = some ⟨1, [1, 2]⟩ ∧
    peek 10 sb 3 = some [1, 2, 1] ∧ bytes (held sb) = [1, 2, 3, 4] := by
  refine ⟨_, rfl, ?_, ?_, ?_⟩ <;> decide +kernel
example : ∃ sb, run SB.empty [.put ⟨1, []⟩] = some sb ∧ (held sb).head? = some ⟨1, []⟩ := ⟨_, rfl, by decide +kernel⟩

/-- **C49.** One call of `recv` on a datagram socket returns the oldest datagram held, cut to the length of the
caller's buffer with `MSG_TRUNC` set exactly when it was longer, and removes exactly that datagram. -/
theorem dgram_recv (ops : List Op) (sb : SB) (h : run SB.empty ops = some sb) (n : Nat)
    (pay : Pkt → List UInt8) :
    match held sb with
    | [] => recvDgram pay sb n = none
    | p :: q => ∃ sb', recvDgram pay sb n = some ((pay p).take n, decide ((pay p).length > n), sb') ∧ held sb' = q ∧
        sb'.freed = sb.freed ++ [p.id] := by
  obtain ⟨sb1, e1, e2, _⟩ := run_spec ops SB.empty [] ok_empty
  rw [h] at e1
  cases e1
  generalize List.foldl specStep [] ops = q at e2
  rw [e2.held]
  cases q with
  | nil =>
    have := e2.rep; unfold Rep at this
    show recvDgram pay sb n = none
    unfold recvDgram; rw [if_pos this.symm]
  | cons p q =>
    have hr := e2.rep; unfold Rep at hr
    have h2 := ok_remove e2
    unfold removeFirst at h2
    rw [if_pos hr.1] at h2
    refine ⟨_, ?_, (h2.congr (sb' := { sb with
      get := nxt sb.get, cc := sb.cc - BitVec.ofNat 32 p.data.length, freed := sb.freed ++ [p.id] }) rfl rfl rfl).held, rfl⟩
    unfold recvDgram
    rw [if_neg (fun e => hr.1 e.symm), hr.2.1]

example : ∃ sb, run SB.empty [.appendAddr ⟨1, [1, 2]⟩, .appendAddr ⟨2, [3, 4]⟩] = some sb ∧
    held sb = [⟨1, [1, 2]⟩, ⟨2, [3, 4]⟩] := ⟨_, rfl, by decide +kernel⟩

end Verif.Sockbuf

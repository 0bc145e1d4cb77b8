import Verif.Tcp.RcvSpec
namespace Verif.Tcp
open Verif.Sockbuf (Pkt)

theorem seqOf_add (b : BitVec 32) (x n : Nat) : seqOf b x + BitVec.ofNat 32 n = seqOf b (x + n) := by
  unfold seqOf; rw [BitVec.add_assoc, BitVec.ofNat_add]

theorem seqOf_inj (b : BitVec 32) (x y : Nat) (h : (x : Int) - y < 2 ^ 31) (h' : (y : Int) - x < 2 ^ 31)
    (e : seqOf b x = seqOf b y) : x = y := by
  have h1 := diff_eq b x y h (by omega)
  rw [e] at h1
  have h2 := diff_eq b y y (by omega) (by omega)
  omega

section
variable (b : BitVec 32) (P : Nat → QEnt → Prop)

/-- The queue from offset `lo` on, its last byte before `hi`: entries in order and disjoint. -/
def Ch : Nat → List QEnt → Nat → Prop
  | lo, [], hi => lo ≤ hi
  | lo, e :: es, hi => ∃ a, lo ≤ a ∧ e.seq = seqOf b a ∧ P a e ∧ Ch (a + e.len) es hi

/-- Entries that follow each other without a gap from `lo` to `hi`. -/
def Contig : Nat → List QEnt → Nat → Prop
  | lo, [], hi => lo = hi
  | lo, e :: es, hi => e.seq = seqOf b lo ∧ P lo e ∧ Contig (lo + e.len) es hi

/-- `P` survives trimming at the head. -/
def Closed : Prop := ∀ a e i, P a e → i < e.len →
  P (a + i) { e with seq := e.seq + BitVec.ofNat 32 i, len := e.len - i, pkt := pull e.pkt i }

variable {b P}

theorem Ch.le : ∀ {q : List QEnt} {lo hi : Nat}, Ch b P lo q hi → lo ≤ hi
  | [], _, _, h => h
  | e :: es, lo, hi, h => by
    unfold Ch at h
    obtain ⟨a, h1, _, _, h2⟩ := h
    have := Ch.le h2
    omega

theorem Ch.mono_hi : ∀ {q : List QEnt} {lo hi hi' : Nat}, hi ≤ hi' → Ch b P lo q hi → Ch b P lo q hi'
  | [], _, _, _, hh, h => by unfold Ch at *; omega
  | e :: es, lo, hi, hi', hh, h => by
    unfold Ch at *
    obtain ⟨a, h1, h3, h4, h2⟩ := h
    exact ⟨a, h1, h3, h4, h2.mono_hi hh⟩

theorem Ch.mono_lo {q : List QEnt} {lo lo' hi : Nat} (hh : lo' ≤ lo) (h : Ch b P lo q hi) : Ch b P lo' q hi := by
  cases q with
  | nil => unfold Ch at *; omega
  | cons e es =>
    unfold Ch at *
    obtain ⟨a, h1, h3, h4, h2⟩ := h
    exact ⟨a, by omega, h3, h4, h2⟩

theorem Ch.append : ∀ {p q : List QEnt} {lo m hi : Nat}, Ch b P lo p m → Ch b P m q hi → Ch b P lo (p ++ q) hi
  | [], q, lo, m, hi, h, h' => h'.mono_lo h
  | e :: es, q, lo, m, hi, h, h' => by
    unfold Ch at h
    obtain ⟨a, h1, h3, h4, h2⟩ := h
    rw [List.cons_append]
    unfold Ch
    exact ⟨a, h1, h3, h4, h2.append h'⟩

/-- Splitting the queue at the first entry that begins after `x`. -/
theorem ch_split (x : Nat) : ∀ (q : List QEnt) (lo hi : Nat), Ch b P lo q hi → lo ≤ x → x ≤ hi → hi < lo + 2 ^ 31 →
    ∃ m, Ch b P lo (q.takeWhile fun e => !seqGT e.seq (seqOf b x)) m ∧
      Ch b P m (q.dropWhile fun e => !seqGT e.seq (seqOf b x)) hi ∧ m ≤ hi ∧ lo ≤ m ∧
      ((q.takeWhile fun e => !seqGT e.seq (seqOf b x)) = [] → m = lo) ∧
      (∀ p, (q.takeWhile fun e => !seqGT e.seq (seqOf b x)).getLast? = some p →
        p.seq + BitVec.ofNat 32 p.len = seqOf b m) ∧
      (x = lo → Contig b P lo (q.takeWhile fun e => !seqGT e.seq (seqOf b x)) m) := by
  intro q
  induction q with
  | nil =>
    intro lo hi h hx hx' hb
    refine ⟨lo, Nat.le_refl _, h, h, Nat.le_refl _, fun _ => rfl, ?_, fun _ => rfl⟩
    intro p hp; cases hp
  | cons e es ih =>
    intro lo hi h hx hx' hb
    unfold Ch at h
    obtain ⟨a, h1, h2, h3, h4⟩ := h
    have hle := h4.le
    have hcmp := (seq_compare b a x (by omega) (by omega)).2.2.1
    rw [List.takeWhile_cons, List.dropWhile_cons, h2, hcmp]
    by_cases hax : a > x
    · simp only [hax, decide_true, Bool.not_true, Bool.false_eq_true, if_false]
      refine ⟨lo, Nat.le_refl _, ?_, by omega, Nat.le_refl _, fun _ => rfl, ?_, fun _ => rfl⟩
      · unfold Ch; exact ⟨a, h1, h2, h3, h4⟩
      · intro p hp; cases hp
    · simp only [hax, decide_false, Bool.not_false, if_true]
      by_cases hel : a + e.len ≤ x
      · obtain ⟨m, k1, k2, k3, k4, k5, k6, k7⟩ := ih (a + e.len) hi h4 hel hx' (by omega)
        refine ⟨m, ?_, k2, k3, by omega, ?_, ?_, ?_⟩
        · unfold Ch; exact ⟨a, h1, h2, h3, k1⟩
        · intro hc; cases hc
        · intro p hp
          rw [List.getLast?_cons] at hp
          cases hl : (es.takeWhile fun e => !seqGT e.seq (seqOf b x)).getLast? with
          | none =>
            rw [hl] at hp
            simp only [Option.getD_none, Option.some.injEq] at hp
            subst hp
            rw [h2, seqOf_add]
            have := List.getLast?_eq_none_iff.1 hl
            rw [k5 this]
          | some p' =>
            rw [hl] at hp
            simp only [Option.getD_some, Option.some.injEq] at hp
            subst hp
            exact k6 _ hl
        · intro hxl
          have : a = lo := by omega
          subst this
          unfold Contig
          exact ⟨h2, h3, k7 (by omega)⟩
      · -- the entry covers x: it is the last one before the split
        have hnil : (es.takeWhile fun e => !seqGT e.seq (seqOf b x)) = [] ∧
            (es.dropWhile fun e => !seqGT e.seq (seqOf b x)) = es := by
          cases es with
          | nil => exact ⟨rfl, rfl⟩
          | cons e' es =>
            unfold Ch at h4
            obtain ⟨a', g1, g2, g3, g4⟩ := h4
            have hle' := g4.le
            have hcmp' := (seq_compare b a' x (by omega) (by omega)).2.2.1
            have : a' > x := by omega
            rw [List.takeWhile_cons, List.dropWhile_cons, g2, hcmp']
            simp [this]
        rw [hnil.1, hnil.2]
        refine ⟨a + e.len, ?_, h4, by omega, by omega, ?_, ?_, ?_⟩
        · unfold Ch; exact ⟨a, h1, h2, h3, Nat.le_refl _⟩
        · intro hc; cases hc
        · intro p hp
          simp only [List.getLast?_singleton, Option.some.injEq] at hp
          subst hp
          rw [h2, seqOf_add]
        · intro hxl
          have : a = lo := by omega
          subst this
          unfold Contig
          exact ⟨h2, h3, rfl⟩

theorem trimSucc_ch (hP : Closed P) (e : Nat) : ∀ (q : List QEnt) (lo hi : Nat), Ch b P lo q hi →
    e ≤ hi → hi < lo + 2 ^ 31 → lo < e + 2 ^ 31 → hi < e + 2 ^ 31 →
    Ch b P e (trimSucc (seqOf b e) q).1 hi := by
  intro q
  induction q with
  | nil => intro lo hi h he _ _ _; exact he
  | cons x xs ih =>
    intro lo hi h he hb hb2 hb3
    unfold Ch at h
    obtain ⟨a, h1, h2, h3, h4⟩ := h
    have hle := h4.le
    have hd : diff (seqOf b e) x.seq = (e : Int) - a := by rw [h2]; exact diff_eq b e a (by omega) (by omega)
    unfold trimSucc
    rw [hd]
    split
    · next hc => unfold Ch; exact ⟨a, by omega, h2, h3, h4⟩
    · next hc =>
      split
      · next hc' =>
        unfold Ch
        have e1 : ((e : Int) - a).toNat = e - a := by omega
        refine ⟨e, Nat.le_refl _, ?_, ?_, ?_⟩
        · simp only [e1]; rw [h2, seqOf_add]; congr 1; omega
        · have := hP a x (e - a) h3 (by omega)
          rw [show a + (e - a) = e by omega] at this
          simpa only [e1] using this
        · simp only [e1]
          have : e + (x.len - (e - a)) = a + x.len := by omega
          rw [this]; exact h4
      · next hc' => exact ih (a + x.len) hi h4 he (by omega) (by omega) hb3

theorem trimSucc_ids (e : BitVec 32) : ∀ q : List QEnt, q.map (fun q => q.pkt.id) =
    (trimSucc e q).2.map (fun q => q.pkt.id) ++ (trimSucc e q).1.map (fun q => q.pkt.id) := by
  intro q
  induction q with
  | nil => rfl
  | cons x xs ih =>
    unfold trimSucc
    split
    · simp
    · split
      · simp [pull]
      · simp only [List.map_cons, List.cons_append]; rw [ih]

theorem trimSucc_length (e : BitVec 32) (q : List QEnt) :
    q.length = (trimSucc e q).2.length + (trimSucc e q).1.length := by
  have := congrArg List.length (trimSucc_ids e q)
  simpa using this

theorem trimSucc_stack (e : BitVec 32) : ∀ q : List QEnt, (∀ x ∈ q, x.stack = false) →
    ∀ x ∈ (trimSucc e q).1, x.stack = false := by
  intro q
  induction q with
  | nil => intro _ x hx; cases hx
  | cons y ys ih =>
    intro h x hx
    unfold trimSucc at hx
    split at hx
    · exact h x hx
    · split at hx
      · rcases List.mem_cons.1 hx with rfl | hx
        · exact h y (List.mem_cons_self ..)
        · exact h x (List.mem_cons_of_mem _ hx)
      · exact ih (fun z hz => h z (List.mem_cons_of_mem _ hz)) x hx

/-- The presentation loop takes a gapless prefix and stops at the first gap. -/
theorem presentLoop_ch (f : Bool) : ∀ (q : List QEnt) (r hi : Nat), Ch b P r q hi → hi < r + 2 ^ 31 →
    ∃ r', (presentLoop (seqOf b r) f q).1 = seqOf b r' ∧ r ≤ r' ∧
      Contig b P r (presentLoop (seqOf b r) f q).2.2.1 r' ∧
      Ch b P r' (presentLoop (seqOf b r) f q).2.2.2 hi ∧
      (∀ e es, (presentLoop (seqOf b r) f q).2.2.2 = e :: es →
        Ch b P (r' + 1) (e :: es) hi) := by
  intro q
  induction q generalizing f with
  | nil =>
    intro r hi h _
    exact ⟨r, rfl, Nat.le_refl _, rfl, h, fun e es hh => by cases hh⟩
  | cons x xs ih =>
    intro r hi h hb
    unfold Ch at h
    obtain ⟨a, h1, h2, h3, h4⟩ := h
    have hle := h4.le
    unfold presentLoop
    by_cases hx : x.seq = seqOf b r
    · have har : a = r := seqOf_inj b a r (by omega) (by omega) (h2 ▸ hx)
      subst har
      rw [if_pos hx, seqOf_add]
      obtain ⟨r', k1, k2, k3, k4, k5⟩ := ih x.fin (a + x.len) hi h4 (by omega)
      refine ⟨r', k1, by omega, ?_, k4, k5⟩
      unfold Contig
      exact ⟨h2, h3, k3⟩
    · rw [if_neg hx]
      refine ⟨r, rfl, Nat.le_refl _, rfl, ?_, ?_⟩
      · unfold Ch; exact ⟨a, h1, h2, h3, h4⟩
      · intro e es hh
        cases hh
        unfold Ch
        refine ⟨a, ?_, h2, h3, h4⟩
        by_cases har : a = r
        · subst har; exact absurd h2 hx
        · omega

theorem presentLoop_contig : ∀ (p l : List QEnt) (f : Bool) (r m : Nat), Contig b P r p m →
    (presentLoop (seqOf b r) f (p ++ l)).2.2.2 = (presentLoop (seqOf b m) f l).2.2.2 ∧
    ∃ f', (presentLoop (seqOf b r) f (p ++ l)).1 = (presentLoop (seqOf b m) f' l).1 := by
  intro p
  induction p with
  | nil => intro l f r m h; unfold Contig at h; subst h; exact ⟨rfl, f, rfl⟩
  | cons x xs ih =>
    intro l f r m h
    unfold Contig at h
    rw [List.cons_append, presentLoop, if_pos h.1, seqOf_add]
    have hf : ∀ (l : List QEnt) (n : BitVec 32) (f f' : Bool), (presentLoop n f l).2.2.2 = (presentLoop n f' l).2.2.2 := by
      intro l n f f'
      cases l with
      | nil => rfl
      | cons y ys =>
        unfold presentLoop
        split <;> rfl
    have := ih l x.fin (r + x.len) m h.2.2
    refine ⟨?_, this.2⟩
    simp only
    rw [this.1]; exact hf _ _ _ _

/-- What follows a gapless run in a chain. -/
theorem contig_ch : ∀ (p l : List QEnt) (r m hi : Nat), Contig b P r p m → Ch b P r (p ++ l) hi → hi < r + 2 ^ 31 →
    Ch b P m l hi := by
  intro p
  induction p with
  | nil => intro l r m hi h hc _; unfold Contig at h; subst h; exact hc
  | cons x xs ih =>
    intro l r m hi h hc hb
    unfold Contig at h
    rw [List.cons_append] at hc
    unfold Ch at hc
    obtain ⟨a, h1, h2, h3, h4⟩ := hc
    have hle := h4.le
    have har : a = r := seqOf_inj b a r (by omega) (by omega) (h2.symm.trans h.1)
    subst har
    exact ih l _ m hi h.2.2 h4 (by omega)

theorem presentLoop_split (n : BitVec 32) (f : Bool) : ∀ q : List QEnt,
    q = (presentLoop n f q).2.2.1 ++ (presentLoop n f q).2.2.2 := by
  intro q
  induction q generalizing n f with
  | nil => rfl
  | cons x xs ih =>
    unfold presentLoop
    split
    · simp only [List.cons_append]; rw [← ih]
    · rfl

/-- FIN flag returned: that of the last entry presented. -/
theorem presentLoop_fin : ∀ (q : List QEnt) (n : BitVec 32), (presentLoop n false q).2.1 = true →
    ∃ p e, (presentLoop n false q).2.2.1 = p ++ [e] ∧ e.fin = true := by
  have gen : ∀ (q : List QEnt) (n : BitVec 32) (f : Bool), (presentLoop n f q).2.1 = true →
      (f = true ∧ (presentLoop n f q).2.2.1 = []) ∨ ∃ p e, (presentLoop n f q).2.2.1 = p ++ [e] ∧ e.fin = true := by
    intro q
    induction q with
    | nil => intro n f h; exact Or.inl ⟨h, rfl⟩
    | cons x xs ih =>
      intro n f h
      unfold presentLoop at h ⊢
      by_cases hx : x.seq = n
      · rw [if_pos hx] at h ⊢
        simp only at h ⊢
        rcases ih _ _ h with ⟨h1, h2⟩ | ⟨p, e, h1, h2⟩
        · exact Or.inr ⟨[], x, by rw [h2]; rfl, h1⟩
        · exact Or.inr ⟨x :: p, e, by rw [h1]; rfl, h2⟩
      · rw [if_neg hx] at h ⊢
        exact Or.inl ⟨h, rfl⟩
  intro q n h
  rcases gen q n false h with ⟨h1, _⟩ | h
  · cases h1
  · exact h

end

end Verif.Tcp

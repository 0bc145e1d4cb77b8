import Verif.Sack.RecvN
/-! # The SACK report and the reassembly queue -/
namespace Verif.Sack
open Verif.Tcp
open Verif.Sockbuf (Pkt)

section
variable {b : BitVec 32}

/-- Any entry. -/
abbrev Any : Nat → QEnt → Prop := fun _ _ => True

/-- Offset `y` is in a queue entry. -/
def InQ (b : BitVec 32) (q : List QEnt) (y : Nat) : Prop := ∃ e ∈ q, ∃ a, e.seq = seqOf b a ∧ a ≤ y ∧ y < a + e.len

/-- Offset `y` has been received. -/
def Cov (b : BitVec 32) (r : Nat) (q : List QEnt) (y : Nat) : Prop := y < r ∨ InQ b q y

theorem inq_nil {y : Nat} : ¬ InQ b [] y := fun ⟨_, h, _⟩ => by cases h

theorem inq_cons {e : QEnt} {es : List QEnt} {y : Nat} :
    InQ b (e :: es) y ↔ (∃ a, e.seq = seqOf b a ∧ a ≤ y ∧ y < a + e.len) ∨ InQ b es y := by
  unfold InQ
  simp only [List.mem_cons]
  constructor
  · rintro ⟨x, rfl | hx, h⟩
    · exact Or.inl h
    · exact Or.inr ⟨x, hx, h⟩
  · rintro (h | ⟨x, hx, h⟩)
    · exact ⟨e, Or.inl rfl, h⟩
    · exact ⟨x, Or.inr hx, h⟩

theorem inq_append {p q : List QEnt} {y : Nat} : InQ b (p ++ q) y ↔ InQ b p y ∨ InQ b q y := by
  unfold InQ
  simp only [List.mem_append]
  constructor
  · rintro ⟨x, hx | hx, h⟩
    · exact Or.inl ⟨x, hx, h⟩
    · exact Or.inr ⟨x, hx, h⟩
  · rintro (⟨x, hx, h⟩ | ⟨x, hx, h⟩)
    · exact ⟨x, Or.inl hx, h⟩
    · exact ⟨x, Or.inr hx, h⟩

/-- The offset of an entry is determined near `y`. -/
theorem same_off {e : QEnt} {a a' y lo hi : Nat} (h1 : e.seq = seqOf b a) (h2 : e.seq = seqOf b a') (hlo : lo ≤ a)
    (hhi : a + e.len ≤ hi) (hw : hi < lo + 2 ^ 31) (h3 : a' ≤ y) (h4 : y < a' + e.len) (h5 : lo ≤ y) (h6 : y < hi) :
    a' = a :=
  seqOf_inj b a' a (by omega) (by omega) (h2.symm.trans h1)

/-- Trimming to `e` loses only bytes before `e`. -/
theorem trimSucc_inq (e : Nat) : ∀ (q : List QEnt) (lo hi : Nat), Ch b Any lo q hi →
    e ≤ hi → hi < lo + 2 ^ 31 → lo < e + 2 ^ 31 → hi < e + 2 ^ 31 → ∀ y, lo ≤ y → e ≤ y → y < hi → InQ b q y →
    InQ b (trimSucc (seqOf b e) q).1 y := by
  intro q
  induction q with
  | nil => intro lo hi _ _ _ _ _ y _ _ _ h; exact absurd h inq_nil
  | cons x xs ih =>
    intro lo hi h he hb hb2 hb3 y hy0 hye hyh hq
    unfold Ch at h
    obtain ⟨a, h1, h2, h3, h4⟩ := h
    have hle := h4.le
    have hd : diff (seqOf b e) x.seq = (e : Int) - a := by rw [h2]; exact diff_eq b e a (by omega) (by omega)
    unfold trimSucc
    rw [hd]
    split
    · exact hq
    · next hc =>
      have hcase : (a ≤ y ∧ y < a + x.len) ∨ InQ b xs y := by
        rcases inq_cons.mp hq with ⟨a', k1, k2, k3⟩ | h
        · have := same_off h2 k1 h1 hle hb k2 k3 hy0 hyh
          subst this
          exact Or.inl ⟨k2, k3⟩
        · exact Or.inr h
      split
      · next hc' =>
        have e1 : ((e : Int) - a).toNat = e - a := by omega
        simp only [e1]
        refine inq_cons.mpr (hcase.imp (fun hh => ⟨e, ?_, hye, ?_⟩) id)
        · simp only; rw [h2, seqOf_add]; congr 1; omega
        · simp only; omega
      · next hc' =>
        rcases hcase with hh | hh
        · omega
        · by_cases hlo : a + x.len ≤ y
          · exact ih (a + x.len) hi h4 he (by omega) (by omega) hb3 y hlo hye hyh hh
          · omega

/-- What the presentation loop takes is below the new `rcv_nxt`. -/
theorem presentLoop_cov (f : Bool) : ∀ (q : List QEnt) (r hi : Nat), Ch b Any r q hi → hi < r + 2 ^ 31 →
    ∃ r', (presentLoop (seqOf b r) f q).1 = seqOf b r' ∧ r ≤ r' ∧ r' ≤ hi ∧
      Ch b Any r' (presentLoop (seqOf b r) f q).2.2.2 hi ∧
      ((presentLoop (seqOf b r) f q).2.2.2 = [] ∨ Ch b Any (r' + 1) (presentLoop (seqOf b r) f q).2.2.2 hi) ∧
      ∀ y, r ≤ y → y < hi → InQ b q y → Cov b r' (presentLoop (seqOf b r) f q).2.2.2 y := by
  intro q
  induction q generalizing f with
  | nil =>
    intro r hi h _
    exact ⟨r, rfl, Nat.le_refl _, h, h, Or.inl rfl, fun y _ _ hq => absurd hq inq_nil⟩
  | cons x xs ih =>
    intro r hi h hb
    unfold Ch at h
    obtain ⟨a, h1, h2, h3, h4⟩ := h
    have hle := h4.le
    unfold presentLoop
    by_cases hx : x.seq = seqOf b r
    · have har : a = r := seqOf_inj b a r (by omega) (by omega) (h2 ▸ hx)
      subst har
      rw [if_pos hx, seqOf_add]
      obtain ⟨r', k1, k2, k3, k4, k5, k6⟩ := ih x.fin (a + x.len) hi h4 (by omega)
      refine ⟨r', k1, by omega, k3, k4, k5, fun y hy1 hy2 hq => ?_⟩
      by_cases hya : a + x.len ≤ y
      · rcases inq_cons.mp hq with ⟨a', j1, j2, j3⟩ | h
        · have := same_off h2 j1 (Nat.le_refl _) hle hb j2 j3 hy1 hy2
          omega
        · exact k6 y hya hy2 h
      · left; omega
    · rw [if_neg hx]
      refine ⟨r, rfl, Nat.le_refl _, by omega, ?_, Or.inr ?_, fun y _ _ hq => Or.inr hq⟩
      · unfold Ch; exact ⟨a, h1, h2, h3, h4⟩
      · unfold Ch
        refine ⟨a, ?_, h2, h3, h4⟩
        by_cases har : a = r
        · subst har; exact absurd h2 hx
        · omega

/-- The queue starts above `r`. -/
def Clear (b : BitVec 32) (r : Nat) (q : List QEnt) (hi : Nat) : Prop := q = [] ∨ Ch b Any (r + 1) q hi

theorem present_cov (s : Rcv) (r : Nat) (hn : s.nxt = seqOf b r) (hc : Ch b Any r s.segq (r + W)) :
    ∃ r', (present s).1.nxt = seqOf b r' ∧ r ≤ r' ∧ r' ≤ r + W ∧ Ch b Any r' (present s).1.segq (r' + W) ∧
      (present s).1.phase = s.phase ∧
      (∀ y, y < r + W → Cov b r s.segq y → Cov b r' (present s).1.segq y) ∧
      (s.phase.est = false → r' = r) ∧ (s.phase.est = true → Clear b r' (present s).1.segq (r' + W)) := by
  have hW : W = 2 ^ 30 := rfl
  unfold present
  split
  · next hest =>
    exact ⟨r, hn, Nat.le_refl _, by omega, hc, rfl, fun y _ h => h, fun _ => rfl,
      fun h => by rw [hest] at h; cases h⟩
  · next hest =>
    simp only
    obtain ⟨r', k1, k2, k3, k4, k5, k6⟩ := presentLoop_cov (b := b) false s.segq r (r + W) hc (by omega)
    rw [← hn] at k1 k4 k5 k6
    obtain ⟨f1, f2, f3, _, f5, f6⟩ := fold_segq (presentLoop s.nxt false s.segq).2.2.1
      { s with nxt := (presentLoop s.nxt false s.segq).1, segq := (presentLoop s.nxt false s.segq).2.2.2,
               segqlen := s.segqlen - (presentLoop s.nxt false s.segq).2.2.1.length }
    refine ⟨r', by rw [f2]; exact k1, k2, k3, ?_, f3, ?_, fun h => absurd h hest, fun _ => ?_⟩
    · rw [f1]; exact k4.mono_hi (by omega)
    · rw [f1]
      intro y hy h
      by_cases hyr : y < r'
      · exact Or.inl hyr
      · rcases h with h | h
        · omega
        · exact k6 y (by omega) hy h
    · rw [f1]
      exact k5.imp id fun h => h.mono_hi (by omega)

theorem present_flag (s : Rcv) (h : (present s).2 = true) : s.phase.est = true := by
  unfold present at h
  split at h
  · cases h
  · next hh => simpa using hh

theorem inq_ch : ∀ (q : List QEnt) (lo hi lo' y : Nat), Ch b Any lo q hi → lo' ≤ lo → hi < lo' + 2 ^ 31 → lo' ≤ y →
    y < hi → InQ b q y → lo ≤ y := by
  intro q
  induction q with
  | nil => intro lo hi lo' y _ _ _ _ _ h; exact absurd h inq_nil
  | cons x xs ih =>
    intro lo hi lo' y h hl hb h1 h2 hq
    unfold Ch at h
    obtain ⟨a, g1, g2, _, g4⟩ := h
    have hle := g4.le
    rcases inq_cons.mp hq with ⟨a', j1, j2, j3⟩ | h
    · have := same_off g2 j1 (lo := lo') (by omega) hle hb j2 j3 h1 h2
      omega
    · have := ih (a + x.len) hi lo' y g4 (by omega) hb h1 h2 h
      omega

theorem ch_last : ∀ (q : List QEnt) (lo hi : Nat) (p : QEnt), Ch b Any lo q hi → q.getLast? = some p →
    ∃ a, lo ≤ a ∧ p.seq = seqOf b a ∧ a + p.len ≤ hi := by
  intro q
  induction q with
  | nil => intro lo hi p _ h; cases h
  | cons x xs ih =>
    intro lo hi p h hp
    unfold Ch at h
    obtain ⟨a, g1, g2, _, g4⟩ := h
    have hle := g4.le
    rw [List.getLast?_cons] at hp
    cases hl : xs.getLast? with
    | none =>
      rw [hl] at hp
      simp only [Option.getD_none, Option.some.injEq] at hp
      subst hp
      exact ⟨a, g1, g2, hle⟩
    | some p' =>
      rw [hl] at hp
      simp only [Option.getD_some, Option.some.injEq] at hp
      subst hp
      obtain ⟨a', k1, k2, k3⟩ := ih _ _ _ g4 hl
      exact ⟨a', by omega, k2, k3⟩

/-- The entries behind the split begin after `x`. -/
theorem ch_post (x : Nat) (q : List QEnt) (lo hi lo' : Nat) (h : Ch b Any lo q hi) (hl : lo' ≤ lo) (hl2 : lo' ≤ x) (hx : x ≤ hi)
    (hb : hi < lo' + 2 ^ 31) (hq : ∀ e ∈ q.head?, seqGT e.seq (seqOf b x) = true) :
    q = [] ∨ Ch b Any (max lo (x + 1)) q hi := by
  cases q with
  | nil => exact Or.inl rfl
  | cons e es =>
    right
    have he := hq e rfl
    unfold Ch at h ⊢
    obtain ⟨a, g1, g2, g3, g4⟩ := h
    have hle := g4.le
    rw [g2, (seq_compare b a x (by omega) (by omega)).2.2.1] at he
    have : a > x := by simpa using he
    exact ⟨a, by omega, g2, g3, g4⟩

/-- Nothing is presented from a queue that starts above `rcv_nxt`. -/
theorem presentLoop_clear (f : Bool) (q : List QEnt) (r hi : Nat) (hb : hi < r + 2 ^ 31) (h : Clear b r q hi) :
    presentLoop (seqOf b r) f q = (seqOf b r, f, [], q) := by
  rcases h with rfl | h
  · rfl
  · cases q with
    | nil => rfl
    | cons e es =>
      unfold Ch at h
      obtain ⟨a, g1, g2, g3, g4⟩ := h
      have hle := g4.le
      unfold presentLoop
      rw [if_neg]
      intro hh
      have := seqOf_inj b a r (by omega) (by omega) (g2.symm.trans hh)
      omega

theorem present_clear (s : Rcv) (r : Nat) (hn : s.nxt = seqOf b r) (h : Clear b r s.segq (r + W)) :
    (present s).1.nxt = s.nxt ∧ (present s).1.segq = s.segq := by
  have hW : W = 2 ^ 30 := rfl
  unfold present
  split
  · exact ⟨rfl, rfl⟩
  · rw [hn, presentLoop_clear false s.segq r (r + W) (by omega) h]
    simp

theorem reass_dropped (c : Cfg) (s : Rcv) (seq : BitVec 32) (tlen : Nat) (fin zone : Bool) (m : Pkt)
    (hT : reassT c s seq tlen zone = 0) (ht : tlen ≠ 0) : reass c s seq tlen fin m zone = (s.free m, false) := by
  unfold reassT at hT
  unfold reass
  simp only at hT ⊢
  split
  · rfl
  · next h1 =>
    rw [if_neg h1] at hT
    split
    · rfl
    · next h2 =>
      rw [if_neg h2] at hT
      split at hT
      · exact absurd hT ht
      · next h3 => exfalso; omega

/-- The first-phase facts about `ofp_tcp_reass`: coverage, and what an empty segment can do. -/
theorem reass_cov (c : Cfg) (s : Rcv) (r x tlen : Nat) (fin zone : Bool) (m : Pkt)
    (hn : s.nxt = seqOf b r) (hc : Ch b Any r s.segq (r + W)) (hx : r ≤ x) (hx2 : x + tlen ≤ r + W) :
    ∃ r', (reass c s (seqOf b x) tlen fin m zone).1.nxt = seqOf b r' ∧ r ≤ r' ∧ r' ≤ r + W ∧
      Ch b Any r' (reass c s (seqOf b x) tlen fin m zone).1.segq (r' + W) ∧
      (reass c s (seqOf b x) tlen fin m zone).1.phase = s.phase ∧
      (∀ y, y < r + W → Cov b r s.segq y ∨ (x ≤ y ∧ y < x + reassT c s (seqOf b x) tlen zone) →
        Cov b r' (reass c s (seqOf b x) tlen fin m zone).1.segq y) ∧
      reassT c s (seqOf b x) tlen zone ≤ tlen ∧
      (s.phase.est = false → r' = r) ∧
      ((reass c s (seqOf b x) tlen fin m zone).2 = true →
        Clear b r' (reass c s (seqOf b x) tlen fin m zone).1.segq (r' + W)) ∧
      (s.phase.est = true →
        (r' = r ∧ (Clear b r s.segq (r + W) → Clear b r (reass c s (seqOf b x) tlen fin m zone).1.segq (r + W))) ∨
        Clear b r' (reass c s (seqOf b x) tlen fin m zone).1.segq (r' + W)) ∧
      (reassT c s (seqOf b x) tlen zone = 0 → Clear b r s.segq (r + W) → fin = true → s.phase.est = true →
        (r' = r ∧ Clear b r (reass c s (seqOf b x) tlen fin m zone).1.segq (r + W)) ∨
          (reass c s (seqOf b x) tlen fin m zone).2 = true) := by
  have hW : W = 2 ^ 30 := rfl
  unfold reass reassT
  simp only
  split
  · exact ⟨r, hn, Nat.le_refl _, by omega, hc, rfl, fun y _ h => h.elim id fun h => by omega, by omega,
      fun _ => rfl, (fun h => by cases h), fun _ => Or.inl ⟨rfl, id⟩, fun _ h _ _ => Or.inl ⟨rfl, h⟩⟩
  split
  · exact ⟨r, hn, Nat.le_refl _, by omega, hc, rfl, fun y _ h => h.elim id fun h => by omega, by omega,
      fun _ => rfl, (fun h => by cases h), fun _ => Or.inl ⟨rfl, id⟩, fun _ h _ _ => Or.inl ⟨rfl, h⟩⟩
  obtain ⟨mid, k1, k2, k3, k4, k5, k6, _⟩ := ch_split x s.segq r (r + W) hc hx (by omega) (by omega)
  have hq : s.segq = (s.segq.takeWhile fun e => !seqGT e.seq (seqOf b x)) ++
      (s.segq.dropWhile fun e => !seqGT e.seq (seqOf b x)) := List.takeWhile_append_dropWhile.symm
  have hov : overlap (s.segq.takeWhile fun e => !seqGT e.seq (seqOf b x)) (seqOf b x) =
      if (s.segq.takeWhile fun e => !seqGT e.seq (seqOf b x)) = [] then 0 else (mid : Int) - x := by
    unfold overlap
    cases hl : (s.segq.takeWhile fun e => !seqGT e.seq (seqOf b x)).getLast? with
    | none => rw [if_pos (List.getLast?_eq_none_iff.1 hl)]
    | some p =>
      rw [if_neg (by intro hh; rw [hh] at hl; cases hl)]
      simp only
      rw [k6 p hl, diff_eq b mid x (by omega) (by omega)]
  have hhd : ∀ e ∈ (s.segq.dropWhile fun e => !seqGT e.seq (seqOf b x)).head?, seqGT e.seq (seqOf b x) = true := by
    intro e he
    have := List.head?_dropWhile_not (fun e => !seqGT e.seq (seqOf b x)) s.segq
    rw [Option.mem_def] at he
    rw [he] at this
    simpa using this
  have htw : ∀ e ∈ s.segq.takeWhile fun e => !seqGT e.seq (seqOf b x), seqGT e.seq (seqOf b x) = false := by
    intro e he
    have := List.all_takeWhile (p := fun e => !seqGT e.seq (seqOf b x)) (l := s.segq)
    rw [List.all_eq_true] at this
    simpa using this e he
  have hpost := ch_post (b := b) x _ mid (r + W) r k2 k4 hx (by omega) (by omega) hhd
  -- a clear queue has nothing at or before `x = r`
  have hclr : Clear b r s.segq (r + W) → x = r → (s.segq.takeWhile fun e => !seqGT e.seq (seqOf b x)) = [] := by
    intro hcl hxr
    rcases hcl with h | h
    · rw [h]; rfl
    · cases hsq : s.segq with
      | nil => rfl
      | cons e es =>
        rw [hsq] at h
        unfold Ch at h
        obtain ⟨a, g1, g2, _, g4⟩ := h
        have hle := g4.le
        rw [List.takeWhile_cons, g2, (seq_compare b a x (by omega) (by omega)).2.2.1]
        have : a > x := by omega
        simp [this]
  generalize hpre : (s.segq.takeWhile fun e => !seqGT e.seq (seqOf b x)) = pre at *
  generalize hpo : (s.segq.dropWhile fun e => !seqGT e.seq (seqOf b x)) = post at *
  split
  · next hd =>
    rw [hov] at hd
    have hpne : pre ≠ [] := by
      intro h; rw [if_pos h] at hd; omega
    rw [if_neg hpne] at hd
    obtain ⟨p, hp⟩ : ∃ p, pre.getLast? = some p := by
      cases h : pre.getLast? with
      | none => exact absurd (List.getLast?_eq_none_iff.1 h) hpne
      | some p => exact ⟨p, rfl⟩
    obtain ⟨a, a1, a2, a3⟩ := ch_last pre r mid p k1 hp
    have hpm : p ∈ pre := List.mem_of_getLast? hp
    have hax : a ≤ x := by
      have := htw p hpm
      rw [a2, (seq_compare b a x (by omega) (by omega)).2.2.1] at this
      simpa using this
    have ham : a + p.len = mid := by
      have := k6 p hp
      rw [a2, seqOf_add] at this
      exact seqOf_inj b _ _ (by omega) (by omega) this
    obtain ⟨r', p1, p2, p3, p4, p5, p6, p7, p8⟩ := present_cov (b := b) { (s.free m) with segqlen := s.segqlen + 1 - 1 } r hn hc
    refine ⟨r', p1, p2, p3, p4, p5, ?_, Nat.le_refl _, p7, fun h => p8 (present_flag _ h), fun h => Or.inr (p8 h), ?_⟩
    · rintro y hy (h | h)
      · exact p6 y hy h
      · refine p6 y hy (Or.inr ?_)
        show InQ b s.segq y
        rw [hq]
        exact inq_append.mpr (Or.inl ⟨p, hpm, a, a2, by omega, by omega⟩)
    · intro _ hcl _ hest
      left
      obtain ⟨q1, q2⟩ := present_clear (b := b) { (s.free m) with segqlen := s.segqlen + 1 - 1 } r hn hcl
      have : r' = r := seqOf_inj b r' r (by omega) (by omega) (p1.symm.trans (q1.trans hn))
      exact ⟨this, (congrArg (fun l => Clear b r l (r + W)) q2).mpr hcl⟩
  · next hdup =>
    rw [hov] at hdup ⊢
    have hk : ∀ kk : Int, kk = (if pre = [] then 0 else (mid : Int) - x) →
        mid ≤ x + kk.toNat ∧ kk.toNat ≤ tlen ∧ (kk.toNat < tlen ∨ kk.toNat = 0) ∧
          (kk.toNat = 0 ∨ x + kk.toNat = mid) := by
      intro kk hkk
      rw [← hkk] at hdup
      by_cases he : pre = []
      · rw [if_pos he] at hkk
        have := k5 he
        omega
      · rw [if_neg he] at hkk
        omega
    generalize (if pre = [] then 0 else (mid : Int) - x) = kk at hdup hk ⊢
    obtain ⟨q1, q2, q3, q4⟩ := hk kk rfl
    generalize kk.toNat = k at q1 q2 q3 q4 ⊢
    simp only [seqOf_add]
    have htr := trimSucc_ch (b := b) (P := Any) closed_true (x + k + (tlen - k)) _ mid (r + W) k2 (by omega) (by omega) (by omega) (by omega)
    have hte : Ch b Any (x + k) (⟨seqOf b (x + k), tlen - k, fin, pull m k, !zone⟩ ::
        (trimSucc (seqOf b (x + k + (tlen - k))) post).1) (r + W) := by
      unfold Ch
      exact ⟨x + k, Nat.le_refl _, rfl, trivial, htr⟩
    have hcht := k1.append (hte.mono_lo q1)
    obtain ⟨r', p1, p2, p3, p4, p5, p6, p7, p8⟩ := present_cov (b := b)
      { s with segq := pre ++ ⟨seqOf b (x + k), tlen - k, fin, pull m k, !zone⟩ ::
                 (trimSucc (seqOf b (x + k + (tlen - k))) post).1,
               segqlen := s.segqlen + 1 - (trimSucc (seqOf b (x + k + (tlen - k))) post).2.length,
               freed := s.freed ++ (trimSucc (seqOf b (x + k + (tlen - k))) post).2.map (fun q => q.pkt.id) } r hn hcht
    refine ⟨r', p1, p2, p3, p4, p5, ?_, by omega, p7, fun h => p8 (present_flag _ h), fun h => Or.inr (p8 h), ?_⟩
    · -- coverage
      have hin : ∀ y, x + k ≤ y → y < x + k + (tlen - k) → InQ b (pre ++ ⟨seqOf b (x + k), tlen - k, fin, pull m k, !zone⟩ ::
                 (trimSucc (seqOf b (x + k + (tlen - k))) post).1) y := fun y h1 h2 =>
        inq_append.mpr (Or.inr (inq_cons.mpr (Or.inl ⟨x + k, rfl, h1, h2⟩)))
      have hcov : ∀ y, y < r + W → Cov b r s.segq y → Cov b r (pre ++ ⟨seqOf b (x + k), tlen - k, fin, pull m k, !zone⟩ ::
                 (trimSucc (seqOf b (x + k + (tlen - k))) post).1) y := by
        rintro y hy (h | h)
        · exact Or.inl h
        · by_cases hyr : y < r
          · exact Or.inl hyr
          right
          rw [hq] at h
          rcases inq_append.mp h with h | h
          · exact inq_append.mpr (Or.inl h)
          · have hy1 : x + 1 ≤ y ∧ mid ≤ y := by
              rcases hpost with h0 | h0
              · rw [h0] at h; exact absurd h inq_nil
              · have := inq_ch _ _ _ r y h0 (by omega) (by omega) (by omega) hy h
                omega
            by_cases hye : x + k + (tlen - k) ≤ y
            · exact inq_append.mpr (Or.inr (inq_cons.mpr (Or.inr
                (trimSucc_inq (b := b) _ post mid (r + W) k2 (by omega) (by omega) (by omega) (by omega) y hy1.2 hye hy h))))
            · exact hin y (by omega) (by omega)
      rintro y hy (h | h)
      · exact p6 y hy (hcov y hy h)
      · by_cases hyk : x + k ≤ y
        · exact p6 y hy (Or.inr (hin y hyk (by omega)))
        · -- bytes the preceding entry has
          have hpne : pre ≠ [] := by
            intro h0
            have := k5 h0
            omega
          obtain ⟨p, hp⟩ : ∃ p, pre.getLast? = some p := by
            cases h : pre.getLast? with
            | none => exact absurd (List.getLast?_eq_none_iff.1 h) hpne
            | some p => exact ⟨p, rfl⟩
          obtain ⟨a, a1, a2, a3⟩ := ch_last pre r mid p k1 hp
          have hpm : p ∈ pre := List.mem_of_getLast? hp
          have hax : a ≤ x := by
            have := htw p hpm
            rw [a2, (seq_compare b a x (by omega) (by omega)).2.2.1] at this
            simpa using this
          have ham : a + p.len = mid := by
            have := k6 p hp
            rw [a2, seqOf_add] at this
            exact seqOf_inj b _ _ (by omega) (by omega) this
          exact p6 y hy (Or.inr (inq_append.mpr (Or.inl ⟨p, hpm, a, a2, by omega, by omega⟩)))
    · -- an empty segment with FIN
      intro hT hcl hfin hest
      have ht0 : tlen = 0 := by omega
      have hk0 : k = 0 := by omega
      subst ht0 hk0
      by_cases hxr : x = r
      · right
        have hpn := hclr hcl hxr
        have hpo2 : post = s.segq := by rw [hq, hpn]; rfl
        have htrim : (trimSucc (seqOf b (x + 0 + (0 - 0))) post).1 = s.segq := by
          rw [hpo2]
          rcases hcl with h | h
          · rw [h]; rfl
          · cases hsq : s.segq with
            | nil => rfl
            | cons e es =>
              rw [hsq] at h
              unfold Ch at h
              obtain ⟨a, g1, g2, _, g4⟩ := h
              have hle := g4.le
              unfold trimSucc
              rw [g2, diff_eq b _ a (by omega) (by omega), if_pos (by omega)]
        unfold present
        rw [if_neg (by rw [hest]; simp)]
        simp only [hpn, htrim, List.nil_append]
        rw [hn]
        unfold presentLoop
        rw [if_pos (by simp [hxr])]
        simp only
        rw [seqOf_add, Nat.sub_zero, Nat.add_zero, presentLoop_clear fin s.segq r (r + W) (by omega) hcl]
        exact hfin
      · left
        have hct : Clear b r (pre ++ ⟨seqOf b (x + 0), 0 - 0, fin, pull m 0, !zone⟩ ::
                 (trimSucc (seqOf b (x + 0 + (0 - 0))) post).1) (r + W) := by
          right
          by_cases hpn : pre = []
          · rw [hpn, List.nil_append]
            exact hte.mono_lo (by omega)
          · have h1 : Ch b Any (r + 1) pre mid := by
              rcases hcl with h | h
              · rw [h] at hq
                exact absurd (List.append_eq_nil_iff.mp hq.symm).1 hpn
              · obtain ⟨mid', j1, j2, j3, j4, j5, j6, _⟩ := ch_split x s.segq (r + 1) (r + W) h (by omega) (by omega) (by omega)
                rw [hpre] at j1 j6
                obtain ⟨p, hp⟩ : ∃ p, pre.getLast? = some p := by
                  cases h : pre.getLast? with
                  | none => exact absurd (List.getLast?_eq_none_iff.1 h) hpn
                  | some p => exact ⟨p, rfl⟩
                have : mid' = mid := seqOf_inj b _ _ (by omega) (by omega) ((j6 p hp).symm.trans (k6 p hp))
                rw [← this]; exact j1
            exact h1.append (hte.mono_lo q1)
        have hpc : ∀ t : Rcv, t.nxt = seqOf b r → Clear b r t.segq (r + W) →
            (present t).1.nxt = t.nxt ∧ (present t).1.segq = t.segq := fun t => present_clear (b := b) t r
        obtain ⟨q1, q2⟩ := hpc
          { s with
            segq := pre ++ ⟨seqOf b (x + 0), 0 - 0, fin, pull m 0, !zone⟩ ::
              (trimSucc (seqOf b (x + 0 + (0 - 0))) post).1
            segqlen := s.segqlen + 1 - (trimSucc (seqOf b (x + 0 + (0 - 0))) post).2.length
            freed := s.freed ++ (trimSucc (seqOf b (x + 0 + (0 - 0))) post).2.map (fun q => q.pkt.id) } hn hct
        have : r' = r := seqOf_inj b r' r (by omega) (by omega) (p1.symm.trans (q1.trans hn))
        exact ⟨this, (congrArg (fun l => Clear b r l (r + W)) q2).mpr hct⟩
end
end Verif.Sack

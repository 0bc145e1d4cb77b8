import Verif.Sack.Recv
import Verif.Sack.Lemmas
/-! # `ofp_tcp_update_sack_list` on stream offsets -/
namespace Verif.Sack
open Verif.Tcp

/-- Offsets, not sequence numbers. -/
abbrev NBlk := Nat × Nat

def toB (b : BitVec 32) (p : NBlk) : Blk := ⟨seqOf b p.1, seqOf b p.2⟩

def mergeN (r : Nat) : List NBlk → NBlk → NBlk × List NBlk
  | [], h => (h, [])
  | p :: ps, h =>
    if p.2 ≤ p.1 ∨ p.1 ≤ r then mergeN r ps h
    else if h.1 ≤ p.2 ∧ p.1 ≤ h.2 then mergeN r ps (min h.1 p.1, max h.2 p.2)
    else ((mergeN r ps h).1, p :: (mergeN r ps h).2)

def updateN (r : Nat) (L : List NBlk) (h : NBlk) : List NBlk :=
  if r < (mergeN r L h).1.1 then
    (mergeN r L h).1 :: (mergeN r L h).2.take
      (if (mergeN r L h).2.length ≥ 6 then (mergeN r L h).2.length - 1 else (mergeN r L h).2.length)
  else (mergeN r L h).2

/-- All in a window of less than half the sequence space. -/
def Near (lo : Int) (x : Nat) : Prop := lo ≤ x ∧ (x : Int) < lo + 2 ^ 31

def NearB (lo : Int) (p : NBlk) : Prop := Near lo p.1 ∧ Near lo p.2

section
variable {b : BitVec 32} {lo : Int}

theorem merge_ref (r : Nat) (hr : Near lo r) : ∀ (L : List NBlk) (h : NBlk), (∀ p ∈ L, NearB lo p) → NearB lo h →
    mergeLoop (seqOf b r) (L.map (toB b)) (toB b h) =
      (toB b (mergeN r L h).1, (mergeN r L h).2.map (toB b)) := by
  intro L
  induction L with
  | nil => intro h _ _; rfl
  | cons p ps ih =>
    intro h hL hh
    have hp := hL p (List.mem_cons_self ..)
    have hps : ∀ q ∈ ps, NearB lo q := fun q hq => hL q (List.mem_cons_of_mem _ hq)
    unfold NearB Near at hp hh
    unfold Near at hr
    have c1 := seq_compare b p.1 p.2 (by omega) (by omega)
    have c2 := seq_compare b p.1 r (by omega) (by omega)
    have c3 := seq_compare b h.1 p.2 (by omega) (by omega)
    have c4 := seq_compare b h.2 p.1 (by omega) (by omega)
    have c5 := seq_compare b h.1 p.1 (by omega) (by omega)
    have c6 := seq_compare b h.2 p.2 (by omega) (by omega)
    rw [List.map_cons]
    unfold mergeLoop mergeN
    simp only [toB, c1.2.2.2.1, c2.2.1, c3.2.1, c4.2.2.2.1, c5.2.2.1, c6.1]
    by_cases e1 : p.2 ≤ p.1 ∨ p.1 ≤ r
    · rw [if_pos e1, if_pos (by simpa using e1)]
      exact ih h hps hh
    · rw [if_neg e1, if_neg (by simpa using e1)]
      by_cases e2 : h.1 ≤ p.2 ∧ p.1 ≤ h.2
      · rw [if_pos e2, if_pos (by simpa using e2)]
        have e : (⟨if decide (h.1 > p.1) = true then seqOf b p.1 else seqOf b h.1,
            if decide (h.2 < p.2) = true then seqOf b p.2 else seqOf b h.2⟩ : Blk) =
            toB b (min h.1 p.1, max h.2 p.2) := by
          unfold toB
          congr 1
          · simp only [decide_eq_true_eq]
            split
            · congr 1; omega
            · congr 1; omega
          · simp only [decide_eq_true_eq]
            split
            · congr 1; omega
            · congr 1; omega
        rw [e]
        refine ih _ hps ?_
        unfold NearB Near
        simp only
        omega
      · rw [if_neg e2, if_neg (by simpa using e2)]
        have := ih h hps hh
        simp only [toB] at this
        rw [this]
        rfl

theorem merge_near (r : Nat) : ∀ (L : List NBlk) (h : NBlk), (∀ p ∈ L, NearB lo p) → NearB lo h →
    NearB lo (mergeN r L h).1 := by
  intro L
  induction L with
  | nil => intro h _ hh; exact hh
  | cons p ps ih =>
    intro h hL hh
    have hp := hL p (List.mem_cons_self ..)
    have hps : ∀ q ∈ ps, NearB lo q := fun q hq => hL q (List.mem_cons_of_mem _ hq)
    unfold mergeN
    split
    · exact ih h hps hh
    · split
      · refine ih _ hps ?_
        unfold NearB Near at *
        simp only
        omega
      · exact ih h hps hh

theorem update_ref (r : Nat) (hr : Near lo r) (L : List NBlk) (h : NBlk) (hL : ∀ p ∈ L, NearB lo p)
    (hh : NearB lo h) :
    updateList (seqOf b r) (L.map (toB b)) (seqOf b h.1) (seqOf b h.2) = (updateN r L h).map (toB b) := by
  unfold updateList updateN
  have e := merge_ref (b := b) r hr L h hL hh
  rw [show (⟨seqOf b h.1, seqOf b h.2⟩ : Blk) = toB b h from rfl, e]
  simp only
  have hn := merge_near r L h hL hh
  unfold NearB Near at hn
  unfold Near at hr
  have c := (seq_compare b (mergeN r L h).1.1 r (by omega) (by omega)).2.2.1
  rw [show (toB b (mergeN r L h).1).start = seqOf b (mergeN r L h).1.1 from rfl, c]
  by_cases hc : r < (mergeN r L h).1.1
  · rw [if_pos (by simpa using hc), if_pos hc]
    simp only [List.map_cons, List.length_map, List.map_take]
  · rw [if_neg (by simpa using hc), if_neg hc]

end

/-- Neither overlapping nor touching. -/
def SepN (p q : NBlk) : Prop := p.2 < q.1 ∨ q.2 < p.1

structure MergeOk (r : Nat) (L : List NBlk) (h h' : NBlk) (S : List NBlk) : Prop where
  lo : h'.1 ≤ h.1
  hi : h.2 ≤ h'.2
  sub : ∀ y, h'.1 ≤ y → y < h'.2 → (h.1 ≤ y ∧ y < h.2) ∨ ∃ p ∈ L, r < p.1 ∧ p.1 ≤ y ∧ y < p.2
  saved : S.Sublist L
  above : ∀ p ∈ S, r < p.1
  sepS : ∀ p ∈ S, SepN p h'
  sep : ∀ z : NBlk, z.1 < z.2 → SepN z h → (∀ p ∈ L, SepN z p) → SepN z h'
  kept : ∀ p ∈ L, r < p.1 → p ∈ S ∨ (h'.1 ≤ p.1 ∧ p.2 ≤ h'.2)

theorem merge_ok (r : Nat) : ∀ (L : List NBlk) (h : NBlk), (∀ p ∈ L, p.1 < p.2) → L.Pairwise SepN → h.1 < h.2 →
    MergeOk r L h (mergeN r L h).1 (mergeN r L h).2 := by
  intro L
  induction L with
  | nil =>
    intro h _ _ _
    exact ⟨Nat.le_refl _, Nat.le_refl _, fun y h1 h2 => Or.inl ⟨h1, h2⟩, List.Sublist.refl _,
      (fun p hp => by cases hp), (fun p hp => by cases hp), fun z _ h1 _ => h1, (fun p hp => by cases hp)⟩
  | cons p ps ih =>
    intro h hne hsep hh
    have hp := hne p (List.mem_cons_self ..)
    have hps : ∀ q ∈ ps, q.1 < q.2 := fun q hq => hne q (List.mem_cons_of_mem _ hq)
    obtain ⟨hs1, hs2⟩ := List.pairwise_cons.mp hsep
    unfold mergeN
    split
    · next hc =>
      have I := ih h hps hs2 hh
      have hr : p.1 ≤ r := by omega
      refine ⟨I.lo, I.hi, fun y h1 h2 => ?_, I.saved.cons _, I.above, I.sepS,
        fun z hz h1 h2 => I.sep z hz h1 fun q hq => h2 q (List.mem_cons_of_mem _ hq), ?_⟩
      · rcases I.sub y h1 h2 with h | ⟨q, hq, h⟩
        · exact Or.inl h
        · exact Or.inr ⟨q, List.mem_cons_of_mem _ hq, h⟩
      · intro q hq hqr
        rcases List.mem_cons.mp hq with rfl | hq
        · omega
        · exact I.kept q hq hqr
    · next hc =>
      split
      · next ht =>
        have I := ih (min h.1 p.1, max h.2 p.2) hps hs2 (by simp only; omega)
        have l1 := I.lo
        have l2 := I.hi
        simp only at l1 l2
        refine ⟨by omega, by omega, fun y h1 h2 => ?_, I.saved.cons _, I.above, I.sepS, ?_, ?_⟩
        · rcases I.sub y h1 h2 with h | ⟨q, hq, h⟩
          · simp only at h
            by_cases hy : p.1 ≤ y ∧ y < p.2
            · exact Or.inr ⟨p, List.mem_cons_self .., by omega, hy.1, hy.2⟩
            · left; omega
          · exact Or.inr ⟨q, List.mem_cons_of_mem _ hq, h⟩
        · intro z hz h1 h2
          refine I.sep z hz ?_ fun q hq => h2 q (List.mem_cons_of_mem _ hq)
          have := h2 p (List.mem_cons_self ..)
          unfold SepN at *
          simp only
          omega
        · intro q hq hqr
          rcases List.mem_cons.mp hq with rfl | hq
          · right; omega
          · exact I.kept q hq hqr
      · next ht =>
        have I := ih h hps hs2 hh
        refine ⟨I.lo, I.hi, fun y h1 h2 => ?_, I.saved.cons_cons _, ?_, ?_, ?_, ?_⟩
        · rcases I.sub y h1 h2 with h | ⟨q, hq, h⟩
          · exact Or.inl h
          · exact Or.inr ⟨q, List.mem_cons_of_mem _ hq, h⟩
        · intro q hq
          rcases List.mem_cons.mp hq with rfl | hq
          · omega
          · exact I.above q hq
        · intro q hq
          rcases List.mem_cons.mp hq with rfl | hq
          · refine I.sep q hp ?_ hs1
            unfold SepN; omega
          · exact I.sepS q hq
        · intro z hz h1 h2
          exact I.sep z hz h1 fun q hq => h2 q (List.mem_cons_of_mem _ hq)
        · intro q hq hqr
          rcases List.mem_cons.mp hq with rfl | hq
          · exact Or.inl (List.mem_cons_self ..)
          · exact (I.kept q hq hqr).imp (fun h => List.mem_cons_of_mem _ h) id

structure UpdateOk (r : Nat) (L : List NBlk) (h : NBlk) (R : List NBlk) : Prop where
  len : R.length ≤ 6
  ne : ∀ p ∈ R, p.1 < p.2
  above : ∀ p ∈ R, r < p.1
  sep : R.Pairwise SepN
  sub : ∀ p ∈ R, ∀ y, p.1 ≤ y → y < p.2 → (h.1 ≤ y ∧ y < h.2) ∨ ∃ q ∈ L, r < q.1 ∧ q.1 ≤ y ∧ y < q.2
  head : r < h.1 → ∃ p R', R = p :: R' ∧ p.1 ≤ h.1 ∧ h.2 ≤ p.2
  kept : L.length < 6 → r < h.1 → ∀ q ∈ L, r < q.1 → ∃ p ∈ R, p.1 ≤ q.1 ∧ q.2 ≤ p.2

theorem update_ok (r : Nat) (L : List NBlk) (h : NBlk) (hlen : L.length ≤ 6) (hne : ∀ p ∈ L, p.1 < p.2)
    (hsep : L.Pairwise SepN) (hh : h.1 < h.2) : UpdateOk r L h (updateN r L h) := by
  have M := merge_ok r L h hne hsep hh
  have hl := M.saved.length_le
  unfold updateN
  generalize hS : (mergeN r L h).2 = S at *
  generalize hh' : (mergeN r L h).1 = h' at *
  have l1 := M.lo
  have l2 := M.hi
  have hmem : ∀ (n : Nat), ∀ p ∈ S.take n, p ∈ S := fun n p hp => (List.take_sublist _ _).subset hp
  have subS : ∀ p ∈ S, ∀ y, p.1 ≤ y → y < p.2 → (h.1 ≤ y ∧ y < h.2) ∨ ∃ q ∈ L, r < q.1 ∧ q.1 ≤ y ∧ y < q.2 :=
    fun p hp y h1 h2 => Or.inr ⟨p, M.saved.subset hp, M.above p hp, h1, h2⟩
  split
  · next hr =>
    refine ⟨?_, ?_, ?_, ?_, ?_, ?_, ?_⟩
    · rw [List.length_cons, List.length_take]
      split <;> omega
    · intro p hp
      rcases List.mem_cons.mp hp with rfl | hp
      · omega
      · exact hne p (M.saved.subset (hmem _ p hp))
    · intro p hp
      rcases List.mem_cons.mp hp with rfl | hp
      · exact hr
      · exact M.above p (hmem _ p hp)
    · refine List.pairwise_cons.mpr ⟨fun q hq => ?_, ?_⟩
      · have := M.sepS q (hmem _ q hq)
        unfold SepN at *; omega
      · exact ((hsep.sublist M.saved)).sublist (List.take_sublist _ _)
    · intro p hp
      rcases List.mem_cons.mp hp with rfl | hp
      · exact M.sub
      · exact subS p (hmem _ p hp)
    · intro _
      exact ⟨h', _, rfl, l1, l2⟩
    · intro hlt _ q hq hqr
      rcases M.kept q hq hqr with h | h
      · refine ⟨q, List.mem_cons_of_mem _ ?_, Nat.le_refl _, Nat.le_refl _⟩
        rw [if_neg (by omega), List.take_length]
        exact h
      · exact ⟨h', List.mem_cons_self .., h.1, h.2⟩
  · next hr =>
    -- a head above `r` is merged only with blocks above `r`
    have hno : ¬ r < h.1 := by
      intro hhr
      rcases M.sub h'.1 (Nat.le_refl _) (by omega) with h | ⟨q, _, h, h2, _⟩
      · omega
      · omega
    refine ⟨by omega, fun p hp => hne p (M.saved.subset hp), M.above, hsep.sublist M.saved, subS, ?_, ?_⟩
    · intro hhr; exact absurd hhr hno
    · intro _ hhr; exact absurd hhr hno

end Verif.Sack

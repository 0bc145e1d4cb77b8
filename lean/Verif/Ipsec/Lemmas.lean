import Verif.Ipsec.Model
/-! Linked lists in the cell array. -/
namespace Verif.Ipsec

/-- The cells reached from a head pointer through a link function. -/
def Chain (nxt : Nat → Option Nat) : Option Nat → List Nat → Prop
  | h, [] => h = none
  | h, a :: l => h = some a ∧ Chain nxt (nxt a) l

theorem chain_congr {nxt nxt' : Nat → Option Nat} : ∀ {l : List Nat} {h : Option Nat},
    (∀ a ∈ l, nxt' a = nxt a) → Chain nxt h l → Chain nxt' h l
  | [], _, _, hc => hc
  | a :: l, h, he, hc => by
    refine ⟨hc.1, ?_⟩
    rw [he a (by simp)]
    exact chain_congr (fun b hb => he b (by simp [hb])) hc.2

theorem chain_head {nxt : Nat → Option Nat} {l : List Nat} {h : Option Nat}
    (hc : Chain nxt h l) : h = l.head? := by
  cases l with
  | nil => exact hc
  | cons a l => exact hc.1

theorem chain_drop {nxt : Nat → Option Nat} : ∀ {l1 : List Nat} {l2 : List Nat} {h : Option Nat},
    Chain nxt h (l1 ++ l2) → Chain nxt l2.head? l2
  | [], l2, h, hc => by
    have := chain_head hc
    simp only [List.nil_append] at this hc
    rw [← this]; exact hc
  | a :: l1, l2, h, hc => chain_drop (l1 := l1) hc.2

/-- Replace everything behind `l1` by another chain. -/
theorem chain_splice {nxt nxt' : Nat → Option Nat} {v : Option Nat} {m : List Nat}
    (hm : Chain nxt' v m) : ∀ {l1 l2 : List Nat} {h : Option Nat},
    Chain nxt h (l1 ++ l2) →
    (∀ a ∈ l1, l1.getLast? ≠ some a → nxt' a = nxt a) →
    (∀ a, l1.getLast? = some a → nxt' a = v) → l1.Nodup →
    Chain nxt' (if l1 = [] then v else h) (l1 ++ m)
  | [], l2, h, _, _, _, _ => by simpa using hm
  | [a], l2, h, hc, h1, h2, _ => by
    simp only [List.cons_ne_nil, if_false, List.cons_append, List.nil_append]
    refine ⟨hc.1, ?_⟩
    rw [h2 a (by simp)]
    exact hm
  | a :: b :: l1, l2, h, hc, h1, h2, hn => by
    simp only [List.cons_ne_nil, if_false, List.cons_append]
    refine ⟨hc.1, ?_⟩
    rw [List.nodup_cons] at hn
    have hlast : (a :: b :: l1).getLast? = (b :: l1).getLast? := by simp [List.getLast?_cons_cons]
    have hne : (a :: b :: l1).getLast? ≠ some a := by
      rw [hlast]
      intro he
      exact hn.1 (List.mem_of_getLast? he)
    rw [h1 a (by simp) hne]
    have := chain_splice hm (l1 := b :: l1) (l2 := l2) (h := nxt a) hc.2
      (fun x hx hxl => h1 x (by simp [List.mem_cons] at hx ⊢; exact Or.inr hx) (by rw [hlast]; exact hxl))
      (fun x hx => h2 x (by rw [hlast]; exact hx)) hn.2
    simpa using this

theorem walk_split {nxt : Nat → Option Nat} {p : Nat → Bool} :
    ∀ {l : List Nat} {h : Option Nat} {f : Nat} {prev : Option Nat},
    Chain nxt h l → l.length < f →
    ∃ l1 l2, l = l1 ++ l2 ∧ (∀ a ∈ l1, p a = false) ∧ (∀ a, l2.head? = some a → p a = true) ∧
      walk nxt p f prev h = some ((l1.getLast?).or prev, l2.head?)
  | [], h, f, prev, hc, hf => by
    cases f with
    | zero => simp at hf
    | succ f =>
      have : h = none := hc
      subst this
      exact ⟨[], [], by simp, by simp, by simp, by simp [walk]⟩
  | a :: l, h, f, prev, hc, hf => by
    cases f with
    | zero => simp at hf
    | succ f =>
      have h0 := hc.1
      subst h0
      by_cases hp : p a = true
      · exact ⟨[], a :: l, by simp, by simp, by simpa using hp, by simp [walk, hp]⟩
      · obtain ⟨l1, l2, e, h1, h2, h3⟩ := walk_split (p := p) (f := f) (prev := some a) hc.2
          (by simp at hf; omega)
        refine ⟨a :: l1, l2, by rw [e]; rfl, ?_, h2, ?_⟩
        · intro b hb
          rcases List.mem_cons.mp hb with rfl | hb
          · simpa using hp
          · exact h1 b hb
        · have hp' : p a = false := by simpa using hp
          simp only [walk, hp', Bool.false_eq_true, if_false, h3]
          cases l1 with
          | nil => simp
          | cons b l1 => 
            rw [List.getLast?_cons_cons]
            cases hh : (b :: l1).getLast? with
            | none => simp at hh
            | some x => simp

theorem head_find {p : Nat → Bool} {l1 l2 : List Nat} (h1 : ∀ a ∈ l1, p a = false)
    (h2 : ∀ a, l2.head? = some a → p a = true) : (l1 ++ l2).find? p = l2.head? := by
  rw [List.find?_append]
  have : l1.find? p = none := by
    rw [List.find?_eq_none]; intro x hx; simp [h1 x hx]
  rw [this, Option.none_or]
  cases l2 with
  | nil => rfl
  | cons a l => rw [List.find?_cons]; simp [h2 a rfl]

theorem walk_find {nxt : Nat → Option Nat} {p : Nat → Bool} {l : List Nat} {h prev : Option Nat}
    {f : Nat} (hc : Chain nxt h l) (hf : l.length < f) :
    (walk nxt p f prev h).map (·.2) = some (l.find? p) := by
  obtain ⟨l1, l2, e, h1, h2, h3⟩ := walk_split (p := p) (prev := prev) hc hf
  rw [h3, e, head_find h1 h2]; rfl

@[simp] theorem put_same {α : Type} (f : Nat → α) (i : Nat) (v : α) : put f i v i = v := by
  simp [put]

theorem put_other {α : Type} (f : Nat → α) {i x : Nat} (v : α) (h : x ≠ i) : put f i v x = f x := by
  simp [put, h]

end Verif.Ipsec

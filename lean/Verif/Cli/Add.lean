import Verif.Cli.Props
/-!
# Properties of the command line: adding commands, placeholders, the buffer of parameters
-/
namespace Verif.Cli

theorem add_none {t : Tree} (hw : Wf t) {ws : List Word} (hne : ws ≠ []) (f : Nat) :
    add t ws f = none ↔ ∃ r g, (ws ++ r, g) ∈ paths t := by
  induction t generalizing ws with
  | nil => simp [add, paths]
  | node w g next alt ihn iha =>
    obtain ⟨h1, h2, h3, h4⟩ := hw
    cases ws with
    | nil => exact absurd rfl hne
    | cons u us =>
      unfold add
      by_cases he : u = w
      · subst he
        rw [if_pos rfl]
        have hnot : ∀ r g', (u :: r, g') ∉ paths alt := fun r g' h => h1 (path_head h)
        cases us with
        | nil =>
          simp only [true_iff]
          obtain ⟨r, g', h⟩ := heads_path (t := .node u g next alt) ⟨h1, h2, h3, h4⟩ (w := u) (by simp [heads])
          exact ⟨r, g', h⟩
        | cons v vs =>
          simp only [Option.map_eq_none_iff]
          rw [ihn h2 (by simp)]
          constructor
          · rintro ⟨r, g', h⟩
            refine ⟨r, g', ?_⟩
            simp only [paths, List.mem_append, List.mem_map]
            exact .inl (.inr ⟨_, h, rfl⟩)
          · rintro ⟨r, g', h⟩
            simp only [paths, List.mem_append, List.mem_map] at h
            rcases h with (h | ⟨y, hy, h⟩) | h
            · cases g <;> simp at h
            · simp only [Prod.mk.injEq, List.cons_append, List.cons.injEq, true_and] at h
              obtain ⟨y1, y2⟩ := y
              simp only at h
              obtain ⟨rfl, rfl⟩ := h
              exact ⟨r, y2, hy⟩
            · exact absurd h (hnot _ _)
      · rw [if_neg he]
        simp only [Option.map_eq_none_iff]
        rw [iha h3 (by simp)]
        constructor
        · rintro ⟨r, g', h⟩; exact ⟨r, g', List.mem_append_right _ h⟩
        · rintro ⟨r, g', h⟩
          refine ⟨r, g', ?_⟩
          simp only [paths, List.mem_append, List.mem_map] at h
          rcases h with (h | ⟨y, _, h⟩) | h
          · cases g <;> simp at h; exact absurd h.1.1 he
          · simp at h; exact absurd h.1.1.symm he
          · exact h

/-- **C229**: adding a command succeeds if no command that is there begins with its words, and then it is there, and all the
others. -/
theorem add_partial {cs : List (List Word × Nat)} {t : Tree} (hne : ∀ c ∈ cs, c.1 ≠ []) (hb : build cs = some t)
    {ws : List Word} (hws : ws ≠ []) (f : Nat) (h : ∀ r g, (ws ++ r, g) ∉ cs) : ∃ t', build ((ws, f) :: cs) = some t' := by
  obtain ⟨hw, hp⟩ := build_spec hne hb
  cases ha : add t ws f with
  | none =>
    obtain ⟨r, g, hm⟩ := (add_none hw hws f).mp ha
    exact absurd ((hp _).mp hm) (h r g)
  | some t' => exact ⟨t', by simp only [build, hb, ha]⟩

/-- **C229, violated**: adding a command, or an alias, whose words another begins with stops the program. -/
theorem add_violated {cs : List (List Word × Nat)} {t : Tree} (hne : ∀ c ∈ cs, c.1 ≠ []) (hb : build cs = some t)
    {ws : List Word} (hws : ws ≠ []) (f : Nat) {r : List Word} {g : Nat} (h : (ws ++ r, g) ∈ cs) : build ((ws, f) :: cs) = none := by
  obtain ⟨hw, hp⟩ := build_spec hne hb
  simp only [build, hb]
  exact (add_none hw hws f).mpr ⟨r, g, (hp _).mpr h⟩

/-- **C228, violated**: the placeholder of a parameter, typed as it is shown, is taken for it, and the function is called without
the parameter. -/
theorem placeholder_violated {ok : Checks} {cs : List (List Word × Nat)} {t : Tree} (hne : ∀ c ∈ cs, c.1 ≠ [])
    (hb : build cs = some t) {k : Str} {p : Param} {f : Nat} (hp : ok p p.text = false)
    (honly : ∀ c ∈ cs, c.1.head? = some (.key k) ∨ ∃ p', c.1.head? = some (.param p') ∧ fits ok (.param p') k = false ∨
      ∃ k', c.1.head? = some (.key k') ∧ k' ≠ k)
    (h2 : ∀ c ∈ cs, ∀ w r, c.1 = .key k :: w :: r → w ≠ .param p → fits ok w p.text = false)
    (h3 : ([.key k, .param p], f) ∈ cs) :
    exec ok t [k, p.text] = some (f, []) := by
  obtain ⟨hw, hpa⟩ := build_spec hne hb
  have hm := (hpa _).mpr h3
  obtain ⟨g1, n1, a1, a2, a3, a4⟩ := find_only (ok := ok) hw (tok := k) (path_head hm) (by simp [fits]) (by
    intro v hv hne'
    obtain ⟨r, g, hr⟩ := heads_path hw hv
    rcases honly _ ((hpa _).mp hr) with h | ⟨p', ⟨h, hf⟩ | ⟨k', h, hk⟩⟩
    · simp at h; exact absurd h hne'
    · simp at h; subst h; exact hf
    · simp at h; subst h; simp [fits, hk])
  have hm1 := (a4 _ _ _).mp hm
  obtain ⟨g2, n2, b1, b2, b3, b4⟩ := find_only (ok := ok) a2 (tok := p.text) (path_head hm1) (by simp [fits]) (by
    intro v hv hne'
    obtain ⟨r, g, hr⟩ := heads_path a2 hv
    exact h2 _ ((hpa _).mp ((a4 _ _ _).mpr hr)) v r rfl hne')
  have hg : g2 = some f := (b3 f).mp hm1
  subst hg
  have hstep1 : walk ok t [k, p.text] none [] = walk ok n1 [p.text] (some (.key k, g1)) [] := by
    cases t with
    | nil => simp [paths] at hm
    | node a b c d => simp only [walk, a1]
  have hstep2 : walk ok n1 [p.text] (some (.key k, g1)) [] = walk ok n2 [] (some (.param p, some f)) [] := by
    cases hn : n1 with
    | nil => rw [hn] at hm1; simp [paths] at hm1
    | node a b c d => rw [hn] at b1; simp only [walk, b1, hp, Bool.false_eq_true, if_false]
  unfold exec
  rw [hstep1, hstep2]
  cases n2 <;> rfl

/-! ## The buffer of parameters -/

theorem sep_len (d : Char → Bool) (s : Str) :
    (sep d s).1.length + (match (sep d s).2 with
      | none => 0
      | some r => r.length + 1) = s.length := by
  induction s with
  | nil => rfl
  | cons c cs ih =>
    unfold sep
    split
    · simp
    · simp only [List.length_cons]
      split at ih <;> (rename_i h; rw [h] at *; simp only at *; omega)

theorem flat_append (a b : List Str) : paramlist (a ++ b) = paramlist a ++ paramlist b := by simp [paramlist]

/-- What the tokens of a line need. -/
theorem tokens_room (s : Str) : (paramlist (tokens s)).length ≤ s.length + 1 := by
  induction hn : s.length using Nat.strongRecOn generalizing s with
  | _ n ih =>
    subst hn
    have hl := sep_len blank s
    unfold tokens
    split
    · rename_i tok h
      rw [h] at hl
      simp only at hl
      split
      · simp [paramlist]
      · simp [paramlist]; omega
    · rename_i tok r h
      rw [h] at hl
      simp only at hl
      split
      · have := ih r.length (by omega) r rfl; omega
      · split
        · rename_i r' _
          have hq := sep_len quote r'
          split
          · rename_i q h'
            rw [h'] at hq
            simp only at hq
            simp [paramlist] at *; omega
          · rename_i q r'' h'
            rw [h'] at hq
            simp only at hq
            have := ih r''.length (by simp at hl; omega) r'' rfl
            simp [paramlist] at *; omega
        · have := ih r.length (by omega) r rfl
          simp [paramlist] at *; omega

theorem walk_room {ok : Checks} (toks : List Str) (t : Tree) (last : Option (Word × Option Nat)) (ps : List Str) :
    (paramlist (walk ok t toks last ps).2).length ≤ (paramlist ps).length + (paramlist toks).length := by
  induction toks generalizing t last ps with
  | nil => cases t <;> simp [walk, paramlist]
  | cons tok toks ih =>
    cases t with
    | nil => simp [walk]
    | node w f n a =>
      have hc : (paramlist (tok :: toks)).length = tok.length + 1 + (paramlist toks).length := by simp [paramlist]; omega
      unfold walk
      split
      · show (paramlist ps).length ≤ _; omega
      · have := ih; rename_i k g next _; have := this next (some (.key k, g)) ps; omega
      · rename_i p g next _
        have := ih next (some (.param p, g)) (if ok p tok then ps ++ [tok] else ps)
        have h2 : (paramlist (if ok p tok then ps ++ [tok] else ps)).length ≤ (paramlist ps).length + (tok.length + 1) := by
          split
          · rw [flat_append]; simp [paramlist]
          · omega
        omega

/-- **C230**: the parameters of a line of at most 98 characters fit the buffer of 100, with the zero at the end. -/
theorem room_partial {ok : Checks} (t : Tree) (s : Str) (hs : s.length ≤ 98) {f : Nat} {ps : List Str}
    (h : exec ok t (tokens s) = some (f, ps)) : (paramlist ps).length < 100 := by
  have h1 := tokens_room s
  have h2 := walk_room (ok := ok) (tokens s) t none []
  unfold exec at h
  split at h
  · rename_i g ps' hw
    simp at h
    rw [hw] at h2
    obtain ⟨_, rfl⟩ := h
    simp [paramlist] at *
    omega
  · simp at h

/-- A token without blanks that begins the line, and a token behind it. -/
theorem tokens_two {a b : Str} (ha : a ≠ []) (hb : b ≠ []) (ha' : ∀ c ∈ a, blank c = false) (hb' : ∀ c ∈ b, blank c = false)
    (hq : b.head? ≠ some '"') : tokens (a ++ ' ' :: b) = [a, b] := by
  have hsep : ∀ (x r : Str), (∀ c ∈ x, blank c = false) → sep blank (x ++ ' ' :: r) = (x, some r) := by
    intro x r hx
    induction x with
    | nil => rfl
    | cons c cs ih =>
      have := hx c (by simp)
      show sep blank (c :: (cs ++ ' ' :: r)) = _
      unfold sep
      rw [this, ih fun d hd => hx d (by simp [hd])]
      rfl
  have hsep2 : ∀ (x : Str), (∀ c ∈ x, blank c = false) → sep blank x = (x, none) := by
    intro x hx
    induction x with
    | nil => rfl
    | cons c cs ih =>
      have := hx c (by simp)
      unfold sep
      rw [this, ih fun d hd => hx d (by simp [hd])]
      rfl
  have htb : tokens b = [b] := by
    unfold tokens
    split
    · rename_i tok h
      rw [hsep2 b hb'] at h
      simp at h; subst h; rw [if_neg hb]
    · rename_i tok r h
      rw [hsep2 b hb'] at h; simp at h
  unfold tokens
  split
  · rename_i tok h
    rw [hsep a b ha'] at h; simp at h
  · rename_i tok r h
    rw [hsep a b ha'] at h
    simp at h
    obtain ⟨rfl, rfl⟩ := h
    rw [if_neg ha]
    split
    · exact absurd rfl hq
    · rw [htb]

/-- **C230, violated**: a command with a string takes one of 99 to 195 characters, if the line has room for it, and writes beyond
the buffer of 100. -/
theorem room_violated {ok : Checks} {k : Str} {f : Nat} (hk : k ≠ []) (hk' : ∀ c ∈ k, blank c = false)
    (hok : ∀ s, ok .string s = true) {b : Str} (hb : ∀ c ∈ b, blank c = false) (hq : b.head? ≠ some '"') (h99 : 99 ≤ b.length) :
    exec ok (newPath [.key k, .param .string] f) (tokens (k ++ ' ' :: b)) = some (f, [b]) ∧ 100 ≤ (paramlist [b]).length := by
  have hb0 : b ≠ [] := by rintro rfl; simp at h99
  rw [tokens_two hk hb0 hk' hb hq]
  constructor
  · simp [exec, walk, newPath, find, hits, fits, hok]
  · simp [paramlist]; omega

/-! ## Cases -/

/-- Checks for the cases: a number is decimal, any string is a string. -/
def ok0 : Checks := fun p s => match p with
  | .number => intOk s
  | .string => true
  | _ => false

/-- Some commands. -/
def cs0 : List (List Word × Nat) :=
  [([.key "debug".toList, .key "capture".toList, .key "file".toList, .param .string], 5),
   ([.key "debug".toList, .key "capture".toList, .param .number], 4), ([.key "debug".toList, .param .number], 3),
   ([.key "debug".toList, .key "show".toList], 2), ([.key "debug".toList], 1)]

example : (build cs0).isSome = true := by decide +kernel

/-- What a line calls. -/
def run0 (toks : List Str) : Option (Nat × List Str) := (build cs0).bind fun t => exec ok0 t toks

/-- A command with a parameter. -/
example : run0 ["debug".toList, "15".toList] = some (3, ["15".toList]) := by decide +kernel

/-- The same with more behind it. -/
example : run0 ["debug".toList, "15".toList, "xyz".toList] = some (3, ["15".toList]) := by decide +kernel

/-- A placeholder. -/
example : run0 ["debug".toList, "<number>".toList] = some (3, []) := by decide +kernel

/-- A line that is no command. -/
example : run0 ["debug".toList, "capture".toList] = none := by decide +kernel

/-- The hypotheses of `found_exact` and `trailing_violated` are met. -/
example : Says ok0 [.key "debug".toList, .param .number] ["debug".toList, "15".toList] ["15".toList] :=
  .key (.param (by decide) .nil)

/-- An alias named like a command stops the program. -/
example : build (([.key "debug".toList], 9) :: cs0) = none := by decide +kernel

end Verif.Cli

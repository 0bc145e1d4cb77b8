import Verif.Cli.Model
/-!
# Properties of the command line: commands
-/
namespace Verif.Cli

/-! ## Specification -/

/-- The checks of parameters. -/
abbrev Checks := Param → Str → Bool

/-- Tokens that are what a command asks for: keywords as they are, parameters that are valid; `ps` are the parameters. -/
inductive Says (ok : Checks) : List Word → List Str → List Str → Prop where
  | nil : Says ok [] [] []
  | key {k : Str} {ws : List Word} {ts ps : List Str} : Says ok ws ts ps → Says ok (.key k :: ws) (k :: ts) ps
  | param {p : Param} {t : Str} {ws : List Word} {ts ps : List Str} : ok p t = true → Says ok ws ts ps →
      Says ok (.param p :: ws) (t :: ts) (t :: ps)

/-- The tokens are no placeholder of a parameter. -/
def NoText (ts : List Str) : Prop := ∀ t ∈ ts, ∀ p : Param, p.text ≠ t

/-- The words of a command are the only ones that the tokens fit: where another command parts from it, its word does not fit
the token, be it as keyword or as parameter. -/
def Only (ok : Checks) (cs : List (List Word × Nat)) (ws : List Word) (ts : List Str) : Prop :=
  ∀ c ∈ cs, ∀ (pre : List Word) (w w' : Word) (r r' : List Word), ws = pre ++ w :: r → c.1 = pre ++ w' :: r' → w ≠ w' →
    ∀ t, ts[pre.length]? = some t → fits ok w' t = false

/-! ## The tree -/

/-- The commands in a tree. -/
def paths : Tree → List (List Word × Nat)
  | .nil => []
  | .node w f next alt =>
    (match f with
      | some g => [([w], g)]
      | none => []) ++ (paths next).map (fun x => (w :: x.1, x.2)) ++ paths alt

/-- The words of the alternatives. -/
def heads : Tree → List Word
  | .nil => []
  | .node w _ _ alt => w :: heads alt

/-- Alternatives are different, and every alternative leads to a command. -/
def Wf : Tree → Prop
  | .nil => True
  | .node w f next alt => w ∉ heads alt ∧ Wf next ∧ Wf alt ∧ (f = none → next ≠ .nil)

theorem newPath_paths {ws : List Word} (h : ws ≠ []) (f : Nat) : paths (newPath ws f) = [(ws, f)] := by
  induction ws with
  | nil => exact absurd rfl h
  | cons w ws ih =>
    cases ws with
    | nil => rfl
    | cons v vs =>
      have := ih (by simp)
      simp [newPath, paths, this]

theorem newPath_ne {ws : List Word} (h : ws ≠ []) (f : Nat) : newPath ws f ≠ .nil := by
  cases ws with
  | nil => exact absurd rfl h
  | cons w ws => cases ws <;> simp [newPath]

theorem newPath_wf (ws : List Word) (f : Nat) : Wf (newPath ws f) := by
  induction ws with
  | nil => trivial
  | cons w ws ih =>
    cases ws with
    | nil => simp [newPath, Wf, heads]
    | cons v vs => exact ⟨by simp [heads], ih, trivial, fun _ => newPath_ne (by simp) f⟩

theorem newPath_heads {ws : List Word} {w : Word} (f : Nat) (h : w ∈ heads (newPath ws f)) : ws.head? = some w := by
  cases ws with
  | nil => simp [newPath, heads] at h
  | cons u us => cases us <;> simp_all [newPath, heads]

theorem add_spec {t t' : Tree} {ws : List Word} {f : Nat} (hw : Wf t) (hne : ws ≠ []) (h : add t ws f = some t') :
    Wf t' ∧ t' ≠ .nil ∧ (∀ x, x ∈ paths t' ↔ x ∈ paths t ∨ x = (ws, f)) ∧
    (∀ w, w ∈ heads t' → w ∈ heads t ∨ ws.head? = some w) := by
  induction t generalizing t' ws with
  | nil =>
    simp only [add, Option.some.injEq] at h
    subst h
    refine ⟨newPath_wf ws f, newPath_ne hne f, fun x => ?_, fun w hw => .inr (newPath_heads f hw)⟩
    rw [newPath_paths hne]; simp [paths]
  | node w g next alt ihn iha =>
    obtain ⟨h1, h2, h3, h4⟩ := hw
    cases ws with
    | nil => exact absurd rfl hne
    | cons u us =>
      unfold add at h
      by_cases he : u = w
      · rw [if_pos he] at h
        cases us with
        | nil => simp at h
        | cons v vs =>
          simp only [Option.map_eq_some_iff] at h
          obtain ⟨n, hn, rfl⟩ := h
          obtain ⟨a1, a2, a3, _⟩ := ihn h2 (by simp) hn
          refine ⟨⟨h1, a1, h3, fun _ => a2⟩, by simp, fun x => ?_, fun w hw => .inl hw⟩
          simp only [paths, List.mem_append, List.mem_map]
          subst he
          constructor
          · rintro ((h | ⟨y, hy, rfl⟩) | h)
            · exact .inl (.inl (.inl h))
            · rcases (a3 y).mp hy with hy | rfl
              · exact .inl (.inl (.inr ⟨y, hy, rfl⟩))
              · exact .inr rfl
            · exact .inl (.inr h)
          · rintro (((h | ⟨y, hy, rfl⟩) | h) | rfl)
            · exact .inl (.inl h)
            · exact .inl (.inr ⟨y, (a3 y).mpr (.inl hy), rfl⟩)
            · exact .inr h
            · exact .inl (.inr ⟨_, (a3 _).mpr (.inr rfl), rfl⟩)
      · rw [if_neg he] at h
        simp only [Option.map_eq_some_iff] at h
        obtain ⟨a, ha, rfl⟩ := h
        obtain ⟨a1, a2, a3, a4⟩ := iha h3 (by simp) ha
        refine ⟨⟨fun hm => ?_, h2, a1, h4⟩, by simp, fun x => ?_, fun v hv => ?_⟩
        · rcases a4 w hm with h | h
          · exact h1 h
          · exact he (by simpa using h)
        · simp only [paths, List.mem_append, a3 x]
          constructor
          · rintro (h | h | h)
            · exact .inl (.inl h)
            · exact .inl (.inr h)
            · exact .inr h
          · rintro ((h | h) | h)
            · exact .inl h
            · exact .inr (.inl h)
            · exact .inr (.inr h)
        · simp only [heads, List.mem_cons] at hv ⊢
          rcases hv with rfl | hv
          · exact .inl (.inl rfl)
          · rcases a4 v hv with h | h
            · exact .inl (.inr h)
            · exact .inr h

theorem build_spec {cs : List (List Word × Nat)} {t : Tree} (hne : ∀ c ∈ cs, c.1 ≠ []) (h : build cs = some t) :
    Wf t ∧ ∀ x, x ∈ paths t ↔ x ∈ cs := by
  induction cs generalizing t with
  | nil => simp only [build, Option.some.injEq] at h; subst h; exact ⟨trivial, by simp [paths]⟩
  | cons c cs ih =>
    obtain ⟨ws, f⟩ := c
    unfold build at h
    split at h
    · simp at h
    · rename_i t0 h0
      obtain ⟨a, b⟩ := ih (fun c hc => hne c (List.mem_cons_of_mem _ hc)) h0
      obtain ⟨a1, _, a3, _⟩ := add_spec a (hne (ws, f) List.mem_cons_self) h
      refine ⟨a1, fun x => ?_⟩
      rw [a3, b, List.mem_cons]
      exact or_comm

/-! ## Finding words -/

theorem hits_mem {ok : Checks} {t : Tree} {tok : Str} {x : Word × Option Nat × Tree} (h : x ∈ hits ok t tok) :
    fits ok x.1 tok = true ∧ x.1 ∈ heads t ∧ (∀ g, x.2.1 = some g → ([x.1], g) ∈ paths t) ∧
    (∀ y ∈ paths x.2.2, (x.1 :: y.1, y.2) ∈ paths t) := by
  induction t with
  | nil => simp [hits] at h
  | node w f next alt _ iha =>
    have old : x ∈ hits ok alt tok → _ := fun h => by
      obtain ⟨a, b, c, d⟩ := iha h
      exact (⟨a, List.mem_cons_of_mem _ b, fun g hg => List.mem_append_right _ (c g hg),
        fun y hy => List.mem_append_right _ (d y hy)⟩ : fits ok x.1 tok = true ∧ x.1 ∈ heads (.node w f next alt) ∧
          (∀ g, x.2.1 = some g → ([x.1], g) ∈ paths (.node w f next alt)) ∧
          (∀ y ∈ paths x.2.2, (x.1 :: y.1, y.2) ∈ paths (.node w f next alt)))
    unfold hits at h
    split at h
    · rename_i hf
      simp only [List.mem_cons] at h
      rcases h with rfl | h
      · refine ⟨hf, List.mem_cons_self, fun g hg => ?_, fun y hy => ?_⟩
        · simp only at hg; subst hg; simp [paths]
        · simp only [paths, List.mem_append, List.mem_map]
          exact .inl (.inr ⟨y, hy, rfl⟩)
      · exact old h
    · exact old h

theorem find_mem {ok : Checks} {t : Tree} {tok : Str} {x : Word × Option Nat × Tree} (h : find ok t tok = some x) :
    x ∈ hits ok t tok := by
  unfold find at h
  split at h
  · rename_i y hy; simp at h; subst h; rw [hy]; simp
  · simp at h

/-- Words that all say the tokens, or the placeholders of parameters; `ps` are the parameters that are valid. -/
inductive Looks (ok : Checks) : List Word → List Str → List Str → Prop where
  | nil : Looks ok [] [] []
  | key {k : Str} {ws : List Word} {ts ps : List Str} : Looks ok ws ts ps → Looks ok (.key k :: ws) (k :: ts) ps
  | param {p : Param} {t : Str} {ws : List Word} {ts ps : List Str} : ok p t = true → Looks ok ws ts ps →
      Looks ok (.param p :: ws) (t :: ts) (t :: ps)
  | text {p : Param} {ws : List Word} {ts ps : List Str} : ok p p.text = false → Looks ok ws ts ps →
      Looks ok (.param p :: ws) (p.text :: ts) ps

theorem looks_says {ok : Checks} {ws : List Word} {ts ps : List Str} (h : Looks ok ws ts ps) (hn : NoText ts) : Says ok ws ts ps := by
  induction h with
  | nil => exact .nil
  | key _ ih => exact .key (ih fun t ht => hn t (by simp [ht]))
  | param hk _ ih => exact .param hk (ih fun t ht => hn t (by simp [ht]))
  | @text p _ _ _ _ _ _ => exact absurd rfl (hn p.text (by simp) p)

theorem walk_sound {ok : Checks} (toks : List Str) (t : Tree) (last : Option (Word × Option Nat)) (ps : List Str) :
    (walk ok t toks last ps = (last, ps)) ∨
    ∃ ws pre post g w qs, toks = pre ++ post ∧ walk ok t toks last ps = (some (w, g), ps ++ qs) ∧ Looks ok ws pre qs ∧
      (∀ f, g = some f → (ws, f) ∈ paths t) := by
  induction toks generalizing t last ps with
  | nil => left; cases t <;> rfl
  | cons tok toks ih =>
    cases t with
    | nil => left; rfl
    | node w f n a =>
      cases hf : find ok (.node w f n a) tok with
      | none => left; simp only [walk, hf]
      | some x =>
        right
        obtain ⟨v, g, next⟩ := x
        obtain ⟨h1, h2, h3, h4⟩ := hits_mem (find_mem hf)
        simp only at h1 h2 h3 h4
        cases v with
        | key k =>
          have hk : k = tok := by simpa [fits] using h1
          subst hk
          simp only [walk, hf]
          rcases ih next (some (.key k, g)) ps with h | ⟨ws, pre, post, g', w', qs, e1, e2, e3, e4⟩
          · exact ⟨[.key k], [k], toks, g, .key k, [], rfl, by rw [h]; simp, .key .nil, h3⟩
          · exact ⟨.key k :: ws, k :: pre, post, g', w', qs, by rw [e1]; rfl, e2, .key e3, fun f hf => h4 _ (e4 f hf)⟩
        | param p =>
          simp only [walk, hf]
          by_cases hok : ok p tok = true
          · simp only [hok, if_true]
            rcases ih next (some (.param p, g)) (ps ++ [tok]) with h | ⟨ws, pre, post, g', w', qs, e1, e2, e3, e4⟩
            · exact ⟨[.param p], [tok], toks, g, .param p, [tok], rfl, by rw [h], .param hok .nil, h3⟩
            · exact ⟨.param p :: ws, tok :: pre, post, g', w', tok :: qs, by rw [e1]; rfl, by rw [e2]; simp, .param hok e3,
                fun f hf => h4 _ (e4 f hf)⟩
          · have ht : p.text = tok := by
              simp only [fits, Bool.or_eq_true, beq_iff_eq] at h1
              rcases h1 with h | h
              · exact h
              · exact absurd h hok
            subst ht
            have hok' : ok p p.text = false := by simpa using hok
            simp only [hok', Bool.false_eq_true, if_false]
            rcases ih next (some (.param p, g)) ps with h | ⟨ws, pre, post, g', w', qs, e1, e2, e3, e4⟩
            · exact ⟨[.param p], [p.text], toks, g, .param p, [], rfl, by rw [h]; simp, .text hok' .nil, h3⟩
            · exact ⟨.param p :: ws, p.text :: pre, post, g', w', qs, by rw [e1]; rfl, e2, .text hok' e3,
                fun f hf => h4 _ (e4 f hf)⟩

/-- **C228**: a function that is called is that of a command whose words the line begins with, each keyword as it is, each
parameter valid, if no token is the placeholder of a parameter; and it gets just these parameters, in their order. -/
theorem called_partial {ok : Checks} {cs : List (List Word × Nat)} {t : Tree} (hne : ∀ c ∈ cs, c.1 ≠ []) (hb : build cs = some t)
    {toks : List Str} (hn : NoText toks) {f : Nat} {ps : List Str} (h : exec ok t toks = some (f, ps)) :
    ∃ ws pre post, (ws, f) ∈ cs ∧ toks = pre ++ post ∧ Says ok ws pre ps := by
  obtain ⟨_, hp⟩ := build_spec hne hb
  unfold exec at h
  rcases walk_sound (ok := ok) toks t none [] with hw | ⟨ws, pre, post, g, w, qs, e1, e2, e3, e4⟩
  · rw [hw] at h; simp at h
  · rw [e2] at h
    cases g with
    | none => simp at h
    | some g =>
      simp only [List.nil_append, Option.some.injEq, Prod.mk.injEq] at h
      obtain ⟨rfl, rfl⟩ := h
      exact ⟨ws, pre, post, (hp _).mp (e4 g rfl), e1, looks_says e3 fun t ht => hn t (by rw [e1]; simp [ht])⟩

/-! ## Every command is found -/

theorem hits_none {ok : Checks} {t : Tree} {tok : Str} (h : ∀ w ∈ heads t, fits ok w tok = false) : hits ok t tok = [] := by
  induction t with
  | nil => rfl
  | node w f next alt _ iha =>
    unfold hits
    rw [if_neg (by rw [h w (by simp [heads])]; simp)]
    exact iha fun v hv => h v (by simp [heads, hv])

theorem nil_not_path (t : Tree) (f : Nat) : ([], f) ∉ paths t := by
  induction t with
  | nil => simp [paths]
  | node a b c d _ ihd =>
    intro h
    simp only [paths, List.mem_append, List.mem_map] at h
    rcases h with (h | ⟨y, _, h⟩) | h
    · cases b <;> simp at h
    · simp at h
    · exact ihd h

theorem heads_path {t : Tree} (hw : Wf t) {w : Word} (h : w ∈ heads t) : ∃ r f, (w :: r, f) ∈ paths t := by
  induction t generalizing w with
  | nil => simp [heads] at h
  | node v g next alt ihn iha =>
    obtain ⟨_, h2, h3, h4⟩ := hw
    simp only [heads, List.mem_cons] at h
    rcases h with rfl | h
    · cases g with
      | some g => exact ⟨[], g, by simp [paths]⟩
      | none =>
        have : ∃ u, u ∈ heads next := by
          cases hn : next with
          | nil => exact absurd hn (h4 rfl)
          | node u _ _ _ => exact ⟨u, by simp [heads]⟩
        obtain ⟨u, hu⟩ := this
        obtain ⟨r, f, hr⟩ := ihn h2 hu
        exact ⟨u :: r, f, by simp only [paths, List.mem_append, List.mem_map]; exact .inl (.inr ⟨_, hr, rfl⟩)⟩
    · obtain ⟨r, f, hr⟩ := iha h3 h
      exact ⟨r, f, List.mem_append_right _ hr⟩

theorem path_head {t : Tree} {w : Word} {r : List Word} {f : Nat} (h : (w :: r, f) ∈ paths t) : w ∈ heads t := by
  induction t with
  | nil => simp [paths] at h
  | node v g next alt _ iha =>
    simp only [paths, List.mem_append, List.mem_map] at h
    rcases h with (h | ⟨y, _, h⟩) | h
    · cases g <;> simp at h; simp [heads, h.1.1]
    · simp at h; simp [heads, h.1.1]
    · simp [heads, iha h]

/-- The alternative with a given word, if it is the only one that fits. -/
theorem find_only {ok : Checks} {t : Tree} (hw : Wf t) {tok : Str} {w : Word} (hh : w ∈ heads t) (hf : fits ok w tok = true)
    (ho : ∀ v ∈ heads t, v ≠ w → fits ok v tok = false) :
    ∃ g next, find ok t tok = some (w, g, next) ∧ Wf next ∧
      (∀ f, (([w], f) ∈ paths t ↔ g = some f)) ∧ (∀ u r f, (w :: u :: r, f) ∈ paths t ↔ (u :: r, f) ∈ paths next) := by
  have key : ∃ g next, hits ok t tok = [(w, g, next)] ∧ Wf next ∧
      (∀ f, (([w], f) ∈ paths t ↔ g = some f)) ∧ (∀ u r f, (w :: u :: r, f) ∈ paths t ↔ (u :: r, f) ∈ paths next) := by
    induction t with
    | nil => simp [heads] at hh
    | node v g next alt _ iha =>
      obtain ⟨h1, h2, h3, h4⟩ := hw
      by_cases hv : v = w
      · subst hv
        refine ⟨g, next, ?_, h2, fun f => ?_, fun u r f => ?_⟩
        · unfold hits
          rw [if_pos hf, hits_none fun u hu => ho u (by simp [heads, hu]) (fun h => h1 (h ▸ hu))]
        · simp only [paths, List.mem_append, List.mem_map]
          constructor
          · rintro ((h | ⟨y, hy, h⟩) | h)
            · cases g <;> simp at h; rw [h]
            · simp only [Prod.mk.injEq, List.cons.injEq, true_and] at h
              obtain ⟨y1, y2⟩ := y
              simp only at h
              obtain ⟨rfl, rfl⟩ := h
              exact absurd hy (nil_not_path _ _)
            · exact absurd (path_head h) h1
          · rintro rfl; simp
        · simp only [paths, List.mem_append, List.mem_map]
          constructor
          · rintro ((h | ⟨y, hy, h⟩) | h)
            · cases g <;> simp at h
            · simp only [Prod.mk.injEq, List.cons.injEq, true_and] at h
              obtain ⟨y1, y2⟩ := y
              simp only at h
              obtain ⟨rfl, rfl⟩ := h
              exact hy
            · exact absurd (path_head h) h1
          · intro h; exact .inl (.inr ⟨_, h, rfl⟩)
      · have hh' : w ∈ heads alt := by
          simp only [heads, List.mem_cons] at hh
          rcases hh with h | h
          · exact absurd h.symm hv
          · exact h
        obtain ⟨g', n', e1, e2, e3, e4⟩ := iha h3 hh' fun u hu hne => ho u (by simp [heads, hu]) hne
        have hnot : ∀ r f, (w :: r, f) ∈ paths (.node v g next alt) ↔ (w :: r, f) ∈ paths alt := by
          intro r f
          simp only [paths, List.mem_append, List.mem_map]
          constructor
          · rintro ((h | ⟨y, _, h⟩) | h)
            · cases g <;> simp at h; exact absurd h.1.1.symm hv
            · simp at h; exact absurd h.1.1 hv
            · exact h
          · exact .inr
        refine ⟨g', n', ?_, e2, fun f => by rw [hnot, e3], fun u r f => by rw [hnot, e4]⟩
        unfold hits
        rw [if_neg (by rw [ho v (by simp [heads]) hv]; simp)]
        exact e1
  obtain ⟨g, next, e1, e2, e3, e4⟩ := key
  exact ⟨g, next, by unfold find; rw [e1], e2, e3, e4⟩

/-- The parameter a token is taken for. -/
def taken (ok : Checks) : Word → Str → List Str
  | .key _, _ => []
  | .param p, tok => if ok p tok then [tok] else []

theorem walk_complete {ok : Checks} (ws : List Word) {ts ps : List Str} (hs : Says ok ws ts ps) (t : Tree) (hw : Wf t) {f : Nat}
    (hm : (ws, f) ∈ paths t) (ho : Only ok (paths t) ws ts) (rest : List Str)
    (hr : ∀ r g, r ≠ [] → (ws ++ r, g) ∉ paths t) (last : Option (Word × Option Nat)) (qs : List Str) :
    ∃ w, walk ok t (ts ++ rest) last qs = (some (w, some f), qs ++ ps) := by
  induction ws generalizing ts ps t last qs with
  | nil =>
    exact absurd hm (nil_not_path _ _)
  | cons w ws ih =>
    obtain ⟨tok, ts', ps', hts, hfit, hs', hps⟩ : ∃ tok ts' ps', ts = tok :: ts' ∧ fits ok w tok = true ∧ Says ok ws ts' ps' ∧
        ps = taken ok w tok ++ ps' := by
      cases hs with
      | @key k _ ts ps h => exact ⟨_, _, _, rfl, by simp [fits], h, rfl⟩
      | @param p t _ ts ps hk h => exact ⟨_, _, _, rfl, by simp [fits, hk], h, by simp [taken, hk]⟩
    subst hts
    have hh := path_head hm
    have honly : ∀ v ∈ heads t, v ≠ w → fits ok v tok = false := by
      intro v hv hne
      obtain ⟨r, g, hp⟩ := heads_path hw hv
      exact ho _ hp [] w v ws r rfl rfl (fun h => hne h.symm) tok rfl
    obtain ⟨g, next, e1, e2, e3, e4⟩ := find_only hw hh hfit honly
    have hstep : walk ok t (tok :: (ts' ++ rest)) last qs = walk ok next (ts' ++ rest) (some (w, g)) (qs ++ taken ok w tok) := by
      cases t with
      | nil => simp [heads] at hh
      | node a b c d =>
        simp only [walk, e1]
        cases w with
        | key k => simp [taken]
        | param p => simp only [taken]; split <;> simp
    show ∃ v, walk ok t (tok :: (ts' ++ rest)) last qs = _
    rw [hstep, hps, ← List.append_assoc]
    cases ws with
    | nil =>
      have hg : g = some f := (e3 f).mp hm
      subst hg
      cases hs' with
      | nil =>
        have hnil : next = .nil := by
          cases hnx : next with
          | nil => rfl
          | node a b c d =>
            obtain ⟨r, g', hp⟩ := heads_path (t := next) e2 (w := a) (by rw [hnx]; simp [heads])
            exact absurd ((e4 _ _ _).mpr hp) (hr (a :: r) g' (by simp))
        rw [hnil]
        exact ⟨w, by simp [walk]⟩
    | cons u us =>
      have hm' := (e4 u us f).mp hm
      obtain ⟨v, hv⟩ := ih hs' next e2 hm' (by
        intro c hc pre x x' r r' h1 h2 hne tk htk
        cases hc1 : c.1 with
        | nil => rw [hc1] at h2; cases pre <;> simp at h2
        | cons y ys =>
          refine ho (w :: c.1, c.2) ?_ (w :: pre) x x' r r' (by rw [h1]; rfl) (by simp [h2]) hne tk (by simpa using htk)
          rw [hc1]
          exact (e4 y ys c.2).mpr (by rw [← hc1]; exact hc)) (by
        intro r g' hne hmem
        exact hr r g' hne ((e4 _ _ _).mpr hmem)) (some (w, g)) _
      exact ⟨v, hv⟩

/-- **C228**: a line that says the words of a command that no other begins with, and that fits no other, calls its function, with
the parameters — **whatever follows on the line**. -/
theorem found_exact {ok : Checks} {cs : List (List Word × Nat)} {t : Tree} (hne : ∀ c ∈ cs, c.1 ≠ []) (hb : build cs = some t)
    {ws : List Word} {f : Nat} (hm : (ws, f) ∈ cs) {ts ps : List Str} (hs : Says ok ws ts ps) (ho : Only ok cs ws ts)
    (hr : ∀ r g, r ≠ [] → (ws ++ r, g) ∉ cs) : exec ok t ts = some (f, ps) := by
  obtain ⟨hw, hp⟩ := build_spec hne hb
  obtain ⟨w, h⟩ := walk_complete ws hs t hw ((hp _).mpr hm) (fun c hc => ho c ((hp c).mp hc)) []
    (fun r g h1 h2 => hr r g h1 ((hp _).mp h2)) none []
  rw [List.append_nil] at h
  unfold exec
  rw [h]
  rfl

/-- **C228, violated**: the same function is called with the same parameters if more follows on the line, whatever it is. -/
theorem trailing_violated {ok : Checks} {cs : List (List Word × Nat)} {t : Tree} (hne : ∀ c ∈ cs, c.1 ≠ []) (hb : build cs = some t)
    {ws : List Word} {f : Nat} (hm : (ws, f) ∈ cs) {ts ps : List Str} (hs : Says ok ws ts ps) (ho : Only ok cs ws ts)
    (hr : ∀ r g, r ≠ [] → (ws ++ r, g) ∉ cs) (rest : List Str) : exec ok t (ts ++ rest) = some (f, ps) := by
  obtain ⟨hw, hp⟩ := build_spec hne hb
  obtain ⟨w, h⟩ := walk_complete ws hs t hw ((hp _).mpr hm) (fun c hc => ho c ((hp c).mp hc)) rest
    (fun r g h1 h2 => hr r g h1 ((hp _).mp h2)) none []
  unfold exec
  rw [h]
  rfl

end Verif.Cli

import Verif.Cli.More
import Mathlib.Data.List.Perm.Subperm
import Mathlib.Data.List.Nodup
/-!
# Aliases of the command line (`src/cli/ofp_cli_alias.c`, `src/cli/ofp_cli.c`)
-/
namespace Verif.Cli

/-- The commands, `alias_table` up to the first free entry (src/cli/ofp_cli_alias.c:16), `run_alias` (src/cli/ofp_cli.c:82). -/
structure Sh where
  tree : Tree
  tab : List (Str × Str)
  pend : Option Nat

/-- The name in what `f_alias_set` gets (src/cli/ofp_cli_alias.c:26-29). -/
def nameOf (s : Str) : Str := s.takeWhile (fun c => !(c == ' '))

/-- The command in it; `none`: NULL (src/cli/ofp_cli_alias.c:31-37). -/
def cmdOf (s : Str) : Option Str :=
  let r := (s.dropWhile (fun c => !(c == ' '))).dropWhile (fun c => c == ' ')
  if r = [] then none else some r

/-- The entry that is taken: the first that the name is the beginning of, or a free one of 16 (src/cli/ofp_cli_alias.c:39-53). -/
def slot (tab : List (Str × Str)) (n : Str) : Option Nat :=
  match tab.findIdx? (fun a => n.isPrefixOf a.1) with
  | some i => some i
  | none => if tab.length < 16 then some tab.length else none

/-- `f_alias_set` (src/cli/ofp_cli_alias.c:18-57) with the parameters of a line; `none`: the program is stopped, by `strdup` of
NULL or by `add_command`. -/
def aliasSet (s : Sh) (ps : List Str) : Option Sh :=
  let a := paramlist ps
  match slot s.tab (nameOf a) with
  | none => some s
  | some i =>
    match cmdOf a with
    | none => none
    | some c =>
      match s.tab[i]? with
      | some x => some { s with tab := s.tab.set i (x.1, c) }
      | none => (add s.tree [.key (nameOf a)] 0).map fun t => { s with tree := t, tab := s.tab ++ [(nameOf a, c)] }

/-- `f_run_alias` (src/cli/ofp_cli.c:1175-1190): the first entry whose name the line begins with. -/
def aliasRun (s : Sh) (line : Str) : Sh :=
  match s.tab.findIdx? (fun a => a.1.isPrefixOf line) with
  | some i => { s with pend := some i }
  | none => s

/-- `parse` of a line: what becomes of the aliases, and the other functions that are called.  Function 0 is `f_run_alias`, 1 is
`f_alias_set` (src/cli/ofp_cli.c:965-967, :1192-1200, :1438-1441). -/
def parse1 (ok : Checks) (s : Sh) (line : Str) : Option (Sh × List (Nat × List Str)) :=
  match exec ok s.tree (tokens line) with
  | none => some (s, [])
  | some (0, _) => some (aliasRun s line, [])
  | some (1, ps) => (aliasSet s ps).map fun s => (s, [])
  | some (f, ps) => some (s, [(f, ps)])

/-- A line that is not empty, carried out (src/cli/ofp_cli.c:1637-1644). -/
def line1 (ok : Checks) (s : Sh) (line : Str) : Option (Sh × List (Nat × List Str)) :=
  match parse1 ok s line with
  | none => none
  | some (s1, cs) =>
    match s1.pend with
    | none => some (s1, cs)
    | some i =>
      match s1.tab[i]? with
      | none => none
      | some x => (parse1 ok { s1 with pend := none } x.2).map fun r => (r.1, cs ++ r.2)

/-- Aliases set, the last one first. -/
def setAll (s0 : Sh) : List (Str × Str) → Option Sh
  | [] => some s0
  | x :: l => (setAll s0 l).bind fun s => aliasSet s [x.1, x.2]

/-! ## What is set -/

theorem isPre_self (n : Str) : n.isPrefixOf n = true := by rw [List.isPrefixOf_iff_prefix]; exact List.prefix_refl n

theorem args {n c : Str} (hn : ∀ x ∈ n, x ≠ ' ') (hc : c ≠ []) (hc' : c.head? ≠ some ' ') :
    nameOf (paramlist [n, c]) = n ∧ cmdOf (paramlist [n, c]) = some (c ++ [' ']) := by
  have e : paramlist [n, c] = n ++ (' ' :: (c ++ [' '])) := by simp [paramlist]
  have ht := takeWhile_all (p := fun c => !(c == ' ')) (a := n) (fun x hx => by simp [hn x hx]) (' ' :: (c ++ [' ']))
    (by intro x hx; simp at hx; subst hx; decide)
  constructor
  · unfold nameOf; rw [e]; exact ht.1
  · unfold cmdOf
    rw [e, ht.2]
    cases c with
    | nil => exact absurd rfl hc
    | cons d c =>
      have hd : d ≠ ' ' := by intro h; exact hc' (by simp [h])
      have : (' ' :: (d :: c ++ [' '])).dropWhile (fun c => c == ' ') = d :: c ++ [' '] := by
        rw [List.dropWhile_cons_of_pos (by decide)]
        exact List.dropWhile_cons_of_neg (by simp [hd])
      simp only [this]
      rw [if_neg (by simp)]

/-- **C240, violated**: setting an alias to nothing (`alias set x ""`) stops the program, unless the table is full. -/
theorem empty_violated {s : Sh} {n : Str} (hn : ∀ x ∈ n, x ≠ ' ') (h : s.tab.length < 16) : aliasSet s [n, []] = none := by
  have e : paramlist [n, []] = n ++ [' ', ' '] := by simp [paramlist]
  have ht := takeWhile_all (p := fun c => !(c == ' ')) (a := n) (fun x hx => by simp [hn x hx]) [' ', ' ']
    (by intro x hx; simp at hx; subst hx; decide)
  have h1 : nameOf (paramlist [n, []]) = n := by unfold nameOf; rw [e]; exact ht.1
  have h2 : cmdOf (paramlist [n, []]) = none := by unfold cmdOf; rw [e, ht.2]; rfl
  unfold aliasSet
  simp only [h1, h2]
  have : ∃ i, slot s.tab n = some i := by
    unfold slot
    split
    · exact ⟨_, rfl⟩
    · rw [if_pos h]; exact ⟨_, rfl⟩
  obtain ⟨i, hi⟩ := this
  rw [hi]

/-- Names and commands that may be set: words that are no command and fit no parameter a command begins with; none the beginning of
another; at most 16. -/
structure Fair (ok : Checks) (cs : List (List Word × Nat)) (sets : List (Str × Str)) : Prop where
  word : ∀ a ∈ sets, a.1 ≠ [] ∧ ∀ x ∈ a.1, blank x = false
  cmd : ∀ a ∈ sets, a.2 ≠ [] ∧ a.2.head? ≠ some ' '
  free : ∀ a ∈ sets, ∀ c ∈ cs, ∀ w, c.1.head? = some w → fits ok w a.1 = false
  apart : ∀ a ∈ sets, ∀ b ∈ sets, a.1.isPrefixOf b.1 = true → a.1 = b.1
  few : ∃ ns : List Str, ns.length ≤ 16 ∧ ∀ a ∈ sets, a.1 ∈ ns

theorem Fair.tail {ok : Checks} {cs : List (List Word × Nat)} {a : Str × Str} {l : List (Str × Str)} (h : Fair ok cs (a :: l)) :
    Fair ok cs l :=
  ⟨fun b hb => h.word b (.tail _ hb), fun b hb => h.cmd b (.tail _ hb), fun b hb => h.free b (.tail _ hb),
    fun b hb c hc => h.apart b (.tail _ hb) c (.tail _ hc), by
      obtain ⟨ns, h1, h2⟩ := h.few; exact ⟨ns, h1, fun b hb => h2 b (.tail _ hb)⟩⟩

/-- What holds after aliases have been set. -/
structure Set (cs : List (List Word × Nat)) (sets : List (Str × Str)) (s : Sh) : Prop where
  tree : ∃ as, build (as ++ cs) = some s.tree ∧ ∀ x, x ∈ as ↔ ∃ a ∈ s.tab, x = ([.key a.1], 0)
  names : (s.tab.map Prod.fst).Nodup
  last : ∀ n d, (n, d) ∈ s.tab ↔ ∃ c, sets.lookup n = some c ∧ d = c ++ [' ']
  pend : s.pend = none

theorem lookup_mem {l : List (Str × Str)} {n c : Str} (h : l.lookup n = some c) : (n, c) ∈ l := by
  induction l with
  | nil => simp at h
  | cons a l ih =>
    obtain ⟨m, d⟩ := a
    rw [List.lookup_cons] at h
    by_cases e : n = m
    · subst e; simp at h; subst h; simp
    · have : (n == m) = false := by simpa using e
      rw [this] at h
      exact .tail _ (ih h)

theorem set_step {ok : Checks} {cs : List (List Word × Nat)} (hne : ∀ c ∈ cs, c.1 ≠ []) {n c : Str} {l : List (Str × Str)} {s : Sh}
    (hf : Fair ok cs ((n, c) :: l)) (h : Set cs l s) : ∃ s', aliasSet s [n, c] = some s' ∧ Set cs ((n, c) :: l) s' := by
  obtain ⟨⟨as, hb, has⟩, hnd, hlast, hp⟩ := h
  have hw := hf.word (n, c) List.mem_cons_self
  have hcm := hf.cmd (n, c) List.mem_cons_self
  simp only at hw hcm
  have hblank : ∀ x ∈ n, x ≠ ' ' := by
    intro x hx e
    have := hw.2 x hx
    subst e
    exact absurd this (by decide)
  obtain ⟨e1, e2⟩ := args hblank hcm.1 hcm.2
  have hin : ∀ a ∈ s.tab, ∃ c', (a.1, c') ∈ l := by
    intro a ha
    obtain ⟨c', hc', _⟩ := (hlast a.1 a.2).mp ha
    exact ⟨c', lookup_mem hc'⟩
  have hlk : ∀ m, ((n, c) :: l).lookup m = if m = n then some c else l.lookup m := by
    intro m
    rw [List.lookup_cons]
    by_cases e : m = n
    · simp [e]
    · have : (m == n) = false := by simpa using e
      rw [this, if_neg e]
  unfold aliasSet
  simp only [e1, e2]
  cases hfi : s.tab.findIdx? (fun a => n.isPrefixOf a.1) with
  | some i =>
    have hs : slot s.tab n = some i := by unfold slot; rw [hfi]
    rw [hs]
    rw [List.findIdx?_eq_some_iff_getElem] at hfi
    obtain ⟨hi, hpre, _⟩ := hfi
    obtain ⟨c', hc'⟩ := hin s.tab[i] (List.getElem_mem hi)
    have hnm : n = s.tab[i].1 := hf.apart (n, c) List.mem_cons_self (s.tab[i].1, c') (.tail _ hc') hpre
    simp only [List.getElem?_eq_getElem hi]
    have hmap : (s.tab.set i (s.tab[i].1, c ++ [' '])).map Prod.fst = s.tab.map Prod.fst := by
      rw [List.map_set]
      have : (s.tab[i].1, c ++ [' ']).1 = (s.tab.map Prod.fst)[i]'(by simpa using hi) := by simp
      rw [this, List.set_getElem_self]
    refine ⟨_, rfl, ⟨as, hb, ?_⟩, ?_, ?_, hp⟩
    · intro x
      rw [has]
      have hm : ∀ (t : List (Str × Str)), (∃ a ∈ t, x = ([Word.key a.1], 0)) ↔ ∃ m ∈ t.map Prod.fst, x = ([Word.key m], 0) := by
        intro t; simp
      rw [hm, hm, hmap]
    · simp only; rw [hmap]; exact hnd
    · intro m d
      rw [hlk]
      simp only
      have hidx : ∀ j (hj : j < s.tab.length), s.tab[j].1 = n → j = i := by
        intro j hj he
        have := (List.Nodup.getElem_inj_iff hnd (i := j) (j := i) (hi := by simpa using hj) (hj := by simpa using hi)).mp (by
          simp; rw [he, hnm])
        exact this
      by_cases hmn : m = n
      · rw [if_pos hmn]
        subst hmn
        rw [List.mem_iff_getElem?]
        constructor
        · rintro ⟨j, hj⟩
          rw [List.getElem?_set] at hj
          by_cases hij : i = j
          · rw [if_pos hij, if_pos (by omega)] at hj
            simp at hj
            exact ⟨c, rfl, hj.2.symm⟩
          · rw [if_neg hij] at hj
            obtain ⟨hj1, hj2⟩ := List.getElem?_eq_some_iff.mp hj
            exact absurd (hidx j hj1 (by rw [hj2])).symm hij
        · rintro ⟨c0, h0, rfl⟩
          simp at h0
          subst h0
          exact ⟨i, by rw [List.getElem?_set, if_pos rfl, if_pos hi, ← hnm]⟩
      · rw [if_neg hmn, ← hlast, List.mem_iff_getElem?, List.mem_iff_getElem?]
        have : ∀ j : Nat, (s.tab.set i (s.tab[i].1, c ++ [' ']))[j]? = some (m, d) ↔ s.tab[j]? = some (m, d) := by
          intro j
          rw [List.getElem?_set]
          by_cases hij : i = j
          · subst hij
            rw [if_pos rfl, if_pos hi, List.getElem?_eq_getElem hi]
            constructor
            · intro h; simp at h; rw [← hnm] at h; exact absurd h.1.symm hmn
            · intro h; simp at h; rw [h] at hnm; exact absurd hnm.symm hmn
          · rw [if_neg hij]
        exact ⟨fun ⟨j, hj⟩ => ⟨j, (this j).mp hj⟩, fun ⟨j, hj⟩ => ⟨j, (this j).mpr hj⟩⟩
  | none =>
    rw [List.findIdx?_eq_none_iff] at hfi
    have hnew : ∀ a ∈ s.tab, a.1 ≠ n := by
      intro a ha e
      have := hfi a ha
      rw [e, isPre_self] at this
      simp at this
    have hlen : s.tab.length < 16 := by
      obtain ⟨ns, h16, hns⟩ := hf.few
      have hnd' : (n :: s.tab.map Prod.fst).Nodup := by
        rw [List.nodup_cons]
        refine ⟨?_, hnd⟩
        simp only [List.mem_map, not_exists, not_and]
        exact fun a ha => hnew a ha
      have hsub : (n :: s.tab.map Prod.fst) ⊆ ns := by
        intro m hm
        simp only [List.mem_cons, List.mem_map] at hm
        rcases hm with rfl | ⟨a, ha, rfl⟩
        · exact hns (m, c) List.mem_cons_self
        · obtain ⟨c', hc'⟩ := hin a ha
          exact hns (a.1, c') (.tail _ hc')
      have := (hnd'.subperm hsub).length_le
      simp at this
      omega
    have hs : slot s.tab n = some s.tab.length := by
      unfold slot
      rw [List.findIdx?_eq_none_iff.mpr hfi]
      simp only
      rw [if_pos hlen]
    rw [hs]
    simp only [List.getElem?_length]
    have hne' : ∀ x ∈ as ++ cs, x.1 ≠ [] := by
      intro x hx
      simp only [List.mem_append] at hx
      rcases hx with hx | hx
      · obtain ⟨a, _, rfl⟩ := (has x).mp hx; simp
      · exact hne x hx
    obtain ⟨t', ht'⟩ := add_partial hne' hb (ws := [.key n]) (by simp) 0 (by
      intro r g hm
      simp only [List.mem_append] at hm
      rcases hm with hm | hm
      · obtain ⟨a, ha, e⟩ := (has _).mp hm
        simp at e
        exact hnew a ha e.1.1.symm
      · have := hf.free (n, c) List.mem_cons_self _ hm (.key n) rfl
        simp [fits] at this)
    have hadd : add s.tree [.key n] 0 = some t' := by
      simpa only [build, hb] using ht'
    rw [hadd]
    refine ⟨_, rfl, ⟨([.key n], 0) :: as, ht', ?_⟩, ?_, ?_, hp⟩
    · intro x
      simp only [List.mem_cons, has, List.mem_append, List.not_mem_nil, or_false]
      constructor
      · rintro (rfl | ⟨a, ha, rfl⟩)
        · exact ⟨(n, c ++ [' ']), .inr rfl, rfl⟩
        · exact ⟨a, .inl ha, rfl⟩
      · rintro ⟨a, ha | rfl, rfl⟩
        · exact .inr ⟨a, ha, rfl⟩
        · exact .inl rfl
    · simp only [List.map_append, List.map_cons, List.map_nil]
      rw [List.nodup_append]
      refine ⟨hnd, by simp, ?_⟩
      intro a ha b hb'
      simp only [List.mem_map, List.mem_singleton] at ha hb'
      obtain ⟨x, hx, rfl⟩ := ha
      subst hb'
      exact hnew x hx
    · intro m d
      rw [hlk]
      simp only [List.mem_append, List.mem_singleton, Prod.mk.injEq]
      by_cases hmn : m = n
      · subst hmn
        rw [if_pos rfl]
        constructor
        · rintro (h | ⟨_, rfl⟩)
          · exact absurd rfl (hnew _ h)
          · exact ⟨c, rfl, rfl⟩
        · rintro ⟨c0, h0, rfl⟩
          simp at h0; subst h0
          exact .inr ⟨rfl, rfl⟩
      · rw [if_neg hmn, ← hlast]
        constructor
        · rintro (h | ⟨h, _⟩)
          · exact h
          · exact absurd h hmn
        · exact .inl

theorem tokens_word {a : Str} (ha : a ≠ []) (h : ∀ c ∈ a, blank c = false) : tokens a = [a] := by
  simpa using tokens_blanks 0 ha h

/-- **C238**: after any number of aliases have been set, none named like the beginning of another, the name of one carries out
the command it was set to last, and nothing else. -/
theorem alias_partial {ok : Checks} {cs : List (List Word × Nat)} {t : Tree} (hne : ∀ c ∈ cs, c.1 ≠ []) (hb : build cs = some t)
    {sets : List (Str × Str)} (hf : Fair ok cs sets) :
    ∃ s, setAll ⟨t, [], none⟩ sets = some s ∧ s.pend = none ∧
      ∀ n c, sets.lookup n = some c → line1 ok s n = parse1 ok s (c ++ [' ']) := by
  have key : ∃ s, setAll ⟨t, [], none⟩ sets = some s ∧ Set cs sets s := by
    induction sets with
    | nil => exact ⟨_, rfl, ⟨[], by simpa using hb, by simp⟩, by simp, by simp, rfl⟩
    | cons a l ih =>
      obtain ⟨s, h1, h2⟩ := ih hf.tail
      obtain ⟨s', h3, h4⟩ := set_step hne (n := a.1) (c := a.2) hf h2
      exact ⟨s', by unfold setAll; rw [h1]; exact h3, h4⟩
  obtain ⟨s, h1, ⟨as, hb', has⟩, hnd, hlast, hp⟩ := key
  refine ⟨s, h1, hp, fun n c hc => ?_⟩
  have hmem := lookup_mem hc
  have hw := hf.word _ hmem
  simp only at hw
  have htab : (n, c ++ [' ']) ∈ s.tab := (hlast _ _).mpr ⟨c, hc, rfl⟩
  have hne' : ∀ x ∈ as ++ cs, x.1 ≠ [] := by
    intro x hx
    simp only [List.mem_append] at hx
    rcases hx with hx | hx
    · obtain ⟨a, _, rfl⟩ := (has x).mp hx; simp
    · exact hne x hx
  have hexec : exec ok s.tree (tokens n) = some (0, []) := by
    rw [tokens_word hw.1 hw.2]
    refine found_exact hne' hb' (ws := [.key n]) (f := 0) (ts := [n]) (ps := []) ?_ (.key .nil) ?_ ?_
    · simp only [List.mem_append]; exact .inl ((has _).mpr ⟨_, htab, rfl⟩)
    · intro x hx pre w w' r r' e1 e2 hne0 tk htk
      cases pre with
      | cons y pre => simp at e1
      | nil =>
        simp at e1 htk
        obtain ⟨rfl, _⟩ := e1
        subst htk
        simp only [List.mem_append] at hx
        rcases hx with hx | hx
        · obtain ⟨a, _, rfl⟩ := (has x).mp hx
          simp at e2
          obtain ⟨rfl, _⟩ := e2
          simp only [fits, beq_eq_false_iff_ne, ne_eq]
          intro e; exact hne0 (by rw [e])
        · exact hf.free _ hmem x hx w' (by rw [e2]; rfl)
    · intro r g hr hm
      simp only [List.mem_append] at hm
      rcases hm with hm | hm
      · obtain ⟨a, _, e⟩ := (has _).mp hm
        simp at e; exact hr e.1.2
      · have := hf.free _ hmem _ hm (.key n) rfl
        simp [fits] at this
  have hrun : ∃ i x, s.tab.findIdx? (fun a => a.1.isPrefixOf n) = some i ∧ s.tab[i]? = some x ∧ x.2 = c ++ [' '] := by
    cases hfi : s.tab.findIdx? (fun a => a.1.isPrefixOf n) with
    | none =>
      rw [List.findIdx?_eq_none_iff] at hfi
      have := hfi _ htab
      simp only [isPre_self] at this
      simp at this
    | some i =>
      rw [List.findIdx?_eq_some_iff_getElem] at hfi
      obtain ⟨hi, hpre, _⟩ := hfi
      refine ⟨i, s.tab[i], rfl, List.getElem?_eq_getElem hi, ?_⟩
      have hm := List.getElem_mem hi
      obtain ⟨c', hc', e⟩ := (hlast s.tab[i].1 s.tab[i].2).mp hm
      have := hf.apart _ (lookup_mem hc') _ hmem hpre
      simp only at this
      rw [this, hc] at hc'
      simp at hc'
      rw [e, hc']
  obtain ⟨i, x, hi, hx, he⟩ := hrun
  have hp1 : parse1 ok s n = some ({ s with pend := some i }, []) := by
    unfold parse1
    rw [hexec]
    simp only [aliasRun, hi]
  unfold line1
  rw [hp1]
  simp only [hx, he, List.nil_append]
  have hse : { s with pend := none } = s := by cases s; simp only at hp; subst hp; rfl
  rw [hse]
  cases parse1 ok s (c ++ [' ']) <;> rfl

/-! ## What goes wrong -/

/-- **C238, violated**: an alias named like the beginning of one that is there changes that one, and is none itself. -/
theorem set_prefix_violated {s : Sh} {m n d c : Str} (hs : s.tab = [(m, d)]) (hpre : n.isPrefixOf m = true)
    (hn : ∀ x ∈ n, x ≠ ' ') (hc : c ≠ []) (hc' : c.head? ≠ some ' ') :
    aliasSet s [n, c] = some { s with tab := [(m, c ++ [' '])] } := by
  obtain ⟨e1, e2⟩ := args hn hc hc'
  unfold aliasSet
  simp only [e1, e2]
  have : slot s.tab n = some 0 := by unfold slot; rw [hs]; simp [List.findIdx?_cons, hpre]
  rw [this]
  simp [hs]

/-- **C238, violated**: a line that begins with the name of an alias that was set before runs that one, although it says
another. -/
theorem run_prefix_violated {ok : Checks} {s : Sh} {m n d c : Str} {l : List (Str × Str)} (hs : s.tab = (m, d) :: l)
    (_ : (n, c) ∈ l) (hpre : m.isPrefixOf n = true) (hx : exec ok s.tree (tokens n) = some (0, [])) :
    line1 ok s n = parse1 ok { s with pend := none } d := by
  unfold line1 parse1
  rw [hx]
  simp only [aliasRun, hs, List.findIdx?_cons, hpre, if_true, List.getElem?_cons_zero, List.nil_append]
  cases hd : exec ok s.tree (tokens d) with
  | none => rfl
  | some v =>
    obtain ⟨f, ps⟩ := v
    match f with
    | 0 => rfl
    | 1 => simp only; cases aliasSet { tree := s.tree, tab := (m, d) :: l, pend := none } ps <;> rfl
    | f + 2 => rfl

/-- **C239**: if no command of an alias is an alias, or sets one, a line leaves nothing to be carried out by the next. -/
theorem once_partial {ok : Checks} {s : Sh} (hp : s.pend = none) {line : Str} {s' : Sh} {cs : List (Nat × List Str)}
    (h : line1 ok s line = some (s', cs)) (hno : ∀ a ∈ s.tab, ∀ ps, exec ok s.tree (tokens a.2) ≠ some (0, ps)) :
    s'.pend = none := by
  have hset : ∀ (s : Sh) ps s', aliasSet s ps = some s' → s'.pend = s.pend := by
    intro s ps s' h
    unfold aliasSet at h
    simp only at h
    split at h
    · simp at h; subst h; rfl
    · split at h
      · simp at h
      · split at h
        · simp at h; subst h; rfl
        · simp only [Option.map_eq_some_iff] at h
          obtain ⟨t, _, rfl⟩ := h; rfl
  have hpar : ∀ (s : Sh) line s' cs, s.pend = none → (∀ ps, exec ok s.tree (tokens line) ≠ some (0, ps)) →
      parse1 ok s line = some (s', cs) → s'.pend = none := by
    intro s line s' cs hp hn h
    unfold parse1 at h
    split at h
    · simp at h; rw [← h.1]; exact hp
    · rename_i ps he
      exact absurd he (hn ps)
    · simp only [Option.map_eq_some_iff, Prod.mk.injEq] at h
      obtain ⟨s1, h1, rfl, _⟩ := h
      rw [hset _ _ _ h1]; exact hp
    · simp at h; rw [← h.1]; exact hp
  unfold line1 at h
  split at h
  · simp at h
  · rename_i s1 cs1 h1
    split at h
    · rename_i hp1; simp at h; rw [← h.1]; exact hp1
    · rename_i i hp1
      split at h
      · simp at h
      · rename_i x hx
        simp only [Option.map_eq_some_iff, Prod.mk.injEq] at h
        obtain ⟨r, hr, rfl, _⟩ := h
        have h10 : exec ok s.tree (tokens line) = exec ok s.tree (tokens line) := rfl
        have hsame : s1.tab = s.tab ∧ s1.tree = s.tree := by
          by_cases h0 : ∃ ps, exec ok s.tree (tokens line) = some (0, ps)
          · obtain ⟨ps, h0⟩ := h0
            unfold parse1 at h1
            rw [h0] at h1
            simp at h1
            rw [← h1.1]
            unfold aliasRun
            split <;> exact ⟨rfl, rfl⟩
          · have := hpar s line s1 cs1 hp (fun ps h => h0 ⟨ps, h⟩) h1
            rw [this] at hp1; simp at hp1
        refine hpar _ _ _ _ rfl ?_ (by rw [hr])
        intro ps
        simp only
        rw [hsame.2]
        exact hno x (by rw [← hsame.1]; exact List.mem_of_getElem? hx) ps

/-- **C239, violated**: an alias for an alias is not carried out, but the next line then carries it out too, whatever it is. -/
theorem once_violated {ok : Checks} {s : Sh} {x y d : Str} (hs : s.tab = [(y, d), (x, y ++ [' '])]) (hp : s.pend = none)
    (hxy : y.isPrefixOf x = false)
    (h1 : exec ok s.tree (tokens x) = some (0, [])) (h2 : exec ok s.tree (tokens (y ++ [' '])) = some (0, []))
    {f : Nat} {ps : List Str} (h3 : exec ok s.tree (tokens d) = some (f + 2, ps)) {l : Str} (h4 : exec ok s.tree (tokens l) = none) :
    ∃ s', line1 ok s x = some (s', []) ∧ line1 ok s' l = some (s, [(f + 2, ps)]) := by
  have hyy : y.isPrefixOf (y ++ [' ']) = true := by simp
  refine ⟨{ s with pend := some 0 }, ?_, ?_⟩
  · unfold line1 parse1
    rw [h1]
    simp [aliasRun, hs, List.findIdx?_cons, hxy, h2, hyy]
  · unfold line1 parse1
    simp only [h4, hs, List.getElem?_cons_zero, h3]
    cases s
    simp only at hp hs
    subst hp; subst hs
    rfl

/-! ## Cases -/

/-- The checks, commands and aliases of the cases. -/
def sh0 : Option Sh := (build (([.key "alias".toList, .key "set".toList, .param .string, .param .string], 1) :: cs0.map
  fun c => (c.1, c.2 + 10))).bind fun t => some ⟨t, [], none⟩

/-- Lines one after the other: what is called, or that the program is stopped. -/
def runs (ok : Checks) : Sh → List Str → Option (List (Nat × List Str))
  | _, [] => some []
  | s, l :: ls => (line1 ok s l).bind fun r => (runs ok r.1 ls).map (r.2 ++ ·)

example : (sh0.bind fun s => runs ok0 s ["alias set ll \"debug show\"".toList, "ll".toList]) = some [(12, [])] := by decide +kernel

/-- The second alias changes the first. -/
example : (sh0.bind fun s => runs ok0 s ["alias set ll \"debug show\"".toList, "alias set l \"debug\"".toList, "ll".toList]) =
    some [(11, [])] := by decide +kernel

/-- The next line runs the alias. -/
example : (sh0.bind fun s => runs ok0 s ["alias set y debug".toList, "alias set x y".toList, "x".toList, "debug 5".toList]) =
    some [(13, ["5".toList]), (11, [])] := by decide +kernel

/-- Stopped. -/
example : (sh0.bind fun s => runs ok0 s ["alias set y \"\"".toList]) = none := by decide +kernel

/-- The hypotheses of `alias_partial` are met. -/
example : Fair ok0 cs0 [("ll".toList, "debug show".toList), ("x".toList, "debug".toList), ("ll".toList, "debug 5".toList)] := by
  refine ⟨by decide, by decide, ?_, by decide, ⟨["ll".toList, "x".toList], by decide, by decide⟩⟩
  intro a ha c hc w hw
  have : ∀ a ∈ [("ll".toList, "debug show".toList), ("x".toList, "debug".toList), ("ll".toList, "debug 5".toList)], ∀ c ∈ cs0,
      (c.1.head?.all fun w => !(fits ok0 w a.1)) = true := by decide
  have := this a ha c hc
  rw [hw] at this
  simpa using this

end Verif.Cli

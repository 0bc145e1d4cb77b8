import Verif.Cli.Add
import Mathlib.Data.List.Induction
/-!
# Model of the line editor of the command line (`src/cli/ofp_cli.c`), and its properties
-/
namespace Verif.Cli

/-- What is being waited for: nothing; two more bytes, one more, or the size of the display after the telnet byte 255; two more
bytes, or one, after escape (status bits, src/cli/ofp_cli.c:69-78; `num_dsp_chars`, :1527). -/
inductive Mode where
  | normal | tel1 | tel2 (a : Nat) | size (n : Nat) | esc1 | esc2 (a : Nat)
deriving DecidableEq, Repr

/-- `struct cli_conn`, in part (include/ofpi_cli.h:19-32).  `line` is `inbuf` up to the zero; `pos` is its length.  `bad`: memory
behind a string was read. -/
structure Conn where
  line : Str
  old : Nat → Str
  put : Nat
  get : Nat
  mode : Mode
  closed : Bool
  bad : Bool

/-- A new connection (`cli_sa_accept`, src/cli/ofp_cli.c:1674-1684). -/
def Conn.new : Conn := ⟨[], fun _ => [], 0, 0, .normal, false, false⟩

/-- The loop of `parse` once more (src/cli/ofp_cli.c:1399-1424): what may follow, the last word found and its token, the tokens
that are left. -/
def trail (ok : Checks) : Tree → List Str → Option (Word × Str) → Tree × Option (Word × Str) × List Str
  | .nil, ts, last => (.nil, last, ts)
  | .node w f n a, [], last => (.node w f n a, last, [])
  | .node w f n a, tok :: toks, last =>
    match find ok (.node w f n a) tok with
    | none => (.nil, last, tok :: toks)
    | some (v, _, next) => trail ok next toks (some (v, tok))

/-- The text of a word. -/
def Word.text : Word → Str
  | .key k => k
  | .param p => p.text

/-- What `parse` adds to the line at a tab or a question mark (src/cli/ofp_cli.c:1366-1368, :1426-1470); `none`: it reads behind
the end of a word.  A line that is empty or ends with a blank gets the list of what may follow; so does one with a token that is
not found (the second call of `find_next_vertical` fails like the first). -/
def complete (ok : Checks) (t : Tree) (line : Str) : Option Str :=
  if line = [] ∨ line.getLast? = some ' ' then some []
  else
    match trail ok t (tokens line) none with
    | (.node _ _ _ _, some (w, tok), []) =>
      if w.text.length < tok.length then none else some (w.text.drop tok.length ++ [' '])
    | _ => some []

/-- `cli_read` when nothing is waited for (src/cli/ofp_cli.c:1596-1670): the connection, and the line that is carried out.  What
is carried out is `exec` of its tokens; what aliases do then is in `Cli.Alias`. -/
def plain (ok : Checks) (t : Tree) (s : Conn) (c : Nat) : Conn × Option Str :=
  if c = 4 then ({ s with closed := true }, none)
  else if c = 0x10 then ({ s with line := s.old s.get, get := if s.get = 0 then 7 else s.get - 1 }, none)
  else if c = 0x0e then ({ s with line := s.old s.get, get := if s.get + 1 ≥ 8 then 0 else s.get + 1 }, none)
  else if c = 0x1b then ({ s with mode := .esc1 }, none)
  else if c = 0xff then ({ s with mode := .tel1 }, none)
  else if c = 13 ∨ c = 10 then
    let s' :=
      if s.line ≠ [] ∧ s.old s.put ≠ s.line then
        let p := if s.put + 1 ≥ 8 then 0 else s.put + 1
        { s with put := p, old := fun i => if i = p then s.line else s.old i }
      else s
    ({ s' with line := [], get := s'.put }, if s.line = [] then none else some s.line)
  else if c = 8 ∨ c = 127 then ({ s with line := s.line.dropLast }, none)
  else if c = 63 ∨ c = 9 then
    match complete ok t s.line with
    | none => ({ s with bad := true }, none)
    | some x => ({ s with line := s.line ++ x }, none)
  else if 32 ≤ c ∧ c < 127 then
    if s.line.length < 199 then ({ s with line := s.line ++ [Char.ofNat c] }, none) else (s, none)
  else (s, none)

/-- `cli_read` (src/cli/ofp_cli.c:1493-1672) of one byte; passwords are never asked for. -/
def key (ok : Checks) (t : Tree) (s : Conn) (c : Nat) : Conn × Option Str :=
  match s.mode with
  | .tel1 => ({ s with mode := .tel2 c }, none)
  | .tel2 a => ({ s with mode := if a = 250 ∧ c = 31 then .size 6 else .normal }, none)
  | .size n => ({ s with mode := if n ≤ 1 then .normal else .size (n - 1) }, none)
  | .esc1 => ({ s with mode := .esc2 c }, none)
  | .esc2 a =>
    let s := { s with mode := .normal }
    if a ≠ 0x5b then (s, none)
    else if c = 0x41 then plain ok t s 0x10
    else if c = 0x42 then plain ok t s 0x0e
    else if c = 0x44 then plain ok t s 8
    else if c ∈ [0x31, 0x32, 0x33, 0x34, 0x35, 0x36, 0x43, 0x45] then (s, none)
    else plain ok t s c
  | .normal => plain ok t s c

/-- Bytes one after the other: the connection, the lines carried out. -/
def keys (ok : Checks) (t : Tree) : Conn → List Nat → Conn × List Str
  | s, [] => (s, [])
  | s, c :: cs =>
    let r := key ok t s c
    let q := keys ok t r.1 cs
    (q.1, r.2.toList ++ q.2)

theorem keys_append (ok : Checks) (t : Tree) (s : Conn) (a b : List Nat) :
    keys ok t s (a ++ b) = ((keys ok t (keys ok t s a).1 b).1, (keys ok t s a).2 ++ (keys ok t (keys ok t s a).1 b).2) := by
  induction a generalizing s with
  | nil => simp [keys]
  | cons c cs ih => simp [keys, ih, List.append_assoc]

/-! ## Typing -/

/-- Characters that are put into the line. -/
def Prints (c : Nat) : Prop := 32 ≤ c ∧ c < 127 ∧ c ≠ 63

theorem key_normal (ok : Checks) (t : Tree) {s : Conn} (hm : s.mode = .normal) (c : Nat) : key ok t s c = plain ok t s c := by
  cases s; simp only at hm; subst hm; rfl

theorem key_prints (ok : Checks) (t : Tree) {s : Conn} (hm : s.mode = .normal) {c : Nat} (hc : Prints c) (hl : s.line.length < 199) :
    key ok t s c = ({ s with line := s.line ++ [Char.ofNat c] }, none) := by
  obtain ⟨h1, h2, h3⟩ := hc
  rw [key_normal ok t hm]
  unfold plain
  rw [if_neg (by omega), if_neg (by omega), if_neg (by omega), if_neg (by omega), if_neg (by omega), if_neg (by omega),
    if_neg (by omega), if_neg (by omega), if_pos (by omega), if_pos hl]

theorem key_back (ok : Checks) (t : Tree) {s : Conn} (hm : s.mode = .normal) {c : Nat} (hc : c = 8 ∨ c = 127) :
    key ok t s c = ({ s with line := s.line.dropLast }, none) := by
  rw [key_normal ok t hm]
  unfold plain
  rw [if_neg (by omega), if_neg (by omega), if_neg (by omega), if_neg (by omega), if_neg (by omega), if_neg (by omega),
    if_pos hc]

/-- Typing characters puts them behind the line. -/
theorem keys_prints (ok : Checks) (t : Tree) (cs : List Nat) {s : Conn} (hm : s.mode = .normal) (hc : ∀ c ∈ cs, Prints c)
    (hl : s.line.length + cs.length ≤ 199) :
    keys ok t s cs = ({ s with line := s.line ++ cs.map Char.ofNat }, []) := by
  induction cs generalizing s with
  | nil => simp [keys]
  | cons c cs ih =>
    simp only [List.length_cons] at hl
    simp only [keys]
    rw [key_prints ok t hm (hc c (by simp)) (by omega)]
    rw [ih (s := { s with line := s.line ++ [Char.ofNat c] }) hm (fun d hd => hc d (by simp [hd])) (by simp; omega)]
    simp

/-- Deleting as many characters as were typed. -/
theorem keys_back (ok : Checks) (t : Tree) (n : Nat) {s : Conn} (hm : s.mode = .normal) {c : Nat} (hc : c = 8 ∨ c = 127) :
    keys ok t s (List.replicate n c) = ({ s with line := s.line.take (s.line.length - n) }, []) := by
  induction n generalizing s with
  | zero => simp [keys]
  | succ n ih =>
    simp only [List.replicate_succ, keys]
    rw [key_back ok t hm hc, ih (s := { s with line := s.line.dropLast }) hm]
    have e : s.line.dropLast.take (s.line.dropLast.length - n) = s.line.take (s.line.length - (n + 1)) := by
      rw [List.length_dropLast, List.dropLast_eq_take, List.take_take, Nat.min_eq_left (by omega)]
      congr 1
      omega
    simp only [e]
    rfl

/-- **C233**: what is typed, with characters typed and deleted again anywhere in between, and the key at the end, is the line that
is carried out; the next one starts empty. -/
theorem typed_exact (ok : Checks) (t : Tree) {s : Conn} (hm : s.mode = .normal) (h0 : s.line = []) {a x b : List Nat}
    (ha : ∀ c ∈ a, Prints c) (hx : ∀ c ∈ x, Prints c) (hb : ∀ c ∈ b, Prints c) {e : Nat} (he : e = 13 ∨ e = 10) {d : Nat}
    (hd : d = 8 ∨ d = 127) (hl : a.length + x.length ≤ 199) (hl' : a.length + b.length ≤ 199) (hne : a ++ b ≠ []) :
    (keys ok t s (a ++ x ++ List.replicate x.length d ++ b ++ [e])).2 = [(a ++ b).map Char.ofNat] ∧
    (keys ok t s (a ++ x ++ List.replicate x.length d ++ b ++ [e])).1.line = [] := by
  have k1 := keys_prints ok t a hm ha (by rw [h0]; simp; omega)
  rw [h0, List.nil_append] at k1
  have k2 := keys_prints ok t x (s := { s with line := a.map Char.ofNat }) hm hx (by simp; omega)
  have k3 := keys_back ok t x.length (s := { s with line := a.map Char.ofNat ++ x.map Char.ofNat }) hm hd
  simp only [List.length_append, List.length_map, Nat.add_sub_cancel] at k3
  rw [List.take_left' (by simp)] at k3
  have k4 := keys_prints ok t b (s := { s with line := a.map Char.ofNat }) hm hb (by simp; omega)
  have hne' : a.map Char.ofNat ++ b.map Char.ofNat ≠ [] := by rw [← List.map_append]; simpa using hne
  rw [keys_append, keys_append, keys_append, keys_append, k1]
  simp only
  rw [k2]
  simp only
  rw [k3]
  simp only
  rw [k4]
  simp only [keys]
  have hn : ∀ s' : Conn, s'.mode = .normal → key ok t s' e = plain ok t s' e := fun s' h => key_normal ok t h e
  rw [hn]
  case a => exact hm
  unfold plain
  rw [if_neg (by omega), if_neg (by omega), if_neg (by omega), if_neg (by omega), if_neg (by omega), if_pos he]
  simp [List.map_append] at hne' ⊢
  intro h1 h2
  exact absurd h2 (hne' h1)

/-! ## The buffer -/

/-- Everything fits the buffers of 200. -/
def Small (s : Conn) : Prop := s.line.length ≤ 199 ∧ ∀ i, (s.old i).length ≤ 199

theorem plain_small {ok : Checks} {t : Tree} {s : Conn} (h : Small s) {c : Nat} (hc : c ≠ 9 ∧ c ≠ 63) : Small (plain ok t s c).1 := by
  obtain ⟨h1, h2⟩ := h
  unfold plain
  by_cases c1 : c = 4
  · rw [if_pos c1]; exact ⟨h1, h2⟩
  rw [if_neg c1]
  by_cases c2 : c = 0x10
  · rw [if_pos c2]; exact ⟨h2 _, h2⟩
  rw [if_neg c2]
  by_cases c3 : c = 0x0e
  · rw [if_pos c3]; exact ⟨h2 _, h2⟩
  rw [if_neg c3]
  by_cases c4 : c = 0x1b
  · rw [if_pos c4]; exact ⟨h1, h2⟩
  rw [if_neg c4]
  by_cases c5 : c = 0xff
  · rw [if_pos c5]; exact ⟨h1, h2⟩
  rw [if_neg c5]
  by_cases c6 : c = 13 ∨ c = 10
  · rw [if_pos c6]
    refine ⟨by simp, fun i => ?_⟩
    simp only
    split
    · show (if _ then _ else _ : Str).length ≤ 199
      generalize (if s.put + 1 ≥ 8 then 0 else s.put + 1) = p
      by_cases hp : i = p
      · rw [if_pos hp]; exact h1
      · rw [if_neg hp]; exact h2 i
    · exact h2 i
  rw [if_neg c6]
  by_cases c7 : c = 8 ∨ c = 127
  · rw [if_pos c7]; exact ⟨by simp; omega, h2⟩
  rw [if_neg c7, if_neg (by omega)]
  by_cases c8 : 32 ≤ c ∧ c < 127
  · rw [if_pos c8]
    split
    · exact ⟨by simp; omega, h2⟩
    · exact ⟨h1, h2⟩
  · rw [if_neg c8]; exact ⟨h1, h2⟩

theorem key_small {ok : Checks} {t : Tree} {s : Conn} (h : Small s) {c : Nat} (hc : c ≠ 9 ∧ c ≠ 63) : Small (key ok t s c).1 := by
  unfold key
  have h' : ∀ m, Small { s with mode := m } := fun m => ⟨h.1, h.2⟩
  split
  · exact h' _
  · exact h' _
  · exact h' _
  · exact h' _
  · simp only
    repeat' split
    all_goals first | exact h' _ | exact plain_small (h' _) (by omega)
  · exact plain_small h hc

/-- **C234**: whatever bytes come, the line and the lines that are kept fit their buffers, if there is no tab and no question
mark. -/
theorem buffer_partial (ok : Checks) (t : Tree) (cs : List Nat) (hc : ∀ c ∈ cs, c ≠ 9 ∧ c ≠ 63) :
    Small (keys ok t Conn.new cs).1 := by
  have : ∀ (cs : List Nat) (s : Conn), Small s → (∀ c ∈ cs, c ≠ 9 ∧ c ≠ 63) → Small (keys ok t s cs).1 := by
    intro cs
    induction cs with
    | nil => intro s h _; exact h
    | cons c cs ih => intro s h hc; exact ih _ (key_small h (hc c (by simp))) fun d hd => hc d (by simp [hd])
  exact this cs _ ⟨by simp [Conn.new], fun i => by simp [Conn.new]⟩ hc

theorem key_tab {ok : Checks} {t : Tree} {s : Conn} (hm : s.mode = .normal) {c : Nat} (hc : c = 9 ∨ c = 63) :
    key ok t s c = match complete ok t s.line with
    | none => ({ s with bad := true }, none)
    | some x => ({ s with line := s.line ++ x }, none) := by
  rw [key_normal ok t hm]
  unfold plain
  rw [if_neg (by omega), if_neg (by omega), if_neg (by omega), if_neg (by omega), if_neg (by omega), if_neg (by omega),
    if_neg (by omega), if_pos (by omega)]

/-- Blanks, and a word. -/
theorem tokens_blanks (n : Nat) {a : Str} (ha : a ≠ []) (h : ∀ c ∈ a, blank c = false) :
    tokens (List.replicate n ' ' ++ a) = [a] := by
  induction n with
  | zero =>
    have hsep : ∀ (x : Str), (∀ c ∈ x, blank c = false) → sep blank x = (x, none) := by
      intro x hx
      induction x with
      | nil => rfl
      | cons c cs ih =>
        have := hx c (by simp)
        unfold sep
        rw [this, ih fun d hd => hx d (by simp [hd])]
        rfl
    show tokens a = _
    unfold tokens
    split
    · rename_i tok hs
      rw [hsep a h] at hs
      simp at hs; subst hs; rw [if_neg ha]
    · rename_i tok r hs
      rw [hsep a h] at hs; simp at hs
  | succ n ih =>
    have e : List.replicate (n + 1) ' ' ++ a = ' ' :: (List.replicate n ' ' ++ a) := by simp [List.replicate_succ]
    have hs : sep blank (' ' :: (List.replicate n ' ' ++ a)) = ([], some (List.replicate n ' ' ++ a)) := by
      unfold sep; rfl
    rw [e]
    unfold tokens
    split
    · rename_i tok h'
      rw [hs] at h'; simp at h'
    · rename_i tok r h'
      rw [hs] at h'
      simp at h'
      obtain ⟨rfl, rfl⟩ := h'
      rw [if_pos rfl, ih]

/-- **C234, violated**: a line of 199 characters that ends with the first word of a longer command gets one more at a tab or a
question mark, and so does what follows it in memory. -/
theorem buffer_violated (ok : Checks) (k : Str) (u : Word) (f : Nat) (hk : k ≠ []) (hb : ∀ c ∈ k, blank c = false) {s : Conn}
    (hm : s.mode = .normal) {n : Nat} (hn : n + k.length = 199) (hl : s.line = List.replicate n ' ' ++ k) {c : Nat} (hc : c = 9 ∨ c = 63) :
    (key ok (newPath [.key k, u] f) s c).1.line.length = 200 := by
  have hlast : s.line.getLast? ≠ some ' ' := by
    rw [hl, List.getLast?_append]
    cases hg : k.getLast? with
    | none => simp at hg; exact absurd hg hk
    | some x =>
      have := hb x (List.mem_of_getLast? hg)
      rintro h
      simp at h
      subst h
      exact absurd this (by decide)
  have hne : s.line ≠ [] := by
    intro h; rw [hl] at h; simp at h; exact hk h.2
  have hcomp : complete ok (newPath [.key k, u] f) s.line = some [' '] := by
    unfold complete
    rw [if_neg (by rintro (h | h); exact hne h; exact hlast h), hl, tokens_blanks n hk hb]
    simp [trail, newPath, find, hits, fits, Word.text]
  rw [key_tab hm hc, hcomp]
  simp only [hl, List.length_append, List.length_replicate, List.length_singleton]
  omega

/-- **C235, violated**: a tab behind a parameter that others follow puts the rest of its placeholder behind it. -/
theorem tab_violated (ok : Checks) (k : Str) (p : Param) (u : Word) (f : Nat) (hk : k ≠ []) (hb : ∀ c ∈ k, blank c = false)
    {s : Conn} (hm : s.mode = .normal) {b : Str} (hb0 : b ≠ []) (hbb : ∀ c ∈ b, blank c = false) (hq : b.head? ≠ some '"')
    (hok : ok p b = true) (hl : s.line = k ++ ' ' :: b) (hlen : b.length < p.text.length) :
    (key ok (newPath [.key k, .param p, u] f) s 9).1.line = k ++ ' ' :: b ++ p.text.drop b.length ++ [' '] ∧
    p.text.drop b.length ≠ [] := by
  have hlast : s.line.getLast? ≠ some ' ' := by
    rw [hl, List.getLast?_append]
    cases hg : b.getLast? with
    | none => simp at hg; exact absurd hg hb0
    | some x =>
      have := hbb x (List.mem_of_getLast? hg)
      rintro h
      simp [List.getLast?_cons, hg] at h
      subst h
      exact absurd this (by decide)
  have hne : s.line ≠ [] := by intro h; rw [hl] at h; simp at h
  have hcomp : complete ok (newPath [.key k, .param p, u] f) s.line = some (p.text.drop b.length ++ [' ']) := by
    unfold complete
    rw [if_neg (by rintro (h | h); exact hne h; exact hlast h), hl, tokens_two hk hb0 hb hbb hq]
    simp [trail, newPath, find, hits, fits, Word.text, hok]
    exact if_neg (by omega)
  rw [key_tab hm (.inl rfl), hcomp]
  refine ⟨by simp [hl], ?_⟩
  simp
  omega

/-- **C235**: a tab behind a word that others follow puts one blank behind it, and no more; a tab or a question mark behind a
blank, or in an empty line, puts nothing. -/
theorem tab_partial (ok : Checks) (k : Str) (u : Word) (f : Nat) (hk : k ≠ []) (hb : ∀ c ∈ k, blank c = false) {s : Conn}
    (hm : s.mode = .normal) {n c : Nat} (hc : c = 9 ∨ c = 63) :
    (s.line = List.replicate n ' ' ++ k → (key ok (newPath [.key k, u] f) s c).1 = { s with line := s.line ++ [' '] }) ∧
    (∀ t, s.line = [] ∨ s.line.getLast? = some ' ' → key ok t s c = (s, none)) := by
  constructor
  · intro hl
    have hlast : s.line.getLast? ≠ some ' ' := by
      rw [hl, List.getLast?_append]
      cases hg : k.getLast? with
      | none => simp at hg; exact absurd hg hk
      | some x =>
        have := hb x (List.mem_of_getLast? hg)
        rintro h
        simp at h
        subst h
        exact absurd this (by decide)
    have hne : s.line ≠ [] := by
      intro h; rw [hl] at h; simp at h; exact hk h.2
    have hcomp : complete ok (newPath [.key k, u] f) s.line = some [' '] := by
      unfold complete
      rw [if_neg (by rintro (h | h); exact hne h; exact hlast h), hl, tokens_blanks n hk hb]
      simp [trail, newPath, find, hits, fits, Word.text]
    rw [key_tab hm hc, hcomp]
  · intro t h
    rw [key_tab hm hc]
    unfold complete
    rw [if_pos h]
    simp

/-! ## Lines that were carried out -/

/-- Lines typed and carried out, one after the other. -/
def typed (ls : List (List Nat)) : List Nat := ls.flatMap fun l => l ++ [13]

/-- One line. -/
theorem keys_enter (ok : Checks) (t : Tree) {s : Conn} (hm : s.mode = .normal) (h0 : s.line = []) {l : List Nat}
    (hc : ∀ c ∈ l, Prints c) (hne : l ≠ []) (hl : l.length ≤ 199) (hnew : s.old s.put ≠ l.map Char.ofNat) :
    (keys ok t s (l ++ [13])).1 = { s with
      line := [], put := if s.put + 1 ≥ 8 then 0 else s.put + 1
      old := fun i => if i = (if s.put + 1 ≥ 8 then 0 else s.put + 1) then l.map Char.ofNat else s.old i
      get := if s.put + 1 ≥ 8 then 0 else s.put + 1 } := by
  have k1 := keys_prints ok t l hm hc (by rw [h0]; simp; omega)
  rw [h0, List.nil_append] at k1
  have hne' : l.map Char.ofNat ≠ [] := by simpa using hne
  rw [keys_append, k1]
  simp only [keys, key, hm]
  unfold plain
  simp only [Nat.reduceEqDiff, if_false, true_or, if_true]
  rw [if_pos ⟨hne', hnew⟩]

/-- The slots after `n` lines: line `i` (from 1) is in slot `i % 8`, for the last eight. -/
def Ring (s : Conn) (ls : List Str) : Prop :=
  s.mode = .normal ∧ s.line = [] ∧ s.put = ls.length % 8 ∧ s.get = s.put ∧
  (∀ i, ls.length < i + 8 → 1 ≤ i → i ≤ ls.length → ls[i - 1]? = some (s.old (i % 8))) ∧ (ls = [] → s.old 0 = [])

theorem ring_typed (ok : Checks) (t : Tree) (ls : List (List Nat)) (hp : ∀ l ∈ ls, l ≠ [] ∧ l.length ≤ 199 ∧ ∀ c ∈ l, Prints c)
    (hd : ∀ i, i + 1 < ls.length → (ls[i]?.map (List.map Char.ofNat)) ≠ (ls[i + 1]?.map (List.map Char.ofNat))) :
    Ring (keys ok t Conn.new (typed ls)).1 (ls.map (List.map Char.ofNat)) := by
  induction ls using List.reverseRecOn with
  | nil =>
    refine ⟨rfl, rfl, rfl, rfl, ?_, fun _ => rfl⟩
    intro i _ h1 h2; simp at h2; omega
  | append_singleton ls l ih =>
    have hr := ih (fun x hx => hp x (by simp [hx])) (fun i hi => by
      have := hd i (by simp; omega)
      rwa [List.getElem?_append_left (by omega), List.getElem?_append_left (by omega)] at this)
    obtain ⟨r1, r2, r3, r4, r5, r6⟩ := hr
    obtain ⟨p1, p2, p3⟩ := hp l (by simp)
    have htyped : typed (ls ++ [l]) = typed ls ++ (l ++ [13]) := by simp [typed]
    rw [htyped, keys_append]
    simp only
    generalize (keys ok t Conn.new (typed ls)).1 = s at *
    have hnew : s.old s.put ≠ l.map Char.ofNat := by
      by_cases hz : ls = []
      · subst hz
        simp only [List.map_nil, List.length_nil, Nat.zero_mod] at r3
        rw [r3, r6 rfl]
        intro h; simp at h; exact p1 h
      · have hpos : 0 < ls.length := List.length_pos_iff.mpr hz
        have h5 := r5 ls.length (by simp) (by omega) (by simp)
        have hd' := hd (ls.length - 1) (by simp; omega)
        rw [List.getElem?_append_left (by omega), show ls.length - 1 + 1 = ls.length by omega,
          List.getElem?_append_right (Nat.le_refl _)] at hd'
        simp only [Nat.sub_self, List.getElem?_cons_zero, Option.map_some] at hd'
        rw [List.getElem?_map] at h5
        rw [h5] at hd'
        rw [r3, List.length_map]
        intro h; exact hd' (by rw [h])
    rw [keys_enter ok t r1 r2 p3 p1 p2 hnew]
    simp only [List.length_map] at r3 r5
    have hput : (if s.put + 1 ≥ 8 then 0 else s.put + 1) = (ls.length + 1) % 8 := by rw [r3]; split <;> omega
    refine ⟨r1, rfl, ?_, rfl, ?_, by simp⟩
    · simp only [hput]; simp
    · intro i h1 h2 h3
      simp only [List.length_map, List.length_append, List.length_singleton] at h1 h3
      simp only [hput]
      rw [List.map_append]
      by_cases hi : i = ls.length + 1
      · subst hi
        rw [if_pos rfl, List.getElem?_append_right (by simp)]
        simp
      · rw [if_neg (by omega), List.getElem?_append_left (by simp; omega)]
        exact r5 i (by omega) h2 (by omega)

theorem key_up (ok : Checks) (t : Tree) {s : Conn} (hm : s.mode = .normal) :
    key ok t s 0x10 = ({ s with line := s.old s.get, get := if s.get = 0 then 7 else s.get - 1 }, none) := by
  rw [key_normal ok t hm]; rfl

theorem key_down (ok : Checks) (t : Tree) {s : Conn} (hm : s.mode = .normal) :
    key ok t s 0x0e = ({ s with line := s.old s.get, get := if s.get + 1 ≥ 8 then 0 else s.get + 1 }, none) := by
  rw [key_normal ok t hm]; rfl

theorem keys_up (ok : Checks) (t : Tree) (k : Nat) {s : Conn} (hm : s.mode = .normal) (hg : s.get < 8) (hk : 1 ≤ k) (hk8 : k ≤ 8) :
    (keys ok t s (List.replicate k 0x10)).1 = { s with
      line := s.old ((s.get + 9 - k) % 8), get := (s.get + 8 - k) % 8 } := by
  induction k with
  | zero => omega
  | succ k ih =>
    by_cases h0 : k = 0
    · subst h0
      simp only [List.replicate, keys, key_up ok t hm]
      have e1 : (s.get + 9 - (0 + 1)) % 8 = s.get := by omega
      have e2 : (if s.get = 0 then 7 else s.get - 1) = (s.get + 8 - (0 + 1)) % 8 := by split <;> omega
      rw [e1, e2]
    · rw [List.replicate_succ', keys_append]
      simp only
      rw [ih (by omega) (by omega)]
      simp only [keys]
      rw [key_up]
      simp only
      have e1 : (s.get + 9 - (k + 1)) % 8 = (s.get + 8 - k) % 8 := by omega
      have e2 : (if (s.get + 8 - k) % 8 = 0 then 7 else (s.get + 8 - k) % 8 - 1) = (s.get + 8 - (k + 1)) % 8 := by
        split <;> omega
      rw [e1, e2]
      exact hm

/-- **C236**: after any number of lines, each different from the one before, the key for earlier lines, `k` times (up to
eight), gives the `k`-th last line. -/
theorem recall_partial (ok : Checks) (t : Tree) (ls : List (List Nat)) (hp : ∀ l ∈ ls, l ≠ [] ∧ l.length ≤ 199 ∧ ∀ c ∈ l, Prints c)
    (hd : ∀ i, i + 1 < ls.length → (ls[i]?.map (List.map Char.ofNat)) ≠ (ls[i + 1]?.map (List.map Char.ofNat)))
    {k : Nat} (hk : 1 ≤ k) (hk8 : k ≤ 8) (hkn : k ≤ ls.length) :
    some (keys ok t Conn.new (typed ls ++ List.replicate k 0x10)).1.line = (ls.map (List.map Char.ofNat))[ls.length - k]? := by
  obtain ⟨r1, r2, r3, r4, r5, r6⟩ := ring_typed ok t ls hp hd
  rw [keys_append]
  simp only
  generalize (keys ok t Conn.new (typed ls)).1 = s at *
  rw [List.length_map] at r3 r5
  rw [keys_up ok t k r1 (by omega) hk hk8]
  have := r5 (ls.length + 1 - k) (by omega) (by omega) (by omega)
  rw [show ls.length + 1 - k - 1 = ls.length - k by omega] at this
  rw [this]
  simp only
  congr 2
  omega

/-- **C236, violated**: the key for later lines then does not give the line after that, but the one before. -/
theorem recall_violated (ok : Checks) (t : Tree) (ls : List (List Nat)) (hp : ∀ l ∈ ls, l ≠ [] ∧ l.length ≤ 199 ∧ ∀ c ∈ l, Prints c)
    (hd : ∀ i, i + 1 < ls.length → (ls[i]?.map (List.map Char.ofNat)) ≠ (ls[i + 1]?.map (List.map Char.ofNat)))
    {k : Nat} (hk : 1 ≤ k) (hk8 : k < 8) (hkn : k < ls.length) :
    some (keys ok t Conn.new (typed ls ++ List.replicate k 0x10 ++ [0x0e])).1.line =
      (ls.map (List.map Char.ofNat))[ls.length - (k + 1)]? := by
  obtain ⟨r1, r2, r3, r4, r5, r6⟩ := ring_typed ok t ls hp hd
  rw [keys_append, keys_append]
  simp only
  generalize (keys ok t Conn.new (typed ls)).1 = s at *
  rw [List.length_map] at r3 r5
  rw [keys_up ok t k r1 (by omega) hk (by omega)]
  simp only [keys]
  rw [key_down]
  case hm => exact r1
  have := r5 (ls.length - k) (by omega) (by omega) (by omega)
  rw [show ls.length - k - 1 = ls.length - (k + 1) by omega] at this
  rw [this]
  simp only
  congr 2
  omega

/-! ## Telnet and keys of several bytes -/

/-- **C237**: negotiations of telnet, and the size of the display, change nothing of the line. -/
theorem telnet_partial (ok : Checks) (t : Tree) {s : Conn} (hm : s.mode = .normal) :
    (∀ a b, 251 ≤ a → a ≤ 254 → keys ok t s [255, a, b] = (s, [])) ∧
    (∀ w1 w2 h1 h2, keys ok t s [255, 250, 31, w1, w2, h1, h2, 255, 240] = (s, [])) := by
  cases s
  simp only at hm
  subst hm
  constructor
  · intro a b h1 h2
    have : ¬ (a = 250 ∧ b = 31) := by omega
    simp [keys, key, plain, this]
  · intro w1 w2 h1 h2
    simp [keys, key, plain]

/-- **C237, violated**: after a telnet command of two bytes the next character is lost. -/
theorem telnet_violated (ok : Checks) (t : Tree) {s : Conn} (hm : s.mode = .normal) {a : Nat} (ha : a ≠ 250) (c : Nat) :
    keys ok t s [255, a, c] = (s, []) := by
  cases s
  simp only at hm
  subst hm
  have : ¬ (a = 250 ∧ c = 31) := by omega
  simp [keys, key, plain, this]

/-- **C237**: the arrows up and down are the keys for earlier and later lines, left deletes. -/
theorem arrows (ok : Checks) (t : Tree) {s : Conn} (hm : s.mode = .normal) :
    keys ok t s [0x1b, 0x5b, 0x41] = keys ok t s [0x10] ∧ keys ok t s [0x1b, 0x5b, 0x42] = keys ok t s [0x0e] ∧
    keys ok t s [0x1b, 0x5b, 0x44] = keys ok t s [8] := by
  cases s
  simp only at hm
  subst hm
  refine ⟨?_, ?_, ?_⟩ <;> simp [keys, key, plain]

/-- **C237, violated**: the key to delete puts a tilde into the line. -/
theorem delete_violated (ok : Checks) (t : Tree) {s : Conn} (hm : s.mode = .normal) (hl : s.line.length < 199) :
    (keys ok t s [0x1b, 0x5b, 0x33, 0x7e]).1.line = s.line ++ ['~'] := by
  simp [keys, key, hm, plain, hl]

/-! ## Cases -/

/-- A line with a mistake. -/
example : (keys ok0 .nil Conn.new [100, 101, 120, 8, 98, 13]).2 = ["deb".toList] := by decide +kernel

/-- Three lines, and two of them recalled; then one before, by the key for later ones. -/
example : (keys ok0 .nil Conn.new (typed [[97], [98], [99]] ++ [0x10, 0x10])).1.line = ['b'] ∧
    (keys ok0 .nil Conn.new (typed [[97], [98], [99]] ++ [0x10, 0x10, 0x0e])).1.line = ['a'] := by decide +kernel

end Verif.Cli

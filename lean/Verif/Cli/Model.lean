import Mathlib.Data.List.Basic
/-!
# Model of the command line (`src/cli/ofp_cli.c`)

Characters are `Char`s.  A line is the contents of `conn->inbuf`.
-/
namespace Verif.Cli

/-- Strings. -/
abbrev Str := List Char

/-- Kinds of parameters (src/cli/ofp_cli.c:541-550). -/
inductive Param where
  | number | ip4addr | topname | string | dev | ip4net | ip6addr | ip6net | mac
deriving DecidableEq, Repr

/-- What a parameter is shown as (src/cli/ofp_cli.c:541-550). -/
def Param.text : Param → Str
  | .number => "<number>".toList | .ip4addr => "<a.b.c.d>".toList | .topname => "<top name>".toList
  | .string => "<string>".toList | .dev => "<dev>".toList | .ip4net => "<a.b.c.d/n>".toList
  | .ip6addr => "<a:b:c:d:e:f:g:h>".toList | .ip6net => "<a:b:c:d:e:f:g:h/n>".toList | .mac => "<a:b:c:d:e:f>".toList

/-- A word of a command: a keyword, or a parameter (`get_param_string`, src/cli/ofp_cli.c:561-586).  Keywords that are spelt as
the text of a parameter are left out. -/
inductive Word where
  | key (w : Str)
  | param (p : Param)
deriving DecidableEq, Repr

/-- The tree of commands; `nil` is `end`: a word, its function, what may follow it (`nextword`), the alternatives to it
(`nextpossibility`) (src/cli/ofp_cli.c:60-75). -/
inductive Tree where
  | nil
  | node (w : Word) (func : Option Nat) (next alt : Tree)
deriving Repr

/-- The second half of `add_command` (src/cli/ofp_cli.c:1125-1162): nodes for the remaining words. -/
def newPath : List Word → Nat → Tree
  | [], _ => .nil
  | [w], f => .node w (some f) .nil .nil
  | w :: ws, f => .node w none (newPath ws f) .nil

/-- `add_command` (src/cli/ofp_cli.c:1079-1173); `none`: the program is stopped (`ofp_generate_coredump`). -/
def add : Tree → List Word → Nat → Option Tree
  | .nil, ws, f => some (newPath ws f)
  | .node _ _ _ _, [], _ => none
  | .node w g next alt, u :: us, f =>
    if u = w then
      match us with
      | [] => none
      | us => (add next us f).map fun n => .node w g n alt
    else (add alt (u :: us) f).map fun a => .node w g next a

/-- Commands added one after the other (`cli_init_commands`, `ofp_cli_add_command`, `f_add_alias_command`;
src/cli/ofp_cli.c:1192-1243). -/
def build : List (List Word × Nat) → Option Tree
  | [] => some .nil
  | (ws, f) :: cs =>
    match build cs with
    | none => none
    | some t => add t ws f

/-- Does a token match a word (src/cli/ofp_cli.c:1315-1325)?  `ok` are the checks of parameters.  The words are compared first, so
the text of a parameter matches it. -/
def fits (ok : Param → Str → Bool) : Word → Str → Bool
  | .key w, t => w == t
  | .param p, t => p.text == t || ok p t

/-- The alternatives that match. -/
def hits (ok : Param → Str → Bool) : Tree → Str → List (Word × Option Nat × Tree)
  | .nil, _ => []
  | .node w f next alt, t => if fits ok w t then (w, f, next) :: hits ok alt t else hits ok alt t

/-- `find_next_vertical` (src/cli/ofp_cli.c:1308-1333): the alternative that matches, if there is just one. -/
def find (ok : Param → Str → Bool) (t : Tree) (tok : Str) : Option (Word × Option Nat × Tree) :=
  match hits ok t tok with
  | [x] => some x
  | _ => none

/-- The loop of `parse` over the tokens (src/cli/ofp_cli.c:1399-1424): the last word found and its function, the tokens of
parameters so far. -/
def walk (ok : Param → Str → Bool) : Tree → List Str → Option (Word × Option Nat) → List Str → Option (Word × Option Nat) × List Str
  | .nil, _, last, ps => (last, ps)
  | .node _ _ _ _, [], last, ps => (last, ps)
  | .node w f n a, tok :: toks, last, ps =>
    match find ok (.node w f n a) tok with
    | none => (last, ps)
    | some (.key k, g, next) => walk ok next toks (some (.key k, g)) ps
    | some (.param p, g, next) => walk ok next toks (some (.param p, g)) (if ok p tok then ps ++ [tok] else ps)

/-- Split off what is before the first character of a set, and what is behind it, if there is one (`strsep`). -/
def sep (d : Char → Bool) : Str → Str × Option Str
  | [] => ([], none)
  | c :: cs => if d c then ([], some cs) else (c :: (sep d cs).1, (sep d cs).2)

theorem sep_length (d : Char → Bool) (s : Str) {r : Str} (h : (sep d s).2 = some r) : r.length < s.length := by
  induction s with
  | nil => simp [sep] at h
  | cons c cs ih =>
    unfold sep at h
    split at h
    · simp at h; subst h; simp
    · have := ih h; simp; omega

/-- Blanks between tokens. -/
def blank (c : Char) : Bool := c == ' ' || c == '\r' || c == '\n'
/-- Ends of a token in quotes. -/
def quote (c : Char) : Bool := c == '"' || c == '\r' || c == '\n'

/-- The tokens of a line (src/cli/ofp_cli.c:1379-1391).  There is room for 49; more are not looked at here (the entry behind
them, which is not written, is only read if 49 words have matched). -/
def tokens (s : Str) : List Str :=
  match h : sep blank s with
  | (tok, none) => if tok = [] then [] else [tok]
  | (tok, some r) =>
    if tok = [] then tokens r
    else
      match r with
      | '"' :: r' =>
        match h' : sep quote r' with
        | (q, none) => [tok, q]
        | (q, some r'') => tok :: q :: tokens r''
      | r => tok :: tokens r
termination_by s.length
decreasing_by
  · exact sep_length blank s (by rw [h])
  · have h1 := sep_length blank s (r := '"' :: r') (by rw [h])
    have h2 := sep_length quote r' (by rw [h'])
    simp only [List.length_cons] at h1; simp_wf; omega
  · exact sep_length blank s (by rw [h])

/-- `paramlist`: every parameter and a blank (src/cli/ofp_cli.c:1417-1418). -/
def paramlist (ps : List Str) : Str := ps.flatMap fun p => p ++ [' ']

/-- `parse` of a line that is not empty, at the end of the line (src/cli/ofp_cli.c:1355-1441, `extra` 0): the function called,
and the string it gets; `none`: syntax error. -/
def exec (ok : Param → Str → Bool) (t : Tree) (toks : List Str) : Option (Nat × List Str) :=
  match walk ok t toks none [] with
  | (some (_, some f), ps) => some (f, ps)
  | _ => none

/-! ## Parameters -/

/-- A digit. -/
def isDec (c : Char) : Bool := '0' ≤ c && c ≤ '9'
/-- A hexadecimal digit. -/
def isHex (c : Char) : Bool := isDec c || ('a' ≤ c && c ≤ 'f') || ('A' ≤ c && c ≤ 'F')

/-- `int_ok` (src/cli/ofp_cli.c:94-115). -/
def intOk : Str → Bool
  | '0' :: 'x' :: s => s.all isHex
  | '0' :: 'X' :: s => s.all isHex
  | s => s.all isDec

/-- One octet of `ip4addr_ok` (src/cli/ofp_cli.c:127-133). -/
def octetOk (s : Str) : Bool := s.length ≤ 3 && s.length ≠ 0 && intOk s

/-- Is it the given character? -/
def is (d c : Char) : Bool := c == d

/-- The loop of `ip4addr_ok` (src/cli/ofp_cli.c:125-137), for `k` more octets. -/
def octetsOk : Nat → Str → Bool
  | 0, _ => false
  | 1, s => octetOk (sep (is '.') s).1 && (sep (is '.') s).2.isNone
  | k + 2, s =>
    octetOk (sep (is '.') s).1 &&
    match (sep (is '.') s).2 with
    | none => false
    | some r => octetsOk (k + 1) r

/-- `ip4addr_ok` (src/cli/ofp_cli.c:117-139). -/
def ip4addrOk (s : Str) : Bool := octetsOk 4 s

/-- A character as a digit (`txt_to_hex`, src/cli/ofp_cli.c:308-318; for decimal digits, `sscanf`). -/
def digit (c : Char) : Nat :=
  if isDec c then c.toNat - 48
  else if 'a' ≤ c && c ≤ 'f' then c.toNat - 97 + 10
  else if 'A' ≤ c && c ≤ 'F' then c.toNat - 65 + 10
  else 255

/-- The value of digits. -/
def value (base : Nat) (s : Str) : Nat := s.foldl (fun n c => n * base + digit c) 0

/-- `%d` of `sscanf`, without blanks and signs, which no accepted token has. -/
def scan (s : Str) : Option (Nat × Str) :=
  if s.takeWhile isDec = [] then none else some (value 10 (s.takeWhile isDec), s.dropWhile isDec)

/-- A character of the format. -/
def expect (c : Char) : Str → Option Str
  | [] => none
  | d :: s => if d = c then some s else none

/-- `ip4addr_get` (src/cli/ofp_cli.c:320-330): the address in host order, as an `int` taken modulo 2^32. -/
def ip4addrGet (s : Str) : Option Nat := do
  let (a, s) ← scan s
  let s ← expect '.' s
  let (b, s) ← scan s
  let s ← expect '.' s
  let (c, s) ← scan s
  let s ← expect '.' s
  let (d, _) ← scan s
  return (a * 2 ^ 24 % 2 ^ 32) ||| (b * 2 ^ 16) ||| (c * 2 ^ 8) ||| d

/-- `topname_ok` (src/cli/ofp_cli.c:141-154). -/
def topnameOk (s : Str) : Bool :=
  ["par".toList, "res".toList, "mod".toList, "sea".toList, "lea".toList].any fun p => p.isPrefixOf s

/-- State of the loop of `ip6addr_check_ok` (src/cli/ofp_cli.c:244-269): was the last character a colon, colons, groups, was there
a double colon. -/
structure Chk where
  colon : Bool
  colons : Nat
  groups : Nat
  short : Bool
deriving DecidableEq, Repr

/-- That loop; `none` is return 0. -/
def ip6loop (s : Str) (k : Chk) : Option Chk :=
  match s with
  | [] => some k
  | c :: r =>
    if c = ':' then ip6loop r ⟨true, k.colons + 1, k.groups, k.short || k.colon⟩
    else if isHex c then
      if (s.takeWhile isHex).length > 4 then none
      else ip6loop (r.dropWhile isHex) ⟨false, k.colons, k.groups + 1, k.short⟩
    else none
termination_by s.length
decreasing_by
  · simp
  · have := (List.dropWhile_sublist (l := r) isHex).length_le; simp_wf; omega

/-- `ip6addr_check_ok` (src/cli/ofp_cli.c:224-277). -/
def ip6addrOk (s : Str) : Bool :=
  match ip6loop s ⟨false, 0, 0, false⟩ with
  | none => false
  | some k => if k.short then !(k.colons > 7 || k.groups > 8) else !(k.colons ≠ 7 || k.groups ≠ 8)

/-- State of the loop of `ip6addr_get` (src/cli/ofp_cli.c:364-404): was the last character a colon, the groups so far, where the
double colon was. -/
structure Get where
  colon : Bool
  groups : List Nat
  dbl : Option Nat
deriving DecidableEq, Repr

/-- That loop; `none` is return 0. -/
def ip6read (s : Str) (k : Get) : Option Get :=
  match s with
  | [] => some k
  | c :: r =>
    if c = ':' then
      if k.colon then
        match k.dbl with
        | some _ => none
        | none => ip6read r ⟨true, k.groups, some k.groups.length⟩
      else ip6read r ⟨true, k.groups, k.dbl⟩
    else if isHex c then
      if (s.takeWhile isHex).length > 4 then none
      else ip6read (r.dropWhile isHex) ⟨false, k.groups ++ [value 16 (s.takeWhile isHex)], k.dbl⟩
    else none
termination_by s.length
decreasing_by
  · simp
  · simp
  · have := (List.dropWhile_sublist (l := r) isHex).length_le; simp_wf; omega

/-- The bytes of the address after the loop (src/cli/ofp_cli.c:349, :381-393): two for each group, then zero. -/
def bytesOf (gs : List Nat) (i : Nat) : Nat :=
  if i % 2 = 0 then gs.getD (i / 2) 0 / 256 else gs.getD (i / 2) 0 % 256

/-- The loop that moves the groups behind the double colon (src/cli/ofp_cli.c:406-414), `n` of its rounds, from 0. -/
def move (cnt dbl : Nat) : Nat → (Nat → Nat) → (Nat → Nat)
  | 0, a => a
  | n + 1, a =>
    let b := move cnt dbl n a
    fun j => if j = 15 - n then (if n < (cnt - dbl) * 2 then b (cnt * 2 - 1 - n) else 0) else b j

/-- `ip6addr_get` (src/cli/ofp_cli.c:344-417): the bytes of the address. -/
def ip6addrGet (s : Str) : Option (Nat → Nat) :=
  match ip6read s ⟨false, [], none⟩ with
  | none => none
  | some k =>
    some (match k.dbl with
      | none => bytesOf k.groups
      | some d => move k.groups.length d (16 - d * 2) (bytesOf k.groups))

end Verif.Cli

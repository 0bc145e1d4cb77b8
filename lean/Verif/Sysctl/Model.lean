/-!
# Model of the sysctl interface (`src/ofp_sysctl.c`)

The tree is a set of lists of entries (`struct ofp_sysctl_oid_list`), each node naming the list of its children.  The
values of variables are byte strings.  Memory is always allocated; handlers of other modules (`PROC`) are not run (`proc`).
Calls are atomic (the lock is given up while a handler runs).
-/
namespace Verif.Sysctl

/-- Error numbers. -/
inductive Err where
  | noent | notdir | isdir | perm | nomem | inval | nametoolong
deriving DecidableEq, Repr

/-- What `oid_handler` is, with `oid_arg1`, `oid_arg2`: none; an `int`, `long`, 64-bit number (a variable and its size);
a structure; a constant; a string in a buffer; milliseconds kept in ticks; anything else. -/
inductive Handler where
  | none
  | number (var size : Nat)
  | opaque (var size : Nat)
  | const (val : List UInt8)
  | string (var max : Nat)
  | msec (var : Nat)
  | name2oid
  | proc
deriving DecidableEq, Repr

/-- `struct ofp_sysctl_oid` (include/api/ofp_sysctl.h:202-216).  `node`: its type is `CTLTYPE_NODE`; `child`: the list of its
children; `write`: `CTLFLAG_WR`. -/
structure Oid where
  name : List Char
  number : Int
  node : Bool
  child : Nat
  write : Bool
  handler : Handler
deriving DecidableEq, Repr

/-- The tree: the lists (0 is the root), the number of lists in use, the next automatic number. -/
structure Tree where
  lists : Nat → List Oid
  used : Nat
  newoid : Int

/-- `OFP_OID_AUTO`, `OFP_CTL_AUTO_START`, `OFP_CTL_MAXNAME` (include/api/ofp_sysctl.h:157, :163, :111). -/
def auto : Int := -1
def autoStart : Int := 0x100
def maxName : Nat := 24

/-- `sysctl_find_oidname` (src/ofp_sysctl.c:107-119). -/
def findName (name : List Char) : List Oid → Option Oid
  | [] => none
  | o :: os => if o.name = name then some o else findName name os

/-- Insert in order of the numbers, behind those that are not greater (src/ofp_sysctl.c:171-183). -/
def insertOid (o : Oid) : List Oid → List Oid
  | [] => [o]
  | p :: ps => if o.number < p.number then o :: p :: ps else p :: insertOid o ps

/-- `sysctl_register_oid` (src/ofp_sysctl.c:127-184). -/
def register (t : Tree) (l : Nat) (o : Oid) : Tree :=
  match findName o.name (t.lists l) with
  | some _ => t
  | none =>
    let o' := if o.number = auto then { o with number := t.newoid } else o
    { t with
      lists := fun i => if i = l then insertOid o' (t.lists l) else t.lists i
      newoid := if o.number = auto then t.newoid + 1 else t.newoid }

/-- `ofp_sysctl_add_oid` (src/ofp_sysctl.c:454-519): the new entry, or the old one if it is a node. -/
def addOid (t : Tree) (l : Nat) (o : Oid) : Tree × Option Oid :=
  match findName o.name (t.lists l) with
  | some p => (t, if p.node then some p else none)
  | none =>
    let o := if o.node then { o with child := t.used } else o
    let t' := register { t with used := if o.node then t.used + 1 else t.used } l o
    (t', findName o.name (t'.lists l))

/-- The part of a name before the first dot, and what follows the dot, if there is one (src/ofp_sysctl.c:881-885,
:912-917). -/
def cut : List Char → List Char × Option (List Char)
  | [] => ([], none)
  | c :: cs => if c = '.' then ([], some cs) else (c :: (cut cs).1, (cut cs).2)

theorem cut_length (cs : List Char) {r : List Char} (h : (cut cs).2 = some r) : r.length < cs.length := by
  induction cs with
  | nil => simp [cut] at h
  | cons c cs ih =>
    unfold cut at h
    split at h
    · simp at h; subst h; simp
    · have := ih h; simp; omega

/-- The loop of `name2oid` (src/ofp_sysctl.c:887-918); `k` is how many numbers there still is room for. -/
def walk (t : Tree) (l : Nat) : Nat → List Char → Except Err (List Int)
  | 0, _ => .error .noent
  | k + 1, s =>
    match findName (cut s).1 (t.lists l) with
    | none => .error .noent
    | some o =>
      match (cut s).2 with
      | none => .ok [o.number]
      | some rest =>
        if o.node = false then .error .noent
        else if o.handler ≠ .none then .error .noent
        else
          match walk t o.child k rest with
          | .error e => .error e
          | .ok ns => .ok (o.number :: ns)

/-- A dot at the end is cut off (src/ofp_sysctl.c:875-877). -/
def trim (s : List Char) : List Char := if s.getLast? = some '.' then s.dropLast else s

/-- `sysctl_sysctl_name2oid`, `name2oid` (src/ofp_sysctl.c:862-962), called by `kernel_sysctlbyname`
(src/ofp_sysctl.c:1319-1340) through the entry {0, 3}, which is taken to be in its place. -/
def name2oid (t : Tree) (s : List Char) : Except Err (List Int) :=
  if s.length = 0 then .error .noent
  else if s.length ≥ 1024 then .error .nametoolong
  else walk t 0 maxName (trim s)

/-- The first entry with a number. -/
def findNumber (n : Int) : List Oid → Option Oid
  | [] => none
  | o :: os => if o.number = n then some o else findNumber n os

/-- `ofp_sysctl_find_oid` (src/ofp_sysctl.c:1420-1463); `k` is how many levels may follow.  A node with a handler takes the
rest of the numbers. -/
def findOid (t : Tree) (l : Nat) : Nat → List Int → Except Err (Oid × List Int)
  | 0, _ => .error .noent
  | _ + 1, [] => .error .noent
  | k + 1, n :: ns =>
    match findNumber n (t.lists l) with
    | none => .error .noent
    | some o =>
      if o.node then
        if o.handler ≠ .none ∨ ns = [] then .ok (o, ns) else findOid t o.child k ns
      else if ns = [] then .ok (o, [])
      else .error .notdir

/-- A request: is there a buffer for the old value, its length, how much was put out, what was put into the buffer; the
new value (`newptr`), how much of it was taken. -/
structure Req where
  old : Bool
  oldlen : Nat
  oldidx : Nat
  out : List UInt8
  new : Option (List UInt8)
  newidx : Nat
deriving DecidableEq, Repr

/-- `sysctl_old_kernel` (src/ofp_sysctl.c:1236-1255). -/
def sysOut (r : Req) (p : List UInt8) : Option Err × Req :=
  let i := if r.old then (if r.oldlen ≤ r.oldidx then 0 else min p.length (r.oldlen - r.oldidx)) else 0
  (if r.old ∧ i ≠ p.length then some .nomem else none,
    { r with oldidx := r.oldidx + p.length, out := r.out ++ p.take i })

/-- `sysctl_new_kernel` (src/ofp_sysctl.c:1257-1267): the bytes taken. -/
def sysIn (r : Req) (l : Nat) : Option Err × Option (List UInt8) × Req :=
  match r.new with
  | none => (none, none, r)
  | some b =>
    if b.length - r.newidx < l then (some .inval, none, r)
    else (none, some ((b.drop r.newidx).take l), { r with newidx := r.newidx + l })

/-- The values of variables. -/
abbrev Vars := Nat → List UInt8

/-- Change a variable. -/
def set (vs : Vars) (v : Nat) (b : List UInt8) : Vars := fun i => if i = v then b else vs i

/-- Overwrite the beginning of a buffer. -/
def poke (b new : List UInt8) : List UInt8 := new ++ b.drop new.length

/-- A string up to the zero (`strlen`), with it. -/
def cstr (b : List UInt8) : List UInt8 := b.takeWhile (· ≠ 0) ++ [0]

/-- An `int` as a number, in little-endian byte order. -/
def toInt (b : List UInt8) : Int :=
  let n : Nat := b.foldr (fun x n => x.toNat + 256 * n) 0
  if n < 2 ^ 31 then n else (n : Int) - 2 ^ 32

/-- A number as an `int` (truncated). -/
def ofInt (i : Int) : List UInt8 :=
  let n := (i % 2 ^ 32).toNat
  [UInt8.ofNat n, UInt8.ofNat (n / 256), UInt8.ofNat (n / 65536), UInt8.ofNat (n / 16777216)]

/-- Truncation of a 64-bit number to `int`. -/
def wrap (i : Int) : Int := (i + 2 ^ 31) % 2 ^ 32 - 2 ^ 31

/-- `sysctl_handle_int`, `sysctl_handle_long`, `sysctl_handle_64` on a variable (src/ofp_sysctl.c:1034-1058, :1090-1125,
:1130-1150). -/
def doNumber (vs : Vars) (v size : Nat) (r : Req) : Option Err × Vars × Req :=
  match sysOut r (vs v) with
  | (some e, r) => (some e, vs, r)
  | (none, r) =>
    match sysIn r size with
    | (e, some b, r) => (e, set vs v b, r)
    | (e, none, r) => (e, vs, r)

/-- `hz` (include/ofpi_timer.h:22-28): ticks in a second.  It is of type `unsigned long`, so what is computed with it is. -/
def hz : Int := 100

/-- Is a string of `n` bytes too long for the buffer (src/ofp_sysctl.c:1183)?  The length is compared as an `int`. -/
def tooLong (n max : Nat) : Bool := decide (wrap n ≥ max)

/-- `sysctl_handle_string` (src/ofp_sysctl.c:1160-1192). -/
def doString (vs : Vars) (v max : Nat) (r : Req) : Option Err × Vars × Req :=
  match sysOut r (cstr (vs v)) with
  | (some e, r) => (some e, vs, r)
  | (none, r) =>
    match r.new with
    | none => (none, vs, r)
    | some b =>
      if tooLong (b.length - r.newidx) max then (some .inval, vs, r)
      else
        match sysIn r (b.length - r.newidx) with
        | (e, some b, r) => (e, set vs v (poke (vs v) (b ++ [0])), r)
        | (e, none, r) => (e, vs, r)

/-- Ticks in milliseconds (src/ofp_sysctl.c:1071). -/
def toMsec (tt : Int) : Int := wrap (tt * 1000 % 2 ^ 64 / hz)

/-- Milliseconds in ticks (src/ofp_sysctl.c:1077). -/
def toTicks (s : Int) : Int := wrap (s * hz % 2 ^ 64 / 1000)

/-- `sysctl_msec_to_ticks` (src/ofp_sysctl.c:1064-1084). -/
def doMsec (vs : Vars) (v : Nat) (r : Req) : Option Err × Vars × Req :=
  match sysOut r (ofInt (toMsec (toInt (vs v)))) with
  | (some e, r) => (some e, vs, r)
  | (none, r) =>
    match sysIn r 4 with
    | (some e, _, r) => (some e, vs, r)
    | (none, none, r) => (none, vs, r)
    | (none, some b, r) =>
      if toTicks (toInt b) < 1 then (some .inval, vs, r) else (none, set vs v (ofInt (toTicks (toInt b))), r)

/-- `sysctl_handle_int` on a constant (src/ofp_sysctl.c:1042-1056). -/
def doConst (vs : Vars) (b : List UInt8) (r : Req) : Option Err × Vars × Req :=
  match sysOut r b with
  | (some e, r) => (some e, vs, r)
  | (none, r) => (if r.new.isSome then some .perm else none, vs, r)

/-- The handlers; `sysctl_handle_opaque` (src/ofp_sysctl.c:1199-1230) without migration to another CPU. -/
def handle (vs : Vars) (h : Handler) (r : Req) : Option Err × Vars × Req :=
  match h with
  | .number v size => doNumber vs v size r
  | .opaque v size => doNumber vs v size r
  | .const b => doConst vs b r
  | .string v max => doString vs v max r
  | .msec v => doMsec vs v r
  | .name2oid => (none, vs, r)
  | .proc => (none, vs, r)
  | .none => (some .inval, vs, r)

/-- `sysctl_root` (src/ofp_sysctl.c:1470-1560). -/
def root (t : Tree) (vs : Vars) (ns : List Int) (r : Req) : Option Err × Vars × Req :=
  match findOid t 0 maxName ns with
  | .error e => (some e, vs, r)
  | .ok (o, _) =>
    if o.node ∧ o.handler = .none then (some .isdir, vs, r)
    else if r.new.isSome ∧ o.write = false then (some .perm, vs, r)
    else handle vs o.handler r

/-- What a call gives back: the error, what is in the buffer, `*retval` if it was set. -/
structure Res where
  err : Option Err
  out : List UInt8
  retval : Option Nat
deriving DecidableEq, Repr

/-- `ofp_sysctl` (src/ofp_sysctl.c:1710-1716), `kernel_sysctlbyname`, `ofp_kernel_sysctl` (src/ofp_sysctl.c:1269-1317).  `old`
is the length of the buffer for the old value, if there is one. -/
def sysctl (t : Tree) (vs : Vars) (name : List Char) (old : Option Nat) (new : Option (List UInt8)) : Vars × Res :=
  match name2oid t name with
  | .error e => (vs, ⟨some e, [], none⟩)
  | .ok ns =>
    let x := root t vs ns ⟨old.isSome, old.getD 0, 0, [], new, 0⟩
    (x.2.1, ⟨x.1, x.2.2.out,
      if x.1 = none ∨ x.1 = some .nomem then
        some (if old.isSome ∧ x.2.2.oldidx > old.getD 0 then old.getD 0 else x.2.2.oldidx)
      else none⟩)

/-- What can happen to the tree: entries of the program are registered, others added. -/
inductive Op where
  | register (l : Nat) (o : Oid)
  | add (l : Nat) (o : Oid)

/-- One such call. -/
def apply (t : Tree) : Op → Tree
  | .register l o => register t l o
  | .add l o => (addOid t l o).1

/-- The tree at the start, with `n` lists declared in the program. -/
def Tree.init (n : Nat) : Tree := ⟨fun _ => [], n, autoStart⟩

end Verif.Sysctl

import Mathlib.Data.List.Perm.Basic
import Mathlib.Data.List.Nodup
/-!
# Model of `src/ofp_uma.c`

Zones are ODP buffer pools.  ODP itself is modelled by its contract: creating a pool yields buffers
in fresh, pairwise disjoint memory; allocation yields any free buffer of the pool or fails; freeing
a buffer puts it back into its pool.  Memory is byte addressed; the 8-byte header in front of every
object is represented by `hdr`, which any write that overlaps it destroys.
-/
namespace Verif.Uma

/-- An ODP pool: size of its buffers, all buffers (base addresses), free buffers. -/
structure Pool where
  len : Nat
  all : List Nat
  free : List Nat
deriving DecidableEq, Repr

/-- `struct ofp_uma_mem` (src/ofp_uma.c:14-17), the ODP pools, the headers and the memory. -/
structure St where
  tab : Nat → Option Nat
  num : Nat
  pools : Nat → Option Pool
  fresh : Nat
  hdr : Nat → Option (Nat × Nat)
  mem : Nat → Nat

/-- OFP_NUM_UMA_POOLS (include/ofpi_uma.h:31). -/
def maxPools : Nat := 32

/-- Results.  `undef`: the C code leaves defined behaviour (outside the array, ODP called with an
invalid pool, unknown header). -/
inductive Res
  | zone (z : Int)
  | ptr (p : Nat)
  | null
  | code (c : Int)
  | done
  | undef
deriving DecidableEq, Repr

/-- Function update. -/
def put {α : Type} (f : Nat → α) (i : Nat) (v : α) : Nat → α := fun x => if x = i then v else f x

/-- Start (src/ofp_uma.c:151-166). -/
def init : St := ⟨fun _ => none, 0, fun _ => none, 0, fun _ => none, fun _ => 0⟩

/-- `ofp_uma_pool_create` (src/ofp_uma.c:29-62).  `ans` is ODP's answer: buffer addresses and size. -/
def create (s : St) (ans : Option (List Nat × Nat)) : St × Res :=
  if s.num ≥ maxPools then (s, .zone (-1))
  else
    match ans with
    | none => (s, .zone (-1))
    | some b =>
      ({ s with
         pools := put s.pools s.fresh (some ⟨b.2, b.1, b.1⟩)
         fresh := s.fresh + 1
         tab := put s.tab s.num (some s.fresh)
         num := s.num + 1 }, .zone s.num)

/-- `ofp_uma_pool_destroy` (src/ofp_uma.c:64-78).  `ok`: ODP destroys the pool.  Zone 32 passes the
test of line 68 and addresses an element after the end of the array. -/
def destroy (s : St) (zone : Int) (ok : Bool) : St × Res :=
  if zone > maxPools ∨ zone < 0 then (s, .code (-1))
  else if zone = maxPools then (s, .undef)
  else
    match s.tab zone.toNat with
    | none => (s, .code (-1))
    | some pid =>
      ({ s with
         pools := if ok then put s.pools pid none else s.pools
         tab := put s.tab zone.toNat none }, .code (if ok then 0 else -1))

/-- Bytes `lo .. hi-1` are overwritten: headers that overlap them are gone. -/
def clobber (h : Nat → Option (Nat × Nat)) (lo hi : Nat) : Nat → Option (Nat × Nat) :=
  fun x => if x < hi ∧ lo < x + 8 then none else h x

/-- Fill bytes `lo .. hi-1`. -/
def fill (m : Nat → Nat) (lo hi v : Nat) : Nat → Nat :=
  fun x => if lo ≤ x ∧ x < hi then v else m x

/-- The successful part of `ofp_uma_pool_alloc` (src/ofp_uma.c:96-102): the header is written, the
rest is zeroed on request.  (Header bytes are shown as 255 in `mem`.) -/
def allocAt (s : St) (pid : Nat) (P : Pool) (zero : Bool) (a : Nat) : St × Res :=
  let h1 := put (clobber s.hdr a (a + 8)) a (some (pid, a))
  let m1 := fill s.mem a (a + 8) 255
  ({ s with
     pools := put s.pools pid (some { P with free := P.free.erase a })
     hdr := if zero then clobber h1 (a + 8) (a + P.len) else h1
     mem := if zero then fill m1 (a + 8) (a + P.len) 0 else m1 }, .ptr (a + 8))

/-- `odp_buffer_alloc` and what follows (src/ofp_uma.c:90-102) on a pool. -/
def allocFrom (s : St) (pid : Nat) (zero : Bool) (choice : Option Nat) : Option Pool → St × Res
  | none => (s, .undef)
  | some P =>
    match choice with
    | none => (s, .null)
    | some a => allocAt s pid P zero a

/-- `ofp_uma_pool_alloc` (src/ofp_uma.c:80-103).  `choice`: the buffer ODP picks, if any. -/
def alloc (s : St) (zone : Int) (zero : Bool) (choice : Option Nat) : St × Res :=
  if zone < 0 ∨ zone ≥ s.num then (s, .null)
  else
    match s.tab zone.toNat with
    | none => (s, .undef)
    | some pid => allocFrom s pid zero choice (s.pools pid)

/-- `odp_buffer_free` of the handle found in the header (src/ofp_uma.c:110). -/
def freeTo (s : St) (h : Nat × Nat) : Option Pool → St × Res
  | none => (s, .undef)
  | some P => ({ s with
      pools := put s.pools h.1 (some { P with free := h.2 :: P.free }) }, .done)

/-- `ofp_uma_pool_free` (src/ofp_uma.c:105-111). -/
def free (s : St) (p : Nat) : St × Res :=
  match s.hdr (p - 8) with
  | none => (s, .undef)
  | some h => freeTo s h (s.pools h.1)

/-- The application stores a byte at offset `off` of an object. -/
def write (s : St) (p off v : Nat) : St × Res :=
  ({ s with
     hdr := clobber s.hdr (p + off) (p + off + 1)
     mem := put s.mem (p + off) v }, .done)

/-- Calls. -/
inductive Op
  | create (nitems size : Nat) (ans : Option (List Nat × Nat))
  | destroy (zone : Int) (ok : Bool)
  | alloc (zone : Int) (zero : Bool) (choice : Option Nat)
  | free (p : Nat)
  | write (p off v : Nat)
deriving DecidableEq, Repr

/-- One call. -/
def step (s : St) : Op → St × Res
  | .create _ _ ans => create s ans
  | .destroy z ok => destroy s z ok
  | .alloc z zero c => alloc s z zero c
  | .free p => free s p
  | .write p off v => write s p off v

end Verif.Uma

import Verif.Timer.Spec
/-!
# Model of the long-timer wheel of `src/ofp_timer.c`

The spinlock makes start, cancel and the list manipulation of a tick atomic.  The callbacks of a tick run
after the slot has been detached and the lock released (src/ofp_timer.c:79-89): starts and cancels they or
other threads issue meanwhile are, for the table, actions after the tick.

Not modelled: timers below `OFP_TIMER_MAX_US` (10 s), which are ODP timers; `ofp_timer_term_global`; the
re-arming of the one-second ODP timer (src/ofp_timer.c:92).
-/
namespace Verif.Timer
open Spec

/-- `struct ofp_timer_internal` (src/ofp_timer.c:22-29): `id` and callback with argument. -/
abbrev Entry (β : Type) := BitVec 64 × β

/-- The relevant part of `struct ofp_timer_mem` (src/ofp_timer.c:44-57).  `long_table[]` is a function from
slot number to list, `bufs` the number of free buffers of `buf_pool`. -/
structure St (β : Type) where
  table : Nat → List (Entry β)
  sec : Nat
  id : BitVec 64
  bufs : Nat

/-- `TIMER_NUM_LONG_SLOTS` (src/ofp_timer.c:38); `x & TIMER_LONG_MASK` is `x % slots`. -/
def slots : Nat := 8192

/-- State after `ofp_timer_shm_init` (src/ofp_timer.c:66-77), with `n` buffers. -/
def init {β : Type} (n : Nat) : St β := ⟨fun _ => [], 0, 0#64, n⟩

/-- Assignment to `long_table[ix]`. -/
def setSlot {β : Type} (f : Nat → List (Entry β)) (ix : Nat) (l : List (Entry β)) : Nat → List (Entry β) :=
  fun k => if k = ix then l else f k

/-- `((shm->id++) << TIMER_LONG_SHIFT) | ix | OFP_TIMER_MASK` (src/ofp_timer.c:397, 42). -/
def mkId (id : BitVec 64) (ix : Nat) : BitVec 64 :=
  (id <<< 13) ||| BitVec.ofNat 64 ix ||| ((1#64) <<< 63)

/-- `ofp_timer_start_cpu_id`, long branch (src/ofp_timer.c:351-403).  A timeout of more than 8192 s is only
logged (390-392). -/
def start {β : Type} (s : St β) (us : Nat) (p : β) : St β × Out β :=
  if s.bufs = 0 then (s, .noTimer)
  else if us < 10000000 then (s, .short)
  else
    let sec := us / 1000000
    let ix := (s.sec + sec) % slots
    let id := mkId s.id ix
    ({ table := setSlot s.table ix ((id, p) :: s.table ix), sec := s.sec, id := s.id + 1#64,
       bufs := s.bufs - 1 }, .started id)

/-- The search loop of `ofp_timer_cancel` (src/ofp_timer.c:461-478): remove the first entry with that id;
`none` if there is none. -/
def unlink {β : Type} (t : BitVec 64) : List (Entry β) → Option (List (Entry β))
  | [] => none
  | e :: l => if e.1 = t then some l else (unlink t l).map (e :: ·)

/-- `ofp_timer_cancel` (src/ofp_timer.c:447-503) for a handle with `OFP_TIMER_MASK` set; other handles are
ODP's (out of the model: `short`; `ODP_TIMER_INVALID` has not the mask). -/
def cancel {β : Type} (s : St β) (t : BitVec 64) : St β × Out β :=
  if t.getLsbD 63 then
    let ix := t.toNat % slots
    match unlink t (s.table ix) with
    | some l => ({ s with table := setSlot s.table ix l, bufs := s.bufs + 1 }, .cancelled 0)
    | none => (s, .cancelled (-1))
  else (s, .short)

/-- `one_sec` (src/ofp_timer.c:79-93): advance, detach the slot, call back and free every entry. -/
def oneSec {β : Type} (s : St β) : St β × Out β :=
  let sec := (s.sec + 1) % slots
  ({ table := setSlot s.table sec [], sec := sec, id := s.id,
     bufs := s.bufs + (s.table sec).length }, .fired (s.table sec))

/-- One action. -/
def step {β : Type} (s : St β) : Op β → St β × Out β
  | .start us p => start s us p
  | .cancel t => cancel s t
  | .tick => oneSec s

/-- A history of actions: final state and observations. -/
def run {β : Type} (s : St β) : List (Op β) → St β × List (Out β)
  | [] => (s, [])
  | op :: ops =>
    let p := step s op
    let q := run p.1 ops
    (q.1, p.2 :: q.2)

end Verif.Timer

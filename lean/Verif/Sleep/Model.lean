/-!
# Sleeping and waking

Modelled: `ofp_msleep`, `_ofp_wakeup`, `ofp_wakeup`, `ofp_wakeup_one`, `sleep_timeout` (src/ofp_uipc_socket.c:2533-2655) with the
sleeper records in shared memory (141-165, 278-283), running in any number of threads.  One event per critical section of
`sleep_lock`.  Waiting for the flag and the mutex of the caller are in `Verif.Sleep.Monitor`.

Not modelled: `ofp_timer_start` failing; priorities and names; when timers fire (any time).
-/
namespace Verif.Sleep

/-- `struct sleeper` (src/ofp_uipc_socket.c:153-160).  Channel 0 is the null pointer; `thr` is the thread that holds the
record in its local variable `sleepy`. -/
structure Rec where
  thr : Nat
  chan : Nat
  go : Bool
  byTimer : Bool
  tmo : Option Nat
deriving DecidableEq, Repr

/-- A running timer: handle and argument of `sleep_timeout` (src/ofp_uipc_socket.c:2537-2546); `owner` is the thread that
started it (ghost). -/
structure Tmr where
  handle : Nat
  owner : Nat
  chan : Nat
deriving DecidableEq, Repr

/-- Shared memory: records, `free_sleepers`, `sleep_list`; `held`: the records threads inside `ofp_msleep` point to, latest
first; running timers and the next timer handle. -/
structure S where
  mem : Nat → Rec
  free : List Nat
  list : List Nat
  held : List Nat
  timers : List Tmr
  next : Nat

/-- `ofp_socket_init_global` with `n` records (src/ofp_uipc_socket.c:278-283). -/
def init (n : Nat) : S :=
  { mem := fun _ => ⟨0, 0, false, false, none⟩, free := List.range n, list := [], held := [], timers := [], next := 0 }

/-- Write one record. -/
def put (mem : Nat → Rec) (i : Nat) (x : Rec) : Nat → Rec := fun j => if j = i then x else mem j

/-- What `_ofp_wakeup` does to the sleeper it wakes (src/ofp_uipc_socket.c:2617-2621). -/
def mark (tmo : Bool) (x : Rec) : Rec :=
  if tmo then { x with go := true, byTimer := true, tmo := none } else { x with go := true }

/-- The loop of `_ofp_wakeup` (src/ofp_uipc_socket.c:2608-2628): records and the list without the sleepers woken. -/
def wakeLoop (c : Nat) (one tmo : Bool) : (Nat → Rec) → List Nat → (Nat → Rec) × List Nat
  | mem, [] => (mem, [])
  | mem, p :: r =>
    if (mem p).chan = c then
      let mem1 := put mem p (mark tmo (mem p))
      if one then (mem1, r) else wakeLoop c one tmo mem1 r
    else
      let q := wakeLoop c one tmo mem r
      (q.1, p :: q.2)

/-- `_ofp_wakeup` (src/ofp_uipc_socket.c:2600-2632). -/
def wake (s : S) (c : Nat) (one tmo : Bool) : S :=
  let q := wakeLoop c one tmo s.mem s.list
  { s with mem := q.1, list := q.2 }

/-- Events. -/
inductive Ev where
  /-- Thread `t` calls `ofp_msleep` on channel `c`; `timed`: with a timeout (2548-2579). -/
  | sleep (t c : Nat) (timed : Bool)
  /-- A critical section of `ofp_wakeup`, `ofp_wakeup_one`: `_ofp_wakeup(c, one, 0)` (2634-2655). -/
  | wake (c : Nat) (one : Bool)
  /-- The timer with this handle fires: `sleep_timeout` (2541-2546). -/
  | fire (h : Nat)
  /-- Thread `t` sees its flag and leaves `ofp_msleep` (2590-2603). -/
  | ret (t : Nat)
deriving DecidableEq, Repr

/-- Results: nothing, sleeping, `OFP_ENOMEM`, returned (`true`: `OFP_EWOULDBLOCK`), not possible. -/
inductive Res where
  | none | sleeping | nomem | woke (timeout : Bool) | blocked
deriving DecidableEq, Repr

/-- The record of a thread. -/
def recOf (s : S) (t : Nat) : Option Nat := s.held.find? fun r => (s.mem r).thr = t

/-- One event.  A thread makes one call at a time. -/
def step (s : S) : Ev → Res × S
  | .sleep t c timed =>
    match recOf s t with
    | some _ => (.blocked, s)
    | none =>
      match s.free with
      | [] => (.nomem, s)
      | p :: r =>
        (.sleeping, { s with mem := put s.mem p ⟨t, c, false, false, if timed then some s.next else none⟩, free := r, list := p :: s.list,
                             held := p :: s.held, timers := if timed then ⟨s.next, t, c⟩ :: s.timers else s.timers, next := s.next + 1 })
  | .wake c one => (.none, wake s c one false)
  | .fire h =>
    match s.timers.find? (·.handle = h) with
    | none => (.blocked, s)
    | some m => (.none, wake { s with timers := s.timers.filter (·.handle ≠ h) } m.chan true true)
  | .ret t =>
    match recOf s t with
    | none => (.blocked, s)
    | some p =>
      if (s.mem p).go then
        (.woke (s.mem p).byTimer,
          { s with free := p :: s.free, held := s.held.erase p,
                   timers := match (s.mem p).tmo with | none => s.timers | some h => s.timers.filter (·.handle ≠ h) })
      else (.blocked, s)

/-- `ofp_wakeup(c)`, `ofp_wakeup_one(c)` as critical sections. -/
def wakeupCall (c : Nat) (one : Bool) : List Ev := (if c = 0 then [] else [.wake 0 false]) ++ [.wake c one]

end Verif.Sleep

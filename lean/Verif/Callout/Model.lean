/-!
# The timers of TCP connections

Model of the callouts of a connection (include/ofpi_callout.h:52-124), of the short timers below
them (`ofp_timer_start_cpu_id`, `ofp_timer_cancel`, `ofp_timer_handle` in src/ofp_timer.c) and of
the part of ODP they use: a pool of timers with reusable handles; a timer that runs out sends an
event to a queue served by any core (`ODP_SCHED_SYNC_PARALLEL`, src/ofp_timer.c:132-135).

Timeouts of `OFP_TIMER_MAX_US` or more take another path, whose handles are never reused; it is
modelled in `Timer`.  A callout is identified by its place in memory: when a connection is closed
(`callout_stop` on each of its timers, src/ofp_tcp_subr.c:915-919) and its control block is given
to a new connection, the same callouts are used again (`callout_init`, src/ofp_tcp_subr.c:765-769).
-/

namespace Verif.Callout

/-- An ODP timer: not allocated; allocated and running for a callout; run out, its event waiting
in the queue; its event being handled. -/
inductive TSt where
  | free
  | armed (at_ : Nat) (c : Nat)
  | queued (c : Nat)
  | running (c : Nat)
  deriving Repr, DecidableEq

/-- `struct callout` (include/ofpi_callout.h:52-66): `odptmo`, `CALLOUT_ACTIVE`.  `due` only
observes: the moment the last arming asked for, until the callout runs or is stopped. -/
structure Co where
  tmo : Option Nat
  act : Bool
  due : Option Nat
  deriving Repr, DecidableEq

/-- A run of a callout's function past its test of `callout_active`: which, when, and for which
arming. -/
structure Run where
  c : Nat
  at_ : Nat
  due : Option Nat
  deriving Repr, DecidableEq

structure St where
  now : Nat
  tim : Nat → TSt
  co : Nat → Co
  log : List Run

/-- Everything unused. -/
def init : St := { now := 0, tim := fun _ => .free, co := fun _ => ⟨none, false, none⟩, log := [] }

def upd {α : Type} (f : Nat → α) (i : Nat) (v : α) : Nat → α := fun j => if j = i then v else f j

/-- `ofp_timer_cancel` for a short timer (src/ofp_timer.c:448-505): `odp_timer_cancel` succeeds
only on a running timer, which is then released together with its buffers; otherwise a warning. -/
def cancel (tim : Nat → TSt) : Option Nat → (Nat → TSt)
  | none => tim
  | some h => match tim h with
    | .armed _ _ => upd tim h .free
    | _ => tim

/-- Events. -/
inductive Op where
  /-- Time passes. -/
  | pass (d : Nat)
  /-- ODP: a timer whose time has come sends its event. -/
  | expire (h : Nat)
  /-- A core takes the event and runs the callback (src/ofp_timer.c:507-515). -/
  | handle (h : Nat)
  /-- After the callback: `odp_timer_free` (src/ofp_timer.c:517-519). -/
  | finish (h : Nat)
  /-- `callout_reset_on` with a delay; `h` is the handle ODP hands out, `none` if the pool is
  empty. -/
  | reset (c d : Nat) (h : Option Nat)
  /-- `callout_stop`; also closing the connection. -/
  | stop (c : Nat)
  deriving Repr, DecidableEq

/-- One event.  `delack c`: the callout is a delayed-ACK timer, whose function forgets the handle
before anything else (src/ofp_tcp_timer.c:159-160); the others do not.  All return at once if the
callout is not active and otherwise mark it inactive and do their work
(src/ofp_tcp_timer.c:175-180, 217-223, 284-290, 378-384, 446-452); what they do to callouts
appears as further `reset` and `stop` events. -/
def step (delack : Nat → Bool) (s : St) : Op → St
  | .pass d => { s with now := s.now + d }
  | .expire h => match s.tim h with
    | .armed t c => if t ≤ s.now then { s with tim := upd s.tim h (.queued c) } else s
    | _ => s
  | .handle h => match s.tim h with
    | .queued c =>
      let k := s.co c
      let k := if delack c then { k with tmo := none } else k
      if k.act then
        { s with tim := upd s.tim h (.running c), co := upd s.co c { k with act := false, due := none },
                 log := ⟨c, s.now, k.due⟩ :: s.log }
      else { s with tim := upd s.tim h (.running c), co := upd s.co c k }
    | _ => s
  | .finish h => match s.tim h with
    | .running _ => { s with tim := upd s.tim h .free }
    | _ => s
  | .reset c d oh =>
    let tim := cancel s.tim (s.co c).tmo
    match oh with
    | some h =>
      if tim h = .free then
        { s with tim := upd tim h (.armed (s.now + d) c), co := upd s.co c ⟨some h, true, some (s.now + d)⟩ }
      else { s with tim := tim, co := upd s.co c ⟨none, true, some (s.now + d)⟩ }
    | none => { s with tim := tim, co := upd s.co c ⟨none, true, some (s.now + d)⟩ }
  | .stop c => { s with tim := cancel s.tim (s.co c).tmo, co := upd s.co c ⟨none, false, none⟩ }

def run (delack : Nat → Bool) (s : St) (ops : List Op) : St := ops.foldl (step delack) s

end Verif.Callout

/-!
# What a user expects of OFP's long timers

Operations of the user and of the clock, what each returns, and how to read off a history when a timer
called back.  Nothing here depends on how the timers are stored.
-/
namespace Verif.Timer.Spec

/-- An action: start a timer (timeout in microseconds; `p` stands for the callback and its argument), cancel a
timer, or a one-second clock tick. -/
inductive Op (β : Type) where
  | start (us : Nat) (p : β)
  | cancel (id : BitVec 64)
  | tick
deriving DecidableEq

/-- What is observed: the handle returned by start (`noTimer` = `ODP_TIMER_INVALID`; `short` = the timer was
handed to ODP's own timer service), the return code of cancel, the callbacks run by a tick. -/
inductive Out (β : Type) where
  | started (id : BitVec 64)
  | noTimer
  | short
  | cancelled (rc : Int)
  | fired (l : List (BitVec 64 × β))
deriving DecidableEq

/-- Callbacks of timer `i` in a list of observations: for each call, the number of the tick (counting from
`t + 1`) in which it happened and what was called. -/
def firings {β : Type} (i : BitVec 64) : Nat → List (Out β) → List (Nat × β)
  | _, [] => []
  | t, .fired l :: os =>
    (l.filter (fun e => e.1 == i)).map (fun e => (t + 1, e.2)) ++ firings i (t + 1) os
  | t, _ :: os => firings i t os

/-- Number of clock ticks in a list of actions. -/
def ticks {β : Type} : List (Op β) → Nat
  | [] => 0
  | .tick :: os => ticks os + 1
  | _ :: os => ticks os

end Verif.Timer.Spec

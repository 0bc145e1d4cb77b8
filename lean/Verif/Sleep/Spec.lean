import Verif.Sleep.Model
/-! # Sleeping, as the callers see it: no records, no lists -/
namespace Verif.Sleep

/-- The threads inside `ofp_msleep`, latest first, and the running timers. -/
structure Abs where
  inside : List Rec
  timers : List Tmr
  next : Nat
deriving DecidableEq, Repr

/-- Wake the first that sleeps on channel `c`. -/
def wakeFirst (c : Nat) (tmo : Bool) : List Rec → List Rec
  | [] => []
  | x :: l => if x.chan = c ∧ x.go = false then mark tmo x :: l else x :: wakeFirst c tmo l

/-- Wake all that sleep on channel `c`. -/
def wakeAll (c : Nat) (tmo : Bool) (l : List Rec) : List Rec :=
  l.map fun x => if x.chan = c ∧ x.go = false then mark tmo x else x

/-- The machine callers see, with room for `n` sleepers. -/
def spec (n : Nat) (a : Abs) : Ev → Res × Abs
  | .sleep t c timed =>
    if a.inside.any (·.thr = t) then (.blocked, a)
    else if a.inside.length = n then (.nomem, a)
    else (.sleeping, ⟨⟨t, c, false, false, if timed then some a.next else none⟩ :: a.inside,
            if timed then ⟨a.next, t, c⟩ :: a.timers else a.timers, a.next + 1⟩)
  | .wake c one => (.none, { a with inside := if one then wakeFirst c false a.inside else wakeAll c false a.inside })
  | .fire h =>
    match a.timers.find? (·.handle = h) with
    | none => (.blocked, a)
    | some m => (.none, { a with inside := wakeFirst m.chan true a.inside, timers := a.timers.filter (·.handle ≠ h) })
  | .ret t =>
    match a.inside.find? (·.thr = t) with
    | none => (.blocked, a)
    | some x =>
      if x.go then
        (.woke x.byTimer, { a with inside := a.inside.eraseP (·.thr = t),
                                   timers := match x.tmo with | none => a.timers | some h => a.timers.filter (·.handle ≠ h) })
      else (.blocked, a)

/-- Thread `t` sleeps on channel `c`. -/
def Asleep (a : Abs) (t c : Nat) : Prop := ∃ x ∈ a.inside, x.thr = t ∧ x.chan = c ∧ x.go = false

/-- Thread `t` has been woken (`b`: with a timeout error) and can return. -/
def Woken (a : Abs) (t : Nat) (b : Bool) : Prop := ∃ x ∈ a.inside, x.thr = t ∧ x.go = true ∧ x.byTimer = b

/-- Run events, earliest first: the results and the state. -/
def runSpec (n : Nat) : Abs → List Ev → List Res × Abs
  | a, [] => ([], a)
  | a, e :: l => let q := runSpec n (spec n a e).2 l; ((spec n a e).1 :: q.1, q.2)

/-- The same for the code. -/
def run : S → List Ev → List Res × S
  | s, [] => ([], s)
  | s, e :: l => let q := run (step s e).2 l; ((step s e).1 :: q.1, q.2)

end Verif.Sleep

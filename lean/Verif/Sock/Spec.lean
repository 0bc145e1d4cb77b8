import Verif.Sock.Model
/-! # What the application sees of sockets -/
namespace Verif.Sock

/-- A record of what happened: event and result. -/
abbrev Log := List (Ev × Option Nat)

/-- The descriptors the application holds: returned by `ofp_socket` or `ofp_accept`, and not yet closed. -/
def opened : Log → List Nat
  | [] => []
  | (.socket _ _, some i) :: l => i :: opened l
  | (.accept2 _, some i) :: l => i :: opened l
  | (.closeEnd _, some i) :: l => (opened l).erase i
  | _ :: l => opened l

/-- The application uses only descriptors it holds, and does nothing but `ofp_accept` with one that is being closed. -/
def Legal (s : S) (l : Log) : Ev → Prop
  | .listen i _ => i ∈ opened l ∧ (s.so i).pc = 0
  | .connect i => i ∈ opened l ∧ (s.so i).pc = 0
  | .shutdown i => i ∈ opened l ∧ (s.so i).pc = 0
  | .accept1 i => i ∈ opened l
  | .closeDisc i _ _ => i ∈ opened l
  | .closePru i _ => i ∈ opened l
  | .closeDeq i => i ∈ opened l
  | .closeEnd i => i ∈ opened l
  | _ => True

/-- Histories with `n` sockets, latest event first. -/
inductive Hist (n : Nat) : Log → S → Prop where
  | nil : Hist n [] (init n)
  | cons {l : Log} {s : S} (ev : Ev) : Hist n l s → Legal s l ev → Hist n ((ev, (step s ev).1) :: l) (step s ev).2

/-- The connection of a socket is over: the control block is dropped or there is none. -/
def finished (s : S) (i : Nat) : Prop := ∀ p, (s.so i).pcb = some p → p.dropped = true

/-- The sockets that became established connections of the listening socket `h`, in order (a log has the latest event
first). -/
def completed (h : Nat) : Log → List Nat
  | [] => []
  | (.established i, r) :: l => completed h l ++ (if r = some h then [i] else [])
  | _ :: l => completed h l

/-- The sockets taken from the listening socket `h` by `ofp_accept`, in order. -/
def accepted (h : Nat) : Log → List Nat
  | [] => []
  | (.accept1 k, r) :: l => accepted h l ++ (if k = h then r.toList else [])
  | _ :: l => accepted h l

/-- The log shows no closing of `h`. -/
def NotClosed (h : Nat) (l : Log) : Prop := ∀ e ∈ l, e.1 ≠ .closeDeq h ∧ e.1 ≠ .closeEnd h

/-- The log shows no call of `ofp_accept` that dequeued a connection and then failed. -/
def NoFailedAccept (l : Log) : Prop := ∀ i, (Ev.accept2 i, none) ∉ l

end Verif.Sock

import Verif.Mcast.Model

/-!
# What multicast memberships are to a program

RFC 3678: a socket is a member of groups on interfaces; each membership has a filter, which either
names the only sources wanted or the sources not wanted.
-/

namespace Verif.Mcast.Spec

open Verif.Mcast (Op Err Env)

/-- A membership with its filter: `excl`: everything but the listed sources is wanted; otherwise
only these. -/
@[ext] structure M where
  sock : Nat
  ifp : Nat
  grp : Nat
  excl : Bool
  lst : Nat → Bool

/-- Is a datagram of this source wanted? -/
def M.wants (m : M) (a : Nat) : Bool := if m.excl then !m.lst a else m.lst a

/-- The membership a call means: the first of that socket, group and (if given) interface. -/
def find (l : List M) (i : Nat) (ifp : Option Nat) (grp : Nat) : Option M :=
  l.find? (fun m => m.sock = i ∧ (ifp = none ∨ ifp = some m.ifp) ∧ m.grp = grp)

def put (l : List M) (m : M) (excl : Bool) (lst : Nat → Bool) : List M :=
  l.map (fun x => if x.sock = m.sock ∧ x.ifp = m.ifp ∧ x.grp = m.grp then { x with excl := excl, lst := lst } else x)

def drop (l : List M) (m : M) : List M := l.filter (fun x => ¬ (x.sock = m.sock ∧ x.ifp = m.ifp ∧ x.grp = m.grp))

/-- The effect and the return code of each call. -/
def call (l : List M) : Op → List M × Err
  | .join _ none _ _ => (l, .eaddrnotavail)
  | .join i (some k) g src => match find l i (some k) g, src with
    | none, none => (l ++ [⟨i, k, g, true, fun _ => false⟩], .ok)
    | none, some a => (l ++ [⟨i, k, g, false, fun b => b = a⟩], .ok)
    | some m, none => (l, if m.excl then .eaddrinuse else .einval)
    | some m, some a =>
      if m.excl then (l, .einval) else if m.lst a then (l, .eaddrnotavail)
      else (put l m false (fun b => b = a || m.lst b), .ok)
  | .leave i ifp g src => match find l i ifp g, src with
    | none, _ => (l, .eaddrnotavail)
    | some m, none => (drop l m, .ok)
    | some m, some a =>
      if m.excl || !m.lst a then (l, .eaddrnotavail) else (put l m false (fun b => b ≠ a && m.lst b), .ok)
  | .block i ifp g a doblock => match find l i ifp g with
    | none => (l, .eaddrnotavail)
    | some m =>
      if !m.excl then (l, .einval) else if m.lst a = doblock then (l, .eaddrnotavail)
      else (put l m true (fun b => if b = a then doblock else m.lst b), .ok)
  | .set _ none _ _ _ => (l, .eaddrnotavail)
  | .set i (some k) g excl srcs => match find l i (some k) g with
    | none => (l, .eaddrnotavail)
    | some m => (put l m excl (fun b => some b ∈ srcs), .ok)
  | .close i => (l.filter (fun m => m.sock ≠ i), .ok)
  | .igmp _ _ _ => (l, .ok)

/-- Reasons to refuse a call for want of something, `n` being the number of memberships of the
socket, `old` the number of sources in the filter in question. -/
def Lacking (e : Env) (maxs n : Nat) (o : Op) (r : Err) : Prop :=
  match r with
  | .enomem => e.noMem = true
  | .igmp => e.igmpErr = true
  | .etoomanyrefs => n = 4095
  | .enobufs => ∃ i k g m srcs, o = .set i k g m srcs ∧ maxs < srcs.length
  | .eafnosupport => ∃ i k g m srcs, o = .set i k g m srcs ∧ none ∈ srcs
  | .enospc => ∃ i k g m srcs, o = .set i k g m srcs
  | _ => False

end Verif.Mcast.Spec

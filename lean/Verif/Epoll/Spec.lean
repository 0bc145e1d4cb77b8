/-!
# epoll as the user sees it

The interest list is a finite map from descriptors to events, written as an association list whose order is
irrelevant (the theorems speak about it up to permutation).
-/
namespace Verif.Epoll.Spec

/-- `struct ofp_epoll_event`: event mask and user data. -/
structure Event where
  events : BitVec 32
  data : BitVec 64
deriving DecidableEq

/-- The event mask asks for input. -/
def Event.wantsIn (e : Event) : Bool := e.events.getLsbD 0

inductive Err where
  | EBADF | EEXIST | ENOENT | ENOSPC | EINVAL | EFAULT
deriving DecidableEq, Repr

/-- Requests: the operation code is any integer, 1 = add, 2 = delete, 3 = modify. -/
structure Req where
  op : Int
  fd : Int
  ev : Event
deriving DecidableEq

abbrev Reg := List (Int × Event)

def Reg.has (R : Reg) (fd : Int) : Bool := R.any (fun e => e.1 == fd)

/-- What a `epoll_ctl` request on a valid epoll descriptor and a valid target must do, with room for `cap`
descriptors: new interest list, and error if any. -/
def ctl (cap : Nat) (R : Reg) (q : Req) : Reg × Option Err :=
  if q.op = 1 then
    if R.has q.fd then (R, some .EEXIST)
    else if R.length = cap then (R, some .ENOSPC)
    else ((q.fd, q.ev) :: R, none)
  else if q.op = 2 then
    if R.has q.fd then (R.filter (fun e => e.1 != q.fd), none) else (R, some .ENOENT)
  else if q.op = 3 then
    if R.has q.fd then (R.map (fun e => if e.1 = q.fd then (q.fd, q.ev) else e), none)
    else (R, some .ENOENT)
  else (R, some .EINVAL)

/-- Registered descriptors that are to be reported. -/
def ready (readable : Int → Bool) (R : Reg) : Reg :=
  R.filter (fun e => e.2.wantsIn && readable e.1)

end Verif.Epoll.Spec

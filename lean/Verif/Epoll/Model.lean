import Verif.Epoll.Spec
/-!
# Model of `src/ofp_epoll.c`

An epoll object is the array `epoll_set[EPOLL_SET_SIZE]` (16 entries, include/api/ofp_config.h:96) of its
socket; an entry with `fd = -1` is free.  The functions are called without locks; concurrent calls on one
epoll object are not modelled.
-/
namespace Verif.Epoll
open Spec

/-- `struct epoll_set` (include/ofpi_socketvar.h:149-152). -/
structure Slot where
  fd : Int
  ev : Event
deriving DecidableEq

/-- What `get_socket(fd)` returned: `none` = NULL; otherwise whether `so_type == OFP_SOCK_EPOLL`. -/
abbrev Getter := Int → Option Bool

/-- `ofp_get_sock_by_fd` (src/ofp_uipc_socket.c:318-321), the getter installed by default
(src/ofp_epoll.c:56): plain pointer arithmetic, never NULL, whatever `fd` is. `kind` gives the type found
there (for a descriptor outside the table: whatever memory holds). -/
def realGetter (kind : Int → Bool) : Getter := fun fd => some (kind fd)

/-- All slots after `epoll_socket_creator` (src/ofp_epoll.c:19-35).  The events keep the value they had. -/
def fresh (n : Nat) (e : Event) : List Slot := List.replicate n ⟨-1, e⟩

/-- `find_fd` and `is_registered` (src/ofp_epoll.c:82-96). -/
def isReg : List Slot → Int → Bool
  | [], _ => false
  | s :: l, fd => if s.fd = fd then true else isReg l fd

/-- `modify_epoll_set` (src/ofp_epoll.c:98-111): assign to the first entry holding `old`; `none` when there is
none (`set_fd(NULL, ...)`, ENOSPC). -/
def modify : List Slot → Int → Int → Event → Option (List Slot)
  | [], _, _, _ => none
  | s :: l, old, new, ev =>
    if s.fd = old then some (⟨new, ev⟩ :: l)
    else (modify l old new ev).map (s :: ·)

/-- `set_fd`'s result turned into a return value (src/ofp_epoll.c:98-106). -/
def setFd (l : List Slot) : Option (List Slot) → List Slot × Option Err
  | some l' => (l', none)
  | none => (l, some .ENOSPC)

/-- `ofp_epoll_ctl_add` / `_del` / `_mod` and the switch of `_ofp_epoll_ctl` (src/ofp_epoll.c:113-157). -/
def ctlOp (l : List Slot) (q : Req) : List Slot × Option Err :=
  if q.op = 1 then
    if isReg l q.fd then (l, some .EEXIST) else setFd l (modify l (-1) q.fd q.ev)
  else if q.op = 2 then
    if !isReg l q.fd then (l, some .ENOENT) else setFd l (modify l q.fd (-1) ⟨0#32, 0#64⟩)
  else if q.op = 3 then
    if !isReg l q.fd then (l, some .ENOENT) else setFd l (modify l q.fd q.fd q.ev)
  else (l, some .EINVAL)

/-- `ofp_epoll_ctl` and `_ofp_epoll_ctl` (src/ofp_epoll.c:58-64, 140-157).  `l` is the array of the socket
`get_socket(epfd)` points to. -/
def ctl (get : Getter) (epfd : Int) (l : List Slot) (q : Req) : List Slot × Option Err :=
  if epfd = q.fd then (l, some .EINVAL)
  else
    match get epfd, get q.fd with
    | some isEp, some _ => if !isEp then (l, some .EINVAL) else ctlOp l q
    | _, _ => (l, some .EBADF)

/-- `is_ready` (src/ofp_epoll.c:187-193). -/
def isReady (readable : Int → Bool) (s : Slot) : Bool :=
  if s.fd = -1 then false else s.ev.wantsIn && readable s.fd

/-- `none_of_ready` (src/ofp_epoll.c:195-204). -/
def noneReady (readable : Int → Bool) : List Slot → Bool
  | [] => true
  | s :: l => if isReady readable s then false else noneReady readable l

/-- `available_events` (src/ofp_epoll.c:206-216): entries written to `events[]`, `n` being the room left
(`maxevents - ready`). -/
def avail (readable : Int → Bool) : Nat → List Slot → List Event
  | _, [] => []
  | n, s :: l =>
    if 0 < n && isReady readable s then s.ev :: avail readable (n - 1) l
    else avail readable n l

/-- Outcome of `ofp_epoll_wait`: error; undefined behaviour (`timeout * 1000` overflows `int`,
src/ofp_epoll.c:160-163); or the sleep that was done (argument of `ofp_msleep` in microseconds, an `int` converted to
`uint32_t`; 0 = for ever) and the events reported. -/
inductive WaitOut where
  | err (e : Err)
  | ub
  | ok (slept : Option Nat) (events : List Event)
deriving DecidableEq

/-- `_ofp_epoll_wait` (src/ofp_epoll.c:218-240).  `l1`, `r1`: the array and the readability of the descriptors
after the sleep, if there is one.  `evNull`: `events == NULL`. -/
def wait (ep : Option Bool) (evNull : Bool) (maxevents timeout : Int) (l : List Slot) (r : Int → Bool)
    (l1 : List Slot) (r1 : Int → Bool) : WaitOut :=
  match ep with
  | none => .err .EBADF
  | some isEp =>
    if !isEp || maxevents < 1 then .err .EINVAL
    else if evNull then .err .EFAULT
    else if timeout < 0 ∧ timeout ≠ -1 then .err .EINVAL
    else if timeout ≠ 0 ∧ noneReady r l then
      let t := if timeout = -1 then 0 else timeout
      if t * 1000 ≥ 2 ^ 31 then .ub
      else .ok (some (t * 1000 % 2 ^ 32).toNat) (avail r1 maxevents.toNat l1)
    else .ok none (avail r maxevents.toNat l)

end Verif.Epoll

/-!
# IPv4 multicast memberships and source filters

Model of src/ofp_in_mcast.c: joining and leaving groups, blocking sources, setting whole filters
(RFC 3678), the test of a received datagram, and the record every group has per interface.

Sockets, interfaces and addresses are numbers.  The memberships of all sockets are one list; those
of one socket (`imo_membership`, `imo_mfilters`) are its elements for that socket, in order.  The
red-black trees of sources are lists without order (`RB_FIND` by address).  Interface lookup,
parsing of the option structures and the test for a class D address are done by the caller; calls
receive the interface found.  Each call holds the lock of its socket; calls are atomic, except for
`IN_MULTI_LOCK`, which can be left held and is therefore part of the state.
-/

namespace Verif.Mcast

/-- `OFP_MCAST_UNDEFINED`, `OFP_MCAST_INCLUDE`, `OFP_MCAST_EXCLUDE` (include/api/ofp_in.h:539-541). -/
inductive Mode where
  | undef | incl | excl
  deriving Repr, DecidableEq

/-- `struct ofp_in_msource` (include/ofpi_in_var.h:74-78): a source in a socket's filter. -/
structure Src where
  addr : Nat
  s0 : Mode
  s1 : Mode
  deriving Repr, DecidableEq

/-- `struct ofp_in_mfilter` (include/ofpi_in_var.h:97-101); `imf_nsrc` is the number of sources. -/
structure Filt where
  src : List Src
  st0 : Mode
  st1 : Mode
  deriving Repr, DecidableEq

/-- One membership: an element of `imo_membership` and of `imo_mfilters` of a socket. -/
structure Ent where
  sock : Nat
  ifp : Nat
  grp : Nat
  f : Filt
  deriving Repr, DecidableEq

abbrev C16 := BitVec 16

/-- `struct ofp_ip_msource` (include/ofpi_in_var.h:62-70): a source in a group record. -/
structure Node where
  addr : Nat
  ex0 : C16
  in0 : C16
  ex1 : C16
  in1 : C16
  stp : Bool
  deriving Repr, DecidableEq

/-- `struct ofp_in_multi` (include/ofpi_in_var.h:125-162): the group record of an interface, with
its state at t1.  `held` only observes: how many of the references belong to IGMP. -/
structure Inm where
  ifp : Nat
  grp : Nat
  ref : Nat
  held : Nat
  srcs : List Node
  ex : C16
  inc : C16
  asm : C16
  fmode : Mode
  deriving Repr, DecidableEq

/-- `maxg`, `maxs`: `in_mcast_maxgrpsrc` (512), `in_mcast_maxsocksrc` (128); `lock`:
`IN_MULTI_LOCK` was left held. -/
structure St where
  mem : List Ent
  grps : List Inm
  lock : Bool
  maxg : Nat
  maxs : Nat

def init : St := { mem := [], grps := [], lock := false, maxg := 512, maxs := 128 }

inductive Err where
  | ok | einval | eaddrnotavail | eaddrinuse | enomem | enospc | enobufs | etoomanyrefs | eafnosupport | igmp
  deriving Repr, DecidableEq

/-- How a call ends: it returns; it waits for ever for a lock nobody will release; it follows a
pointer that was not set, or of the wrong type. -/
inductive Res where
  | ret (e : Err)
  | hang
  | fault
  deriving Repr, DecidableEq

/-- What happens during a call: memory for a new source of the socket's filter; for a new source
of the group record; does IGMP report an error. -/
structure Env where
  noMem : Bool
  noMemG : Nat → Bool
  igmpErr : Bool

/-! ## Filter of a socket -/

/-- `imf_init` (src/ofp_in_mcast.c:298-305). -/
def imfInit (st1 : Mode) : Filt := { src := [], st0 := .undef, st1 := st1 }

/-- `imf_graft` (src/ofp_in_mcast.c:751-771). -/
def imfGraft (f : Filt) (st1 : Mode) (a : Nat) : Filt := { f with src := ⟨a, .undef, st1⟩ :: f.src }

/-- The filter of a new membership (src/ofp_in_mcast.c:2139-2163). -/
def newFilt : Option Nat → Filt
  | none => imfInit .excl
  | some a => imfGraft (imfInit .incl) .incl a

/-- `imf_prune` (src/ofp_in_mcast.c:779-795); the callers have found the source before. -/
def imfPrune (f : Filt) (a : Nat) : Filt :=
  { f with src := f.src.map (fun s => if s.addr = a then { s with s1 := .undef } else s) }

/-- `imf_rollback` (src/ofp_in_mcast.c:799-822). -/
def imfRollback (f : Filt) : Filt :=
  { src := (f.src.filter (fun s => s.s0 = s.s1 ∨ s.s0 ≠ .undef)).map (fun s => { s with s1 := s.s0 }),
    st0 := f.st0, st1 := f.st0 }

/-- `imf_leave` (src/ofp_in_mcast.c:827-838). -/
def imfLeave (f : Filt) : Filt := { f with src := f.src.map (fun s => { s with s1 := .undef }), st1 := .incl }

/-- `imf_commit` (src/ofp_in_mcast.c:843-854). -/
def imfCommit (f : Filt) : Filt := { f with src := f.src.map (fun s => { s with s0 := s.s1 }), st0 := f.st1 }

/-- `imf_reap` (src/ofp_in_mcast.c:859-875). -/
def imfReap (f : Filt) : Filt := { f with src := f.src.filter (fun s => ¬ (s.s0 = .undef ∧ s.s1 = .undef)) }

/-- `imf_get_source` and the assignment of its caller (src/ofp_in_mcast.c:708-741, 2612-2627). -/
def imfGetSource (maxs : Nat) (noMem : Bool) (f : Filt) (a : Nat) : Except Err Filt :=
  if f.src.any (fun s => s.addr = a) then
    .ok { f with src := f.src.map (fun s => if s.addr = a then { s with s1 := f.st1 } else s) }
  else if f.src.length = maxs then .error .enospc
  else if noMem then .error .enomem
  else .ok { f with src := ⟨a, .undef, f.st1⟩ :: f.src }

/-- The loop of `inp_set_source_filters` (src/ofp_in_mcast.c:2612-2627): the filter as far as it
got, and the error.  A source given as `none` is an address of another family. -/
def imfLoad (maxs : Nat) (noMem : Bool) : Filt → List (Option Nat) → Filt × Err
  | f, [] => (f, .ok)
  | f, none :: _ => (f, .eafnosupport)
  | f, some a :: r => match imfGetSource maxs noMem f a with
    | .error e => (f, e)
    | .ok f' => imfLoad maxs noMem f' r

/-! ## Record of a group -/

/-- `ims_merge` (src/ofp_in_mcast.c:944-974), not rolling back. -/
def imsMerge (n : Node) (s : Src) : Node :=
  let n := match s.s0 with
    | .excl => { n with ex1 := n.ex1 - 1 }
    | .incl => { n with in1 := n.in1 - 1 }
    | .undef => n
  match s.s1 with
    | .excl => { n with ex1 := n.ex1 + 1 }
    | .incl => { n with in1 := n.in1 + 1 }
    | .undef => n

/-- `inm_get_source` with allocation, then `ims_merge` (src/ofp_in_mcast.c:907-938, 1017-1018). -/
def mergeOne (maxg : Nat) (noMem : Nat → Bool) (ns : List Node) (s : Src) : Option (List Node) :=
  if ns.any (fun n => n.addr = s.addr) then some (ns.map (fun n => if n.addr = s.addr then imsMerge n s else n))
  else if ns.length = maxg ∨ noMem s.addr then none
  else some (imsMerge ⟨s.addr, 0, 0, 0, 0, false⟩ s :: ns)

/-- The loop of `inm_merge` (src/ofp_in_mcast.c:1010-1019). -/
def mergeSrcs (maxg : Nat) (noMem : Nat → Bool) : List Node → List Src → Option (List Node)
  | ns, [] => some ns
  | ns, s :: r => if s.s0 = s.s1 then mergeSrcs maxg noMem ns r
    else match mergeOne maxg noMem ns s with
      | none => none
      | some ns' => mergeSrcs maxg noMem ns' r

/-- `inm_reap` (src/ofp_in_mcast.c:1136-1151). -/
def inmReap (ns : List Node) : List Node :=
  ns.filter (fun n => n.ex0 ≠ 0 ∨ n.in0 ≠ 0 ∨ n.ex1 ≠ 0 ∨ n.in1 ≠ 0 ∨ n.stp)

/-- Counters of `inm_merge` (src/ofp_in_mcast.c:1038-1097). -/
def mergeCounts (g : Inm) (f : Filt) : Inm :=
  let nsrc0 := f.src.countP (fun s => s.s0 = f.st0)
  let nsrc1 := f.src.countP (fun s => s.s1 = f.st1)
  let g := if f.st0 = f.st1 ∧ f.st1 = .incl ∧ nsrc1 = 0 then { g with inc := g.inc - 1 } else g
  let g := if f.st0 = f.st1 then g else
    let g := match f.st0 with
      | .excl => { g with ex := g.ex - 1 }
      | .incl => { g with inc := g.inc - 1 }
      | .undef => g
    match f.st1 with
      | .excl => { g with ex := g.ex + 1 }
      | .incl => if nsrc1 > 0 then { g with inc := g.inc + 1 } else g
      | .undef => g
  let g := { g with fmode := if g.ex ≠ 0 then .excl else if g.inc ≠ 0 then .incl else .undef }
  let g := if f.st0 = .excl ∧ nsrc0 = 0 ∧ (f.st1 ≠ .excl ∨ nsrc1 > 0) then { g with asm := g.asm - 1 } else g
  if f.st1 = .excl ∧ nsrc1 = 0 then { g with asm := g.asm + 1 } else g

/-- `inm_merge` (src/ofp_in_mcast.c:990-1113).  `none`: a source could not be added; the code that
should undo what was done (1020-1033) starts from `nims`, which at that point is not set, or
belongs to the other tree. -/
def inmMerge (maxg : Nat) (noMem : Nat → Bool) (g : Inm) (f : Filt) : Option Inm :=
  match mergeSrcs maxg noMem g.srcs f.src with
  | none => none
  | some ns =>
    let g := mergeCounts { g with srcs := ns } f
    some (if f.src.any (fun s => s.s0 ≠ s.s1) then { g with srcs := inmReap g.srcs } else g)

/-- `in_getmulti` (src/ofp_in_mcast.c:473-579). -/
def getMulti (gs : List Inm) (ifp grp : Nat) : List Inm :=
  if gs.any (fun g => g.ifp = ifp ∧ g.grp = grp) then
    gs.map (fun g => if g.ifp = ifp ∧ g.grp = grp then { g with ref := g.ref + 1 } else g)
  else { ifp := ifp, grp := grp, ref := 1, held := 0, srcs := [], ex := 0, inc := 0, asm := 0, fmode := .undef } :: gs

/-- `ofp_inm_release_locked` (src/ofp_in_mcast.c:587-617). -/
def release (gs : List Inm) (ifp grp : Nat) : List Inm :=
  (gs.map (fun g => if g.ifp = ifp ∧ g.grp = grp then { g with ref := g.ref - 1 } else g)).filter (fun g => g.ref ≠ 0)

/-- `inm_merge` on the record of a group. -/
def mergeAt (w : St) (e : Env) (ifp grp : Nat) (f : Filt) : Option (List Inm) :=
  match w.grps.find? (fun g => g.ifp = ifp ∧ g.grp = grp) with
  | none => none
  | some g => match inmMerge w.maxg e.noMemG g f with
    | none => none
    | some g' => some (w.grps.map (fun x => if x.ifp = ifp ∧ x.grp = grp then g' else x))

/-! ## Calls -/

/-- `imo_match_group` (src/ofp_in_mcast.c:362-390). -/
def matchGroup (w : St) (i : Nat) (ifp : Option Nat) (grp : Nat) : Option Ent :=
  w.mem.find? (fun x => x.sock = i ∧ (ifp = none ∨ ifp = some x.ifp) ∧ x.grp = grp)

/-- Storing the filter of a membership. -/
def setFilt (m : List Ent) (e : Ent) (f : Filt) : List Ent :=
  m.map (fun x => if x.sock = e.sock ∧ x.ifp = e.ifp ∧ x.grp = e.grp then { x with f := f } else x)

/-- Removing a membership. -/
def dropEnt (m : List Ent) (e : Ent) : List Ent :=
  m.filter (fun x => ¬ (x.sock = e.sock ∧ x.ifp = e.ifp ∧ x.grp = e.grp))

/-- `inp_join_group` (src/ofp_in_mcast.c:1929-2218).  A socket's arrays have room for 31
memberships at first and grow to 4095 (`imo_grow`, 311-355; memory for the arrays is assumed). -/
def join (w : St) (e : Env) (i : Nat) (ifp : Option Nat) (grp : Nat) (src : Option Nat) : St × Res :=
  match ifp with
  | none => (w, .ret .eaddrnotavail)
  | some k => match matchGroup w i (some k) grp with
    | some x => match src with
      | none => (w, .ret (if x.f.st1 = .excl then .eaddrinuse else .einval))
      | some a =>
        if x.f.st1 ≠ .incl then (w, .ret .einval)
        else if x.f.src.any (fun s => s.addr = a) then (w, .ret .eaddrnotavail)
        else if e.noMem then (w, .ret .enomem)
        else if w.lock then (w, .hang)
        else
          let f := imfGraft x.f .incl a
          match mergeAt w e k grp f with
          | none => (w, .fault)
          | some gs =>
            if e.igmpErr then
              ({ w with grps := gs, mem := setFilt w.mem x (imfReap (imfRollback f)), lock := true }, .ret .igmp)
            else ({ w with grps := gs, mem := setFilt w.mem x (imfCommit f) }, .ret .ok)
    | none =>
      if w.mem.countP (fun x => x.sock = i) = 4095 then (w, .ret .etoomanyrefs)
      else if src.isSome && e.noMem then (w, .ret .enomem)
      else if w.lock then (w, .hang)
      else
        let f := newFilt src
        match mergeAt { w with grps := getMulti w.grps k grp } e k grp f with
        | none => (w, .fault)
        | some gs =>
          if e.igmpErr then ({ w with grps := release gs k grp, lock := true }, .ret .igmp)
          else ({ w with grps := gs, mem := w.mem ++ [⟨i, k, grp, imfCommit f⟩] }, .ret .ok)

/-- `inp_leave_group` (src/ofp_in_mcast.c:2223-2435). -/
def leave (w : St) (e : Env) (i : Nat) (ifp : Option Nat) (grp : Nat) (src : Option Nat) : St × Res :=
  match matchGroup w i ifp grp with
  | none => (w, .ret .eaddrnotavail)
  | some x => match src with
    | none =>
      if w.lock then (w, .hang)
      else match mergeAt w e x.ifp grp (imfLeave x.f) with
        | none => (w, .fault)
        | some gs => ({ w with grps := release gs x.ifp grp, mem := dropEnt w.mem x }, .ret .ok)
    | some a =>
      if x.f.st0 = .excl then (w, .ret .eaddrnotavail)
      else if !x.f.src.any (fun s => s.addr = a) then (w, .ret .eaddrnotavail)
      else if w.lock then (w, .hang)
      else
        let f := imfPrune x.f a
        match mergeAt w e x.ifp grp f with
        | none => (w, .fault)
        | some gs =>
          if e.igmpErr then ({ w with grps := gs, mem := setFilt w.mem x (imfReap (imfRollback f)) }, .ret .igmp)
          else ({ w with grps := gs, mem := setFilt w.mem x (imfReap (imfCommit f)) }, .ret .ok)

/-- `inp_block_unblock_source` (src/ofp_in_mcast.c:1377-1553). -/
def block (w : St) (e : Env) (i : Nat) (ifp : Option Nat) (grp : Nat) (a : Nat) (doblock : Bool) : St × Res :=
  match matchGroup w i ifp grp with
  | none => (w, .ret .eaddrnotavail)
  | some x =>
    if x.f.st0 ≠ .excl then (w, .ret .einval)
    else if x.f.src.any (fun s => s.addr = a) = doblock then (w, .ret .eaddrnotavail)
    else if doblock && e.noMem then ({ w with mem := setFilt w.mem x (imfReap (imfRollback x.f)) }, .ret .enomem)
    else if w.lock then (w, .hang)
    else
      let f := if doblock then imfGraft x.f .excl a else imfPrune x.f a
      match mergeAt w e x.ifp grp f with
      | none => (w, .fault)
      | some gs =>
        if e.igmpErr then ({ w with grps := gs, mem := setFilt w.mem x (imfReap (imfRollback f)) }, .ret .igmp)
        else ({ w with grps := gs, mem := setFilt w.mem x (imfReap (imfCommit f)) }, .ret .ok)

/-- `inp_set_source_filters` (src/ofp_in_mcast.c:2512-2669); the mode is INCLUDE or EXCLUDE. -/
def setSources (w : St) (e : Env) (i : Nat) (ifp : Option Nat) (grp : Nat) (excl : Bool) (srcs : List (Option Nat)) : St × Res :=
  if srcs.length > w.maxs then (w, .ret .enobufs)
  else match ifp with
  | none => (w, .ret .eaddrnotavail)
  | some k => match matchGroup w i (some k) grp with
    | none => (w, .ret .eaddrnotavail)
    | some x =>
      let md : Mode := if excl then .excl else .incl
      let f := { x.f with st1 := md }
      let p := if srcs = [] then (f, Err.ok) else imfLoad w.maxs e.noMem { imfLeave f with st1 := md } srcs
      if p.2 ≠ .ok then ({ w with mem := setFilt w.mem x (imfReap (imfRollback p.1)) }, .ret p.2)
      else if w.lock then (w, .hang)
      else match mergeAt w e k grp p.1 with
        | none => (w, .fault)
        | some gs =>
          if e.igmpErr then ({ w with grps := gs, mem := setFilt w.mem x (imfReap (imfRollback p.1)) }, .ret .igmp)
          else ({ w with grps := gs, mem := setFilt w.mem x (imfReap (imfCommit p.1)) }, .ret .ok)

/-- Closing the socket: the call of `ofp_inp_freemoptions` is commented out (src/ofp_in_pcb.c:1042-1045)
and the pointer is cleared when the control block is used again (src/ofp_in_pcb.c:271). -/
def close (w : St) (i : Nat) : St := { w with mem := w.mem.filter (fun x => x.sock ≠ i) }

/-- What IGMP does to the record of a group in its own time: note the state as announced
(`ofp_inm_commit`, src/ofp_in_mcast.c:1118-1131), keep the record for a last report
(`inm_acquire_locked`), give it up again, record a source a router asked about
(`ofp_inm_record_source`, 663-698), forget those (`ofp_inm_clear_recorded`, 624-638). -/
inductive Igmp where
  | commit | hold | drop | record (a : Nat) | clear
  deriving Repr, DecidableEq

def igmpG (maxg : Nat) (g : Inm) : Igmp → Inm
  | .commit => { g with srcs := g.srcs.map (fun n => { n with ex0 := n.ex1, in0 := n.in1 }) }
  | .hold => { g with ref := g.ref + 1, held := g.held + 1 }
  | .drop => if g.held = 0 then g else { g with ref := g.ref - 1, held := g.held - 1 }
  | .record a =>
    if g.srcs.any (fun n => n.addr = a) then { g with srcs := g.srcs.map (fun n => if n.addr = a then { n with stp := true } else n) }
    else if g.srcs.length = maxg then g
    else { g with srcs := ⟨a, 0, 0, 0, 0, true⟩ :: g.srcs }
  | .clear => { g with srcs := g.srcs.map (fun n => { n with stp := false }) }

def igmp (w : St) (ifp grp : Nat) (o : Igmp) : St :=
  { w with grps := (w.grps.map (fun g => if g.ifp = ifp ∧ g.grp = grp then igmpG w.maxg g o else g)).filter (fun g => g.ref ≠ 0) }

inductive Op where
  | join (i : Nat) (ifp : Option Nat) (grp : Nat) (src : Option Nat)
  | leave (i : Nat) (ifp : Option Nat) (grp : Nat) (src : Option Nat)
  | block (i : Nat) (ifp : Option Nat) (grp : Nat) (a : Nat) (doblock : Bool)
  | set (i : Nat) (ifp : Option Nat) (grp : Nat) (excl : Bool) (srcs : List (Option Nat))
  | close (i : Nat)
  | igmp (ifp grp : Nat) (o : Igmp)

def step (w : St) (e : Env) : Op → St × Res
  | .join i k g a => join w e i k g a
  | .leave i k g a => leave w e i k g a
  | .block i k g a b => block w e i k g a b
  | .set i k g m l => setSources w e i k g m l
  | .close i => (close w i, .ret .ok)
  | .igmp k g o => if w.lock then (w, .hang) else (igmp w k g o, .ret .ok)

def run (w : St) : List (Env × Op) → St
  | [] => w
  | (e, o) :: h => run (step w e o).1 h

/-! ## Receiving -/

/-- `ofp_imo_multi_filter` (src/ofp_in_mcast.c:432-463), as UDP input uses it
(src/ofp_udp_usrreq.c:461-487): may the datagram be given to the socket? -/
def passes (w : St) (i ifp grp src : Nat) : Bool :=
  match matchGroup w i (some ifp) grp with
  | none => false
  | some x => match x.f.src.find? (fun s => s.addr = src) with
    | none => x.f.st1 ≠ .incl
    | some s => s.s0 = x.f.st1

/-- `ims_get_mode` at t1 (include/ofpi_in_var.h:172-183): what IGMP announces about a source. -/
def srcMode (g : Inm) (a : Nat) : Mode :=
  match g.srcs.find? (fun n => n.addr = a) with
  | none => .undef
  | some n => if g.ex ≠ 0 ∧ g.ex = n.ex1 then .excl else if n.in1 ≠ 0 ∧ n.ex1 = 0 then .incl else .undef

end Verif.Mcast

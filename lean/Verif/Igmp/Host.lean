/-!
# Model of the IGMP host state machine (`src/ofp_igmp.c`)

One link with its groups.  Time passes in ticks of the fast timer (200 ms).  Memberships are for any source (filter mode
EXCLUDE without sources, or none); whether a query for sources matches a recorded source is an input.  Messages are those
given to `netisr_dispatch`; allocation succeeds.  What is left out: other links (they share only the three "timers running"
flags, which they can only set), `IGIF_LOOPBACK` (never set), detaching of links.
-/
namespace Verif.Igmp.Host

/-- `IGMP_NOT_MEMBER`, ... (include/ofpi_igmp_var.h:122-135). -/
inductive St where
  | notMember | silent | reporting | idle | lazy | sleeping | awakening | gPending | sgPending | leaving
deriving DecidableEq, Repr

/-- Membership reports: of version 1, of version 2, "leave group" of version 2, current-state records of version 3 (in
answer to a query for the group or all groups; for sources), "change to EXCLUDE", "change to INCLUDE" of version 3. -/
inductive Kind where
  | report1 | report2 | leave2 | current | currentSrc | toEx | toIn
deriving DecidableEq, Repr

/-- A record about a group. -/
structure Msg where
  group : Nat
  kind : Kind
deriving DecidableEq, Repr

/-- `struct ofp_in_multi`: address, is the filter mode at T0, at T1 EXCLUDE (else undefined), `inm_state`, `inm_timer`,
`inm_sctimer`, `inm_scrv`, the record in `inm_scq`, does IGMP hold a reference. -/
structure Mem where
  addr : Nat
  old : Bool
  now : Bool
  st : St
  timer : Nat
  sctimer : Nat
  scrv : Nat
  scq : Option Kind
  hold : Bool
deriving DecidableEq, Repr

/-- `struct ofp_igmp_ifinfo` and the flags `V_interface_timers_running`, `V_current_state_timers_running`,
`V_state_change_timers_running`.  `loopif`: the interface is a loopback, or not for multicast (`IGIF_SILENT`). -/
structure Link where
  loopif : Bool
  sendlocal : Bool
  version : Nat
  v1timer : Nat
  v2timer : Nat
  rv : Nat
  qi : Nat
  qri : Nat
  v3timer : Nat
  ifcRun : Bool
  curRun : Bool
  scRun : Bool
  groups : List Mem
deriving DecidableEq, Repr

/-- `IGMP_RANDOM_DELAY` (include/ofpi_igmp_var.h:118). -/
def delay (x r : Nat) : Nat := r % x + 1

/-- `igmp_isgroupreported` (src/ofp_igmp.c:597-606): not 224.0.0.1, and 224.0.0.0/24 only if configured. -/
def isReported (sendlocal : Bool) (g : Nat) : Bool :=
  !(g == 0xe0000001 || (!sendlocal && g / 256 == 0xe00000))

/-- `ofp_inm_commit`. -/
def Mem.commit (m : Mem) : Mem := { m with old := m.now }

/-- `igmp_v2_update_group` (src/ofp_igmp.c:992-1030). -/
def update2 (t : Nat) (r : Nat → Nat) (m : Mem) : Mem :=
  match m.st with
  | .notMember | .silent | .leaving => m
  | .sleeping => { m with st := .awakening }
  | .reporting =>
    if m.timer ≠ 0 ∧ m.timer ≤ t then m else { m with st := .reporting, timer := delay t (r m.addr) }
  | _ => { m with st := .reporting, timer := delay t (r m.addr) }

/-- A group in `igmp_input_v1_query` (src/ofp_igmp.c:846-877). -/
def update1 (r : Nat → Nat) (m : Mem) : Mem :=
  if m.timer ≠ 0 then m
  else match m.st with
    | .notMember | .silent | .leaving => m
    | _ => { m with st := .reporting, timer := delay 50 (r m.addr) }

/-- A group in `igmp_v3_cancel_link_timers` (src/ofp_igmp.c:2076-2117). -/
def cancel1 (m : Mem) : Mem :=
  let m := match m.st with
    | .leaving => { m with st := .reporting, hold := false }
    | .gPending | .sgPending | .reporting => { m with st := .reporting }
    | _ => m
  { m with sctimer := 0, timer := 0, scq := none }

/-- Groups nobody refers to any more are freed (`ofp_inm_release_locked`). -/
def reap (gs : List Mem) : List Mem := gs.filter fun m => m.now || m.hold

/-- `igmp_v3_cancel_link_timers` (src/ofp_igmp.c:2047-2122). -/
def cancelTimers (l : Link) : Link := { l with v3timer := 0, groups := reap (l.groups.map cancel1) }

/-- The timers of older queriers in `igmp_set_version` (src/ofp_igmp.c:2008-2024). -/
def setTimers (l : Link) (v : Nat) : Link :=
  let t := (l.rv * l.qi + l.qri) * 2
  if v = 1 then { l with v1timer := t, v2timer := 0 }
  else if v = 2 then { l with v1timer := 0, v2timer := t }
  else l

/-- The choice of the version in `igmp_set_version` (src/ofp_igmp.c:2026-2036). -/
def pick (l : Link) : Link :=
  if l.v1timer = 0 ∧ l.v2timer > 0 then
    if l.version ≠ 2 then cancelTimers { l with version := 2 } else l
  else if l.v1timer > 0 then
    if l.version ≠ 1 then cancelTimers { l with version := 1 } else l
  else l

/-- `igmp_set_version` (src/ofp_igmp.c:1998-2037). -/
def setVersion (l : Link) (v : Nat) : Link := pick (setTimers l v)

/-- `igmp_input_v1_query` from the locks on (src/ofp_igmp.c:823-882). -/
def query1 (l : Link) (r : Nat → Nat) : Link :=
  let l := setVersion l 1
  { l with
    groups := l.groups.map (update1 r)
    curRun := l.curRun || l.groups.any (fun m => (update1 r m).timer != m.timer) }

/-- The timer of a query with maximum response code `c` of version 2 (src/ofp_igmp.c:937-939). -/
def ticks2 (c : Nat) : Nat := if c * 5 / 10 = 0 then 1 else c * 5 / 10

/-- `igmp_input_v2_query` (src/ofp_igmp.c:887-974); `g` is the group, `none`: all. -/
def query2 (l : Link) (g : Option Nat) (c : Nat) (r : Nat → Nat) : Link :=
  if l.version = 1 then l
  else
    let l := setVersion l 2
    let f := fun m => if g = none ∨ g = some m.addr then update2 (ticks2 c) r m else m
    { l with groups := l.groups.map f, curRun := l.curRun || l.groups.any (fun m => f m != m) }

/-- Maximum response time of version 3 in tenths of a second (src/ofp_igmp.c:1053-1057; include/ofpi_igmp.h:76-77). -/
def maxResp (c : Nat) : Nat := if c ≥ 128 then (c % 16) * 2 ^ ((c / 16) % 8 + 3) else c

/-- The timer of a query with maximum response code `c` of version 3 (src/ofp_igmp.c:1078-1080; 16 bits). -/
def ticks3 (c : Nat) : Nat := if maxResp c * 5 / 10 % 65536 = 0 then 1 else maxResp c * 5 / 10 % 65536

/-- `igmp_input_v3_group_query` (src/ofp_igmp.c:1204-1299); `src`: the query lists sources; `hit`: one of them is recorded
now. -/
def groupQuery (t : Nat) (src hit : Bool) (r : Nat) (m : Mem) : Mem :=
  match m.st with
  | .reporting | .gPending | .sgPending =>
    if src = false then
      let t := if m.st = .gPending ∨ m.st = .sgPending then min m.timer t else t
      { m with st := .gPending, timer := delay t r }
    else if m.st = .gPending then { m with timer := delay (min m.timer t) r }
    else if hit then { m with st := .sgPending, timer := delay t r }
    else m
  | _ => m

/-- `igmp_input_v3_query` for all groups (src/ofp_igmp.c:1129-1160). -/
def query3 (l : Link) (c qrv qqi r : Nat) : Link :=
  if l.version ≠ 3 then l
  else
    let l := setVersion l 3
    let l := { l with rv := if qrv < 2 then 2 else qrv, qi := maxResp qqi, qri := maxResp c }
    if l.v3timer = 0 ∨ l.v3timer ≥ ticks3 c then { l with v3timer := delay (ticks3 c) r, ifcRun := true } else l

/-- `igmp_input_v3_query` for a group (src/ofp_igmp.c:1129-1196). -/
def query3g (l : Link) (g : Nat) (c qrv qqi : Nat) (src hit : Bool) (r : Nat) : Link :=
  if l.version ≠ 3 then l
  else
    let l := setVersion l 3
    let l := { l with rv := if qrv < 2 then 2 else qrv, qi := maxResp qqi, qri := maxResp c }
    if l.v3timer = 0 ∨ l.v3timer ≥ ticks3 c then
      { l with
        groups := l.groups.map fun m => if m.addr = g then groupQuery (ticks3 c) src hit r m else m
        curRun := true }
    else l

/-- `igmp_v3_suppress_group_record` (src/ofp_igmp.c:1974-1992). -/
def suppress3 (m : Mem) : Mem :=
  if m.st ≠ .gPending ∨ m.st ≠ .sgPending then m else { m with timer := 0, st := .reporting }

/-- A report of version 1 of another host for the group (src/ofp_igmp.c:1343-1402). -/
def heard1 (version : Nat) (supp : Bool) (m : Mem) : Mem :=
  if version = 3 then (if supp then suppress3 m else m)
  else
    let m := { m with timer := 0 }
    match m.st with
    | .idle | .lazy | .awakening | .sleeping => { m with st := .sleeping }
    | .reporting => if version = 1 then { m with st := .lazy } else if version = 2 then { m with st := .sleeping } else m
    | _ => m

/-- A report of version 2 of another host for the group (src/ofp_igmp.c:1456-1505). -/
def heard2 (version : Nat) (supp : Bool) (m : Mem) : Mem :=
  if version = 3 then (if supp then suppress3 m else m)
  else
    let m := { m with timer := 0 }
    match m.st with
    | .reporting | .idle | .awakening | .lazy => { m with st := .lazy }
    | _ => m

/-- `igmp_initial_join` (src/ofp_igmp.c:2377-2501). -/
def initialJoin (l : Link) (r : Nat) (m : Mem) : Mem × List Msg :=
  if l.loopif ∨ isReported l.sendlocal m.addr = false then
    ({ m with st := .silent, timer := 0 }.commit, [])
  else
    let m := if l.version = 3 ∧ m.st = .leaving then { m with hold := false } else m
    if l.version = 3 then
      ({ m with st := .reporting, scq := some .toEx, scrv := l.rv, sctimer := 1 }, [])
    else
      ({ m with st := .idle, timer := delay 50 r }.commit,
        [⟨m.addr, if l.version = 2 then .report2 else .report1⟩])

/-- `igmp_handle_state_change` (src/ofp_igmp.c:2505-2554) when the filter mode is what it was: no record. -/
def handleChange (l : Link) (m : Mem) : Mem :=
  if l.loopif ∨ isReported l.sendlocal m.addr = false ∨ l.version ≠ 3 then m.commit
  else { m with scq := none }

/-- `igmp_final_leave` (src/ofp_igmp.c:2564-2654). -/
def finalLeave (l : Link) (m : Mem) : Mem × List Msg :=
  match m.st with
  | .reporting | .idle | .gPending | .sgPending =>
    if l.version = 2 then ({ m with st := .notMember }.commit, [⟨m.addr, .leave2⟩])
    else if l.version = 3 then
      if l.rv = 0 then ({ m with scq := none, timer := 0, scrv := 0, st := .notMember, sctimer := 0 }.commit, [])
      else ({ m with scq := some .toIn, timer := 0, scrv := l.rv, hold := true, st := .leaving, sctimer := 1 }, [])
    else (m.commit, [])
  | _ => (m.commit, [])

/-- `ofp_igmp_change_state` (src/ofp_igmp.c:2311-2368). -/
def changeState (l : Link) (r : Nat) (m : Mem) : Mem × List Msg :=
  if m.now ≠ m.old then
    if m.old = false then initialJoin l r m else finalLeave l m
  else (handleChange l m, [])

/-- Apply to the group `g`. -/
def onGroup (l : Link) (g : Nat) (f : Mem → Mem × List Msg) : Link × List Msg :=
  ({ l with groups := reap (l.groups.map fun m => if m.addr = g then (f m).1 else m) },
    (l.groups.filter fun m => m.addr = g).flatMap fun m => (f m).2)

/-- The first socket joins a group: `ofp_in_getmulti` finds it (it is being left) or makes it (src/ofp_in_mcast.c:500-560),
then `ofp_igmp_change_state`.  Whether timers run is noted. -/
def join (l : Link) (g r : Nat) : Link × List Msg :=
  if l.groups.any (fun m => m.addr = g ∧ m.now) then (l, [])
  else
    let l := if l.groups.any (fun m => m.addr = g) then l
      else { l with groups := l.groups ++ [⟨g, false, false, .notMember, 0, 0, 0, none, false⟩] }
    let x := onGroup l g fun m => changeState l r { m with now := true }
    ({ x.1 with
      curRun := x.1.curRun || x.1.groups.any (fun m => m.timer != 0)
      scRun := x.1.scRun || x.1.groups.any (fun m => m.sctimer != 0) }, x.2)

/-- The last socket leaves a group: `ofp_in_leavegroup_locked` (src/ofp_in_mcast.c:1287-1330). -/
def leave (l : Link) (g r : Nat) : Link × List Msg :=
  let x := onGroup l g fun m => if m.now then changeState l r { m with now := false } else (m, [])
  ({ x.1 with scRun := x.1.scRun || x.1.groups.any (fun m => m.sctimer != 0) }, x.2)

/-- `igmp_v1v2_process_group_timer` (src/ofp_igmp.c:1806-1846). -/
def timer12 (version : Nat) (m : Mem) : Mem × List Msg :=
  if m.timer = 0 then (m, [])
  else
    let m := { m with timer := m.timer - 1 }
    if m.timer ≠ 0 then (m, [])
    else if m.st = .reporting then
      ({ m with st := .idle }, [⟨m.addr, if version = 2 then .report2 else .report1⟩])
    else (m, [])

/-- The answer to a query for the group in `igmp_v3_process_group_timers` (src/ofp_igmp.c:1903-1925). -/
def answer3 (m : Mem) : Mem × List Msg :=
  if m.st = .gPending then ({ m with st := .reporting }, [⟨m.addr, .current⟩])
  else if m.st = .sgPending then ({ m with st := .reporting }, [⟨m.addr, .currentSrc⟩])
  else (m, [])

/-- The retransmission of a change in `igmp_v3_process_group_timers` (src/ofp_igmp.c:1926-1965). -/
def resend3 (uri : Nat) (m : Mem) : Mem × List Msg :=
  if m.st = .reporting ∨ m.st = .leaving ∨ m.st = .gPending ∨ m.st = .sgPending then
    let n := m.scrv - 1
    let sent := match m.scq with
      | none => []
      | some k => [⟨m.addr, k⟩]
    let m := { m with scrv := n, sctimer := if n > 0 then uri else 0, scq := if n > 0 then m.scq else none }.commit
    if m.st = .leaving ∧ n = 0 then ({ m with st := .notMember, hold := false }, sent) else (m, sent)
  else (m, [])

/-- `igmp_v3_process_group_timers` (src/ofp_igmp.c:1851-1965). -/
def timers3 (uri : Nat) (m : Mem) : Mem × List Msg :=
  let q := m.timer == 1
  let s := m.sctimer == 1
  let m := { m with timer := m.timer - 1, sctimer := m.sctimer - 1 }
  let x := if q then answer3 m else (m, [])
  let y := if s then resend3 uri x.1 else (x.1, [])
  (y.1, x.2 ++ y.2)

/-- A group in `igmp_v3_dispatch_general_query` (src/ofp_igmp.c:3346-3378). -/
def general3 (m : Mem) : Mem × List Msg :=
  match m.st with
  | .reporting | .idle | .lazy | .sleeping | .awakening =>
    ({ m with st := .reporting }, if m.now then [⟨m.addr, .current⟩] else [])
  | _ => (m, [])

/-- The interface timer in `ofp_igmp_fasttimo` (src/ofp_igmp.c:1712-1727); the answer fits the packets sent at once. -/
def tickLink (l : Link) : Link × List Msg :=
  if l.ifcRun = false then (l, [])
  else if l.v3timer = 0 then ({ l with ifcRun := false }, [])
  else if l.v3timer = 1 then
    ({ l with v3timer := 0, ifcRun := false, groups := l.groups.map fun m => (general3 m).1 },
      l.groups.flatMap fun m => (general3 m).2)
  else ({ l with v3timer := l.v3timer - 1, ifcRun := true }, [])

/-- The groups in `ofp_igmp_fasttimo` (src/ofp_igmp.c:1729-1797); `r` is the random number for the interval of
retransmissions (`igi_uri` is 3 seconds). -/
def tickGroups (l : Link) (r : Nat) : Link × List Msg :=
  if l.curRun = false ∧ l.scRun = false then (l, [])
  else
    let f := fun m => if l.version = 3 then timers3 (delay 15 r) m else timer12 l.version m
    let gs := l.groups.map fun m => (f m).1
    ({ l with
        groups := reap gs
        curRun := gs.any (fun m => m.timer != 0)
        scRun := l.version == 3 && gs.any (fun m => m.sctimer != 0) },
      l.groups.flatMap fun m => (f m).2)

/-- `ofp_igmp_fasttimo` (src/ofp_igmp.c:1680-1799). -/
def tick (l : Link) (r : Nat) : Link × List Msg :=
  let x := tickLink l
  let y := tickGroups x.1 r
  (y.1, x.2 ++ y.2)

/-- What can happen.  `ofp_igmp_slowtimo` is not among it: nobody calls it (src/ofp_in_proto.c:167-168). -/
inductive Ev where
  | join (g r : Nat)
  | leave (g r : Nat)
  | query1 (r : Nat → Nat)
  | query2 (g : Option Nat) (c : Nat) (r : Nat → Nat)
  | query3 (c qrv qqi r : Nat)
  | query3g (g c qrv qqi : Nat) (src hit : Bool) (r : Nat)
  | heard1 (g : Nat) (supp : Bool)
  | heard2 (g : Nat) (supp : Bool)
  | tick (r : Nat)

/-- One event. -/
def step (l : Link) : Ev → Link × List Msg
  | .join g r => join l g r
  | .leave g r => leave l g r
  | .query1 r => (query1 l r, [])
  | .query2 g c r => (query2 l g c r, [])
  | .query3 c v q r => (query3 l c v q r, [])
  | .query3g g c v q s h r => (query3g l g c v q s h r, [])
  | .heard1 g s => onGroup l g fun m => (heard1 l.version s m, [])
  | .heard2 g s => onGroup l g fun m => (heard2 l.version s m, [])
  | .tick r => tick l r

/-- A history, with all that was sent. -/
def run (l : Link) : List Ev → Link × List Msg
  | [] => (l, [])
  | e :: es =>
    let x := step l e
    let y := run x.1 es
    (y.1, x.2 ++ y.2)

/-- A link after `ofp_igmp_domifattach` (src/ofp_igmp.c:655-680). -/
def Link.init (loopif sendlocal : Bool) (version : Nat) : Link :=
  ⟨loopif, sendlocal, version, 0, 0, 2, 125, 10, 0, false, false, false, []⟩

end Verif.Igmp.Host

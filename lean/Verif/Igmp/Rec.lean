import Verif.Mcast.Model
/-!
# Model of the group records of IGMPv3 reports (`src/ofp_igmp.c`)

The records of a report are appended to packets in a queue; all fields are multiples of 4 bytes, so a packet is a list of
32-bit words.  Packets are always allocated and have room at the tail (exhaustion is left out).  A group has a filter
mode and a list of sources (in the order of the tree), each with its mode when the last change was reported (T0) and now
(T1).
-/
namespace Verif.Igmp
open Verif.Mcast (Mode)

/-- `struct ofp_ip_msource`: address, `ims_get_mode(.., 0)`, `ims_get_mode(.., 1)`, `ims_stp`. -/
structure Src where
  addr : Nat
  before : Mode
  now : Mode
  recorded : Bool
deriving DecidableEq, Repr

/-- The parts of `struct ofp_in_multi` that records are made of: `inm_st[0].iss_fmode`, `inm_st[1].iss_fmode`,
`iss_asm > 0` in both. -/
structure Grp where
  group : Nat
  mode0 : Mode
  mode1 : Mode
  asm0 : Bool
  asm1 : Bool
  srcs : List Src
deriving DecidableEq, Repr

/-- A queued packet: its data, and `vt_nrecs` in the structure at its head. -/
structure Pkt where
  words : List Nat
  nrecs : Nat
deriving DecidableEq, Repr

/-- What a call finds: the MTU of the interface, and what is in the place of `vt_nrecs` of a new packet, which nobody
initialises. -/
structure Env where
  mtu : Nat
  junk : Nat

/-- `odp_packet_len` -/
def Pkt.len (p : Pkt) : Nat := 4 * p.words.length

/-- The first word of `struct igmp_grouprec` (include/ofpi_igmp.h:82-88): type, no auxiliary data, number of sources (16
bits). -/
def hdr (type n : Nat) : Nat := type * 2 ^ 24 + n % 65536

/-- `IGMP_LEADINGSPACE` (include/ofpi_igmp_var.h:184). -/
def leading : Nat := 32

/-- The loops that append sources (src/ofp_igmp.c:2882-2909, :2966-2990): append the chosen sources until `lim` are in
the record; also returns the rest of the tree (`nims`).  (A limit of 0 is never reached.) -/
def takeSrcs (sel : Src → Bool) (lim : Nat) : Nat → List Src → List Nat × List Src
  | _, [] => ([], [])
  | n, s :: ss =>
    if sel s then
      if n + 1 = lim then ([s.addr], ss)
      else
        let r := takeSrcs sel lim (n + 1) ss
        (s.addr :: r.1, r.2)
    else takeSrcs sel lim n ss

/-- The sources that go into a record (src/ofp_igmp.c:2886-2896): in the mode of the group, which is not undefined, and
recorded if the record answers a query for sources. -/
def inRecord (mode : Mode) (isSource : Bool) (s : Src) : Bool :=
  s.now == mode && mode != .undef && (!isSource || s.recorded)

/-- The tail packet of a queue and the ones before. -/
def splitTail (q : List Pkt) : Option (List Pkt × Pkt) :=
  match q.getLast? with
  | none => none
  | some p => some (q.dropLast, p)

/-- The packet a record is appended to, if the tail of the queue will do. -/
def tailFor (ok : Pkt → Bool) (q : List Pkt) : Option (List Pkt × Pkt) :=
  match splitTail q with
  | none => none
  | some x => if ok x.2 then some x else none

/-- Is there room for a record of `need` bytes (src/ofp_igmp.c:2819-2823; :3085-3089)? -/
def fits (e : Env) (need : Nat) (p : Pkt) : Bool := decide (p.len + need < e.mtu - leading)

/-- May the report have one more record (src/ofp_igmp.c:2819-2821)? -/
def another (isGroup : Bool) (p : Pkt) : Bool := !isGroup && decide (p.nrecs + 1 ≤ 65535)

/-- Room for sources in the record (src/ofp_igmp.c:2824-2837, :3088-3109): in an existing packet, in a new one. -/
def limFor (e : Env) : Option (List Pkt × Pkt) → Nat
  | some x => (e.mtu - x.2.len - 8) / 4
  | none => (e.mtu - leading - 8) / 4

/-- The second loop of `igmp_v3_enqueue_group_record` (src/ofp_igmp.c:2940-3001): one more packet for each `lim` sources.
The boolean is success. -/
def morePkts (maxlen lim type group : Nat) (sel : Src → Bool) : Nat → List Pkt → List Src → Bool × List Pkt
  | 0, q, _ => (true, q)
  | _ + 1, q, [] => (true, q)
  | k + 1, q, s :: ss =>
    if q.length ≥ maxlen then (false, q)
    else
      let r := takeSrcs sel lim 0 (s :: ss)
      morePkts maxlen lim type group sel k (q ++ [⟨hdr type r.1.length :: group :: r.1, 1⟩]) r.2

/-- What to do (src/ofp_igmp.c:2735-2787): `none`: filter list change; `some t`: records of type `t` (0: nothing), with
sources or not. -/
def recType (g : Grp) (isChange : Bool) : Option (Nat × Bool) :=
  let hasSrc := !(g.asm0 && g.asm1 && g.srcs.isEmpty)
  if isChange then
    if g.mode1 ≠ g.mode0 then
      if g.mode1 = .excl then some (4, hasSrc)
      else some (3, hasSrc && g.mode1 != .undef)
    else if hasSrc then none
    else some (0, false)
  else
    match g.mode1 with
    | .excl => some (2, hasSrc)
    | .incl => some (1, hasSrc)
    | .undef => some (0, hasSrc)

/-- `igmp_v3_enqueue_group_record` from the choice of the first packet on (src/ofp_igmp.c:2800-3004).  The result is
negative, zero or positive as in the code; a positive one is the number of packets touched. -/
def putRecord (e : Env) (maxlen : Nat) (q : List Pkt) (g : Grp) (type : Nat) (hasSrc isGroup isSource : Bool) :
    Int × List Pkt :=
  let need := if hasSrc then 12 else 8
  let old := tailFor (fun m0 => another isGroup m0 && fits e need m0) q
  let lim := limFor e old
  if old = none ∧ q.length ≥ maxlen then (-1, q)
  else
    let r := if hasSrc then takeSrcs (inRecord g.mode1 isSource) lim 0 g.srcs else ([], [])
    let ws := hdr type r.1.length :: g.group :: r.1
    if isSource ∧ r.1 = [] then
      -- an existing packet keeps the record header
      (0, match old with
        | some (q0, m0) => q0 ++ [{ m0 with words := m0.words ++ ws }]
        | none => q)
    else
      let q1 := match old with
        | some (q0, m0) => q0 ++ [⟨m0.words ++ ws, m0.nrecs + 1⟩]
        | none => q ++ [⟨ws, 1⟩]
      let z := morePkts maxlen ((e.mtu - leading - 8) / 4) type g.group (inRecord g.mode1 isSource) r.2.length q1 r.2
      (if z.1 then 1 else -1, z.2)

/-- `OFP_MCAST_UNDEFINED`, `INCLUDE`, `EXCLUDE` as `rectype_t` (src/ofp_igmp.c:3012-3017). -/
def modeNat : Mode → Nat
  | .undef => 0
  | .incl => 1
  | .excl => 2

/-- A source whose mode changed and is not skipped (src/ofp_igmp.c:3145-3160). -/
def changed (mode : Mode) (s : Src) : Bool :=
  s.now != s.before && !(mode == .excl && s.now == .incl)

/-- The kind of record for a changed source (src/ofp_igmp.c:3161-3163). -/
def kind (mode : Mode) (s : Src) : Nat := if s.now = .undef then 3 - modeNat mode else modeNat s.now

/-- The loop over the tree in `igmp_v3_enqueue_filter_change` (src/ofp_igmp.c:3137-3182): `sc` is `schanged > 0`, `crt` the
record type; the first changed source sets it. -/
def walk (mode : Mode) (lim : Nat) : Bool → Nat → Nat → List Src → List Nat × List Src × Bool × Nat
  | sc, crt, _, [] => ([], [], sc, crt)
  | sc, crt, n, s :: ss =>
    if changed mode s = false then walk mode lim sc crt n ss
    else if sc = true ∧ crt ≠ kind mode s then walk mode lim sc crt n ss
    else if n + 1 = lim then ([s.addr], ss, true, kind mode s)
    else
      let r := walk mode lim true (kind mode s) (n + 1) ss
      (s.addr :: r.1, r.2)

/-- `ig_type` for a kind (src/ofp_igmp.c:3202-3205); the field is 0 otherwise. -/
def kindType (crt : Nat) : Nat := if crt = 1 then 5 else if crt = 2 then 6 else 0

/-- One round of the inner loop of `igmp_v3_enqueue_filter_change` (src/ofp_igmp.c:3084-3215) over the rest `ss` of the
tree. -/
def changeRound (e : Env) (g : Grp) (q : List Pkt) (sc : Bool) (crt : Nat) (ss : List Src) :
    List Pkt × List Src × Bool × Nat :=
  let old := tailFor (fits e 12) q
  let lim := limFor e old
  let r := walk g.mode1 lim sc crt 0 ss
  if r.1 = [] then
    -- nothing appended: a new packet is freed, of an existing one 8 bytes are removed - at its head
    (match old with
      | some (q0, m0) => q0 ++ [{ m0 with words := (m0.words ++ [hdr 0 0, g.group]).drop 2 }]
      | none => q, r.2)
  else
    let ws := hdr (kindType r.2.2.2) r.1.length :: g.group :: r.1
    (match old with
      | some (q0, m0) => q0 ++ [{ m0 with words := m0.words ++ ws }]
      | none => q ++ [⟨ws, e.junk⟩], r.2)

/-- The inner loop: until the tree has been walked. -/
def changePass (e : Env) (g : Grp) : Nat → List Pkt → Bool → Nat → List Src → List Pkt × Bool × Nat
  | 0, q, sc, crt, _ => (q, sc, crt)
  | k + 1, q, sc, crt, ss =>
    let r := changeRound e g q sc crt ss
    match r.2.1 with
    | [] => (r.1, r.2.2)
    | rest => changePass e g k r.1 r.2.2.1 r.2.2.2 rest

/-- The outer loop (src/ofp_igmp.c:3083, :3216-3218): at most two passes. -/
def changeLoop (e : Env) (g : Grp) : Nat → List Pkt → Bool → Nat → Nat → List Pkt
  | 0, q, _, _, _ => q
  | k + 1, q, sc, crt, drt =>
    if drt = 3 then q
    else
      let r := changePass e g (g.srcs.length + 1) q sc crt g.srcs
      changeLoop e g k r.1 r.2.1 (3 - r.2.2) (Nat.lor drt r.2.2)

/-- `igmp_v3_enqueue_filter_change` (src/ofp_igmp.c:3040-3225). -/
def putChange (e : Env) (q : List Pkt) (g : Grp) : List Pkt :=
  if g.srcs.isEmpty ∨ (g.asm0 ∧ g.asm1) then q else changeLoop e g 3 q false 0 0

/-- `igmp_v3_enqueue_group_record` (src/ofp_igmp.c:2699-3004).  For a filter list change the result is 1 when the queue is
not empty. -/
def enqueue (e : Env) (maxlen : Nat) (q : List Pkt) (g : Grp) (isChange isGroup isSource : Bool) : Int × List Pkt :=
  match recType g isChange with
  | none => let q1 := putChange e q g; (if q1 = q then 0 else 1, q1)
  | some (t, hasSrc) => if t = 0 then (0, q) else putRecord e maxlen q g t hasSrc isGroup isSource

end Verif.Igmp

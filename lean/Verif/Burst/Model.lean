/-! # Sending packets in bursts: the code (`src/ofp_pkt_send_burst.c`) -/
namespace Verif.Burst

/-- `NUM_PORTS` (`include/ofpi_portconf.h:23`, `include/api/ofp_config.h:100`). -/
abbrev NUM_PORTS : Nat := 11

abbrev Pkt := Nat

/-- What can go wrong: an access outside the packet table, or the use of a slot that holds no packet. -/
inductive Fault
  | oob
  | invalid
deriving DecidableEq, Repr

/-- What becomes of a packet: accepted by the driver of a port, or freed (with the port whose table it was in). -/
inductive Ev
  | sent (port : Nat) (p : Pkt)
  | freed (port : Nat) (p : Pkt)
deriving DecidableEq, Repr

/-- The thread's variables (`src/ofp_pkt_send_burst.c:16-21,94`): the packet table, in which port `i` owns the `burst` slots from
    `i * burst` on (:109-121), the counters, `tx_burst`; and what happened so far. The memory the allocation has in excess for the sake of
    alignment (:102) is not counted as part of the table. -/
structure St where
  burst : Nat
  mem : Nat → Option Pkt
  cnt : Nat → Nat
  log : List Ev

/-- `ofp_send_pkt_out_init_local` (`src/ofp_pkt_send_burst.c:96-123`), the allocation having succeeded. -/
def init (burst : Nat) : St := { burst := burst, mem := fun _ => none, cnt := fun _ => 0, log := [] }

/-- Read `n` slots from `off` on (`src/ofp_pkt_send_burst.c:29,43,133`). -/
def slots (s : St) (off : Nat) : Nat → Except Fault (List Pkt)
  | 0 => .ok []
  | n + 1 =>
    if NUM_PORTS * s.burst ≤ off then .error .oob
    else match s.mem off with
      | none => .error .invalid
      | some p =>
        match slots s (off + 1) n with
        | .ok ps => .ok (p :: ps)
        | .error e => .error e

/-- `send_table` (`src/ofp_pkt_send_burst.c:23-48`); `r` is what `ofp_send_pkt_multi` returns: a number of packets, not more than it was
    given, or a negative number. -/
def sendTable (s : St) (port : Nat) (r : Int) : Except Fault St :=
  match slots s (port * s.burst) (s.cnt port) with
  | .error e => .error e
  | .ok ps =>
    let n := if r < 0 then 0 else r.toNat
    .ok { s with
      cnt := fun i => if i = port then 0 else s.cnt i
      log := s.log ++ (ps.take n).map (Ev.sent port) ++ (ps.drop n).map (Ev.freed port) }

/-- `send_pkt_out` (`src/ofp_pkt_send_burst.c:50-67`). -/
def sendPktOut (s : St) (port : Nat) (p : Pkt) (r : Int) : Except Fault St :=
  if NUM_PORTS * s.burst ≤ port * s.burst + s.cnt port then .error .oob
  else
    let s := { s with mem := fun i => if i = port * s.burst + s.cnt port then some p else s.mem i
                      cnt := fun i => if i = port then s.cnt port + 1 else s.cnt i }
    if s.cnt port = s.burst then sendTable s port r else .ok s

/-- The loop of `ofp_send_pending_pkt_nocheck` (`src/ofp_pkt_send_burst.c:74-84`), from port `i` on; `r` is the driver's answer per port. -/
def pendingFrom (s : St) (r : Nat → Int) (i : Nat) : Nat → Except Fault St
  | 0 => .ok s
  | n + 1 =>
    if s.cnt i = 0 then pendingFrom s r (i + 1) n
    else match sendTable s i (r i) with
      | .error e => .error e
      | .ok s => pendingFrom s r (i + 1) n

/-- `ofp_send_pending_pkt` (`src/ofp_pkt_send_burst.c:69-92`). -/
def sendPending (s : St) (r : Nat → Int) : Except Fault St :=
  if s.burst > 1 then pendingFrom s r 0 NUM_PORTS else .ok s

/-- The loop of `ofp_send_pkt_out_term_local` (`src/ofp_pkt_send_burst.c:130-136`), from port `i` on. -/
def termFrom (s : St) (i : Nat) : Nat → Except Fault St
  | 0 => .ok s
  | n + 1 =>
    match slots s (i * s.burst) (s.cnt i) with
    | .error e => .error e
    | .ok ps => termFrom { s with cnt := fun j => if j = i then 0 else s.cnt j, log := s.log ++ ps.map (Ev.freed i) } (i + 1) n

/-- `ofp_send_pkt_out_term_local` (`src/ofp_pkt_send_burst.c:126-141`). -/
def term (s : St) : Except Fault St := termFrom s 0 NUM_PORTS

/-- A call, with the driver's answers. -/
inductive Op
  | send (port : Nat) (p : Pkt) (r : Int)
  | flush (r : Nat → Int)
  | term

/-- One call (`src/ofp_pkt_send_burst.c:50,87,126`). -/
def step (s : St) : Op → Except Fault St
  | .send port p r => sendPktOut s port p r
  | .flush r => sendPending s r
  | .term => term s

/-- Several calls of one thread (`src/ofp_pkt_send_burst.c:50,87,126`); all the variables are the thread's own (:16,21). -/
def run (s : St) : List Op → Except Fault St
  | [] => .ok s
  | o :: os =>
    match step s o with
    | .error e => .error e
    | .ok s => run s os

end Verif.Burst

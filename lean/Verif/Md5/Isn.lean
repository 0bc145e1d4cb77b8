import Verif.Md5.Thm
/-! # Initial sequence numbers of connections opened here (`ofp_tcp_new_isn`) -/
namespace Verif.Md5.Isn

/-- The addresses and ports of a connection, as the bytes in memory (`inp_fport`, `inp_lport`, and `inp_faddr`, `inp_laddr` or
    `in6p_faddr`, `in6p_laddr`, `src/ofp_tcp_subr.c:1668-1682`). -/
structure Conn where
  fport : List B
  lport : List B
  faddr : List B
  laddr : List B
deriving DecidableEq, Repr

/-- Ports have 2 bytes, addresses 4 or 16. -/
def Conn.Wf (k : Conn) : Prop :=
  k.fport.length = 2 ∧ k.lport.length = 2 ∧ (k.faddr.length = 4 ∧ k.laddr.length = 4 ∨ k.faddr.length = 16 ∧ k.laddr.length = 16)

/-- The globals `V_isn_secret`, `V_isn_last`, `V_isn_last_reseed`, `V_isn_offset`, `V_isn_offset_old`
    (`src/ofp_tcp_subr.c:1632-1636`). -/
structure St where
  secret : List B
  last : Nat
  lastReseed : Nat
  off : W
  offOld : W
deriving DecidableEq, Repr

/-- Static storage is zero (`src/ofp_tcp_subr.c:1632-1636`). -/
def boot : St := { secret := List.replicate 32 0, last := 0, lastReseed := 0, off := 0, offOld := 0 }

/-- One call: the connection, and what `ofp_timer_ticks` returns each time the function asks (`src/ofp_tcp_subr.c:1659,1661,1663,1688,
    1690,1694`). Tick counts are taken to be non-negative `int`s that have not wrapped. -/
structure Call where
  conn : Conn
  r0 : Nat
  r1 : Nat
  r2 : Nat
  t0 : Nat
  t1 : Nat
  t2 : Nat

/-- The eight bytes of a `uint64_t` in memory, low byte first (`bcopy(&cpucycles, V_isn_secret, sizeof(cpucycles))`,
    `src/ofp_tcp_subr.c:1661-1662`). -/
def u64 (n : Nat) : List B := Spec.toBytes 8 n

/-- Seeding (`src/ofp_tcp_subr.c:1656-1664`); `interval` is `net.inet.tcp.isn_reseed_interval`, 0 by default (:161), `hz` is 100. -/
def seed (interval : Nat) (s : St) (c : Call) : St :=
  if s.lastReseed = 0 ∨ (0 < interval ∧ s.lastReseed + interval * 100 < c.r0) then
    { s with secret := u64 c.r1 ++ s.secret.drop 8, lastReseed := c.r2 }
  else s

/-- `md5_buffer[0]` (`src/ofp_tcp_subr.c:1667-1686`): the first four bytes of the digest as a number. -/
def hash (ctx : Ctx) (k : Conn) (secret : List B) : Except Fault W :=
  match digest ctx [k.fport, k.lport, k.faddr, k.laddr, secret] with
  | .error e => .error e
  | .ok (d, _) => .ok (decode d 0)

/-- The new offset (`src/ofp_tcp_subr.c:1687-1695`): `hz` is the `unsigned long` 100, so that the rate is 1048576 / 100 = 10485 a tick
    and the projection is computed with 64 bits and cut to 32. -/
def advance (s : St) (c : Call) : St :=
  let off := s.off + 4096
  if c.t0 = s.last then { s with off := off }
  else
    let projected := s.offOld + UInt32.ofNat (1048576 / 100 * (c.t1 - s.last))
    let off := if (projected - off).toInt32 > 0 then projected else off
    { s with off := off, offOld := off, last := c.t2 }

/-- `ofp_tcp_new_isn` (`src/ofp_tcp_subr.c:1644-1699`); `ctx` is the uninitialised context on the stack. -/
def newIsn (interval : Nat) (ctx : Ctx) (s : St) (c : Call) : Except Fault (W × St) :=
  let s := seed interval s c
  match hash ctx c.conn s.secret with
  | .error e => .error e
  | .ok h =>
    let s := advance s c
    .ok (h + s.off, s)

/-- A sequence of calls, and the numbers they return. The calls do not overlap: the function holds a lock
    (`src/ofp_tcp_subr.c:1655,1697`). -/
def run (interval : Nat) (ctx : Ctx) (s : St) : List Call → Except Fault (List W × St)
  | [] => .ok ([], s)
  | c :: cs =>
    match newIsn interval ctx s c with
    | .error e => .error e
    | .ok (w, s) =>
      match run interval ctx s cs with
      | .error e => .error e
      | .ok (ws, s) => .ok (w :: ws, s)

end Verif.Md5.Isn

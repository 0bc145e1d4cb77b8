import Mathlib.Data.List.Basic
/-!
# Model of the TCP option area: `ofp_tcp_addoptions` and `tcp_dooptions`

Bytes are natural numbers below 256, 16 and 32 bit fields natural numbers below `2^16` and `2^32`.  The
output buffer is the list of the bytes written through `*optp++`; the variable `optlen` of the C function is
kept next to it, not derived from it.  The input buffer is the list of the bytes the caller owns; a read
past it is a fault (`none`).
-/
namespace Verif.Tcpopt

/-- A SACK block (`struct sackblk`, include/ofpi_tcp_var.h). -/
structure Blk where
  start : Nat
  stop : Nat
deriving DecidableEq, Repr

/-- The options `ofp_tcp_addoptions` is asked to write: `struct tcpopt` (include/ofpi_tcp_var.h:286-304).  A bit
of `to_flags` and the fields it makes valid are one `Option` (a `Bool` for the two options without
fields).  `to_sacks`/`to_nsacks` is the list of blocks. -/
structure Out where
  /-- `TOF_MSS`, `to_mss` -/
  mss : Option Nat
  /-- `TOF_SCALE`, `to_wscale` -/
  scale : Option Nat
  /-- `TOF_SACKPERM` -/
  sackperm : Bool
  /-- `TOF_TS`, `to_tsval`, `to_tsecr` -/
  ts : Option (Nat × Nat)
  /-- `TOF_SIGNATURE` -/
  sig : Bool
  /-- `TOF_SACK`, `to_sacks` -/
  sacks : Option (List Blk)
deriving DecidableEq, Repr

/-- `OFP_TCP_MAXOLEN` (include/api/ofp_tcp.h:152-154): `(0xf << 2) - 20`. -/
def maxOlen : Nat := 40

/-- `odp_cpu_to_be_16` and `bcopy` of 2 bytes. -/
def be16 (n : Nat) : List Nat := [n / 256 % 256, n % 256]
/-- `odp_cpu_to_be_32` and `bcopy` of 4 bytes. -/
def be32 (n : Nat) : List Nat := [n / 16777216 % 256, n / 65536 % 256, n / 256 % 256, n % 256]

/-- The state of the loop: `optlen` and the bytes written. -/
structure W where
  optlen : Nat
  bytes : List Nat
deriving DecidableEq, Repr

/-- `optlen += n` and `n` writes through `*optp++`; the number added is given separately, as in the code. -/
def W.put (w : W) (n : Nat) (bs : List Nat) : W := ⟨w.optlen + n, w.bytes ++ bs⟩

/-- A padding loop `while (cond) { optlen += OFP_TCPOLEN_NOP; *optp++ = OFP_TCPOPT_NOP; }`; the conditions of
the code become false after at most four rounds, which `fuel` bounds. -/
def padWhile (cond : Nat → Bool) (byte : Nat) : Nat → W → W
  | 0, w => w
  | fuel + 1, w => if cond w.optlen then padWhile cond byte fuel (w.put 1 [byte]) else w

/-- The condition `optlen % 4` (src/ofp_tcp_output.c:1435, 1543, 1552). -/
def c4 (n : Nat) : Bool := n % 4 != 0
/-- The condition `!optlen || optlen % 2 != 1` (src/ofp_tcp_output.c:1449). -/
def cScale (n : Nat) : Bool := n == 0 || n % 2 != 1
/-- The condition `optlen % 2` (src/ofp_tcp_output.c:1461). -/
def c2 (n : Nat) : Bool := n % 2 != 0
/-- The condition `!optlen || optlen % 4 != 2` (src/ofp_tcp_output.c:1472, 1492, 1512). -/
def cTs (n : Nat) : Bool := n == 0 || n % 4 != 2

/-- `OFP_TCP_MAXOLEN - optlen < need`: `OFP_TCP_MAXOLEN` has type `size_t`, so the difference wraps. -/
def noRoom (optlen need : Nat) : Bool :=
  (maxOlen + (18446744073709551616 - optlen)) % 18446744073709551616 < need

/-- One option with fixed contents: the test `optlen == OFP_TCP_MAXOLEN` (src/ofp_tcp_output.c:1431-1432; the
loop ends there, and every later option meets the same test), the padding, the room test, the write. -/
def emit (cond : Nat → Bool) (len : Nat) (bs : List Nat) (w : W) : W :=
  if w.optlen == maxOlen then w
  else
    let p := padWhile cond 1 4 w
    if noRoom p.optlen len then p else p.put len bs

/-- `case TOF_MSS` (src/ofp_tcp_output.c:1434-1447). -/
def addMss (o : Out) (w : W) : W :=
  match o.mss with
  | none => w
  | some m => emit c4 4 ([2, 4] ++ be16 m) w

/-- `case TOF_SCALE` (src/ofp_tcp_output.c:1448-1459). -/
def addScale (o : Out) (w : W) : W :=
  match o.scale with
  | none => w
  | some s => emit cScale 3 [3, 3, s] w

/-- `case TOF_SACKPERM` (src/ofp_tcp_output.c:1460-1470). -/
def addSackPerm (o : Out) (w : W) : W :=
  if o.sackperm then emit c2 2 [4, 2] w else w

/-- `case TOF_TS` (src/ofp_tcp_output.c:1471-1487). -/
def addTs (o : Out) (w : W) : W :=
  match o.ts with
  | none => w
  | some (v, e) => emit cTs 10 ([8, 10] ++ be32 v ++ be32 e) w

/-- `case TOF_SIGNATURE` (src/ofp_tcp_output.c:1488-1505): the digest is left zero for the caller. -/
def addSig (o : Out) (w : W) : W :=
  if o.sig then emit cTs 18 ([19, 18] ++ List.replicate 16 0) w else w

/-- One SACK block on the wire (src/ofp_tcp_output.c:1522-1528). -/
def blkBytes (b : Blk) : List Nat := be32 b.start ++ be32 b.stop

/-- `case TOF_SACK` (src/ofp_tcp_output.c:1506-1533). -/
def addSack (o : Out) (w : W) : W :=
  match o.sacks with
  | none => w
  | some bl =>
    if w.optlen == maxOlen then w
    else
      let p := padWhile cTs 1 4 w
      if noRoom p.optlen (2 + 8) then p
      else
        let n := min bl.length ((maxOlen - (p.optlen + 2)) / 8)
        (p.put 2 [5, 2 + n * 8]).put (n * 8) ((bl.take n).flatMap blkBytes)

/-- The end of the options and the padding (src/ofp_tcp_output.c:1542-1555). -/
def finish (w : W) : W :=
  let e := if c4 w.optlen then w.put 1 [0] else w
  padWhile c4 0 4 e

/-- `ofp_tcp_addoptions` (src/ofp_tcp_output.c:1424-1559): the masks in increasing order. -/
def addOptions (o : Out) : W :=
  finish (addSack o (addSig o (addTs o (addSackPerm o (addScale o (addMss o ⟨0, []⟩))))))

/-- What `tcp_dooptions` leaves in the `struct tcpopt` of its caller.  `sacks` is the offset in the buffer
(`to_sacks = cp + 2`) and `to_nsacks`. -/
structure In where
  mss : Option Nat
  scale : Option Nat
  sackperm : Bool
  ts : Option (Nat × Nat)
  sacks : Option (Nat × Nat)
deriving DecidableEq, Repr

/-- `to->to_flags = 0` (src/ofp_tcp_input.c:3137). -/
def In.init : In := ⟨none, none, false, none, none⟩

/-- `bcopy` of 2 bytes and `odp_be_to_cpu_16`. -/
def rd16 (buf : List Nat) (i : Nat) : Option Nat :=
  match buf[i]?, buf[i+1]? with
  | some a, some b => some (a * 256 + b)
  | _, _ => none

/-- `bcopy` of 4 bytes and `odp_be_to_cpu_32`. -/
def rd32 (buf : List Nat) (i : Nat) : Option Nat :=
  match buf[i]?, buf[i+1]?, buf[i+2]?, buf[i+3]? with
  | some a, some b, some c, some d => some (a * 16777216 + b * 65536 + c * 256 + d)
  | _, _, _, _ => none

/-- The `switch` of `tcp_dooptions` (src/ofp_tcp_input.c:3151-3216) on an option of kind `opt` and length
`optlen` at `cp`; `syn` is `flags & TO_SYN`, `dosack` is `V_tcp_do_sack`.  `TCP_SIGNATURE` is not
compiled in. -/
def takeOption (syn dosack : Bool) (buf : List Nat) (cp opt optlen : Nat) (st : In) : Option In :=
  if opt = 2 then
    if optlen ≠ 4 then some st
    else if syn = false then some st
    else (rd16 buf (cp + 2)).map fun v => { st with mss := some v }
  else if opt = 3 then
    if optlen ≠ 3 then some st
    else if syn = false then some st
    else (buf[cp + 2]?).map fun v => { st with scale := some (min v 14) }
  else if opt = 8 then
    if optlen ≠ 10 then some st
    else
      match rd32 buf (cp + 2), rd32 buf (cp + 6) with
      | some v, some e => some { st with ts := some (v, e) }
      | _, _ => none
  else if opt = 4 then
    if optlen ≠ 2 then some st
    else if syn = false then some st
    else if dosack = false then some st
    else some { st with sackperm := true }
  else if opt = 5 then
    if optlen ≤ 2 ∨ (optlen - 2) % 8 ≠ 0 then some st
    else if syn = true then some st
    else some { st with sacks := some (cp + 2, (optlen - 2) / 8) }
  else some st

/-- The loop of `tcp_dooptions` (src/ofp_tcp_input.c:3138-3217).  `none` is a read outside the buffer.  Every
turn takes at least one byte off `cnt`, which is the termination argument. -/
def parse (syn dosack : Bool) (buf : List Nat) (cp cnt : Nat) (st : In) : Option In :=
  if hc : cnt = 0 then some st
  else
    match buf[cp]? with
    | none => none
    | some opt =>
      if opt = 0 then some st
      else if opt = 1 then
        match takeOption syn dosack buf cp opt 1 st with
        | none => none
        | some st' => parse syn dosack buf (cp + 1) (cnt - 1) st'
      else if cnt < 2 then some st
      else
        match buf[cp + 1]? with
        | none => none
        | some optlen =>
          if hb : optlen < 2 ∨ optlen > cnt then some st
          else
            match takeOption syn dosack buf cp opt optlen st with
            | none => none
            | some st' => parse syn dosack buf (cp + optlen) (cnt - optlen) st'
termination_by cnt

/-- `tcp_dooptions(&to, optp, cnt, flags)`. -/
def doOptions (syn dosack : Bool) (buf : List Nat) (cnt : Nat) : Option In :=
  parse syn dosack buf 0 cnt .init

/-- What the consumer of `to_sacks` reads (`ofp_tcp_sack_doack`, src/ofp_tcp_sack.c:409-413): block `i` at
`to_sacks + i * TCPOLEN_SACK`. -/
def sackAt (buf : List Nat) (off i : Nat) : Option Blk :=
  match rd32 buf (off + i * 8), rd32 buf (off + i * 8 + 4) with
  | some a, some b => some ⟨a, b⟩
  | _, _ => none

end Verif.Tcpopt

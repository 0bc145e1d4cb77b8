/-!
# Half-open connections

Modelled: src/ofp_tcp_syncache.c for IPv4: `ofp_syncache_init`, `syncache_insert`, `syncache_drop`, `ofp_syncache_lookup`,
`ofp_syncache_chkrst`, `ofp_syncache_badack`, `ofp_syncache_unreach`, `ofp_syncache_expand`, `_syncache_add`, `syncache_respond`,
`syncookie_generate`, `syncookie_lookup`, and the fields `syncache_socket` takes from an entry; called from several threads.
`_syncache_add` is two events, since it releases the lock of the bucket between the lookup and the insertion; everything else runs
under that lock.

Not modelled: the flag for signatures (never set); `sc_rxttime` and `sch_nextc` (written, never read: `syncache_timer` is compiled out); statistics; the unprotected
`cache_count`; IPv6 (the same code with another comparison) and flow labels; IP options (always `ODP_PACKET_INVALID`); wrapping of the
clock of seconds.  `ofp_sonewconn` and the pcb functions inside `syncache_socket` are one input, `sockOk` (see `Verif.Sock`).
-/
namespace Verif.Syncache

/-- `uint32_t`. -/
abbrev W := BitVec 32

/-- `struct in_conninfo` for IPv4 (include/ofpi_in_pcb.h:91-117). -/
structure Inc where
  fa : Nat
  la : Nat
  fp : Nat
  lp : Nat
  fib : Nat
deriving DecidableEq, Repr

/-- `ENDPTS_EQ` (src/ofp_tcp_syncache.c:166-171). -/
def Inc.same (a b : Inc) : Bool := a.fp = b.fp && a.lp = b.lp && a.fa = b.fa && a.la = b.la

/-- `SYNCACHE_HASH` with secret 11235 and 1024 buckets (src/ofp_tcp_syncache.c:154-158, 201-205, include/ofpi_tcp_shm.h:39). -/
def bucketOf (i : Inc) : Nat := (11235 ^^^ i.fa ^^^ (i.fa >>> 16) ^^^ i.fp ^^^ i.lp) % 1024

/-- `struct tcpopt`, the options used here. -/
structure Opts where
  mss : Option Nat
  scale : Option Nat
  ts : Option (W × W)
  sack : Bool
deriving DecidableEq, Repr

/-- `struct syncache` (include/ofpi_tcp_syncache.h:64-93).  `id`: the record of the zone, `none` for the local variable `scs`. -/
structure Sc where
  id : Option Nat
  inc : Inc
  irs : W
  iss : W
  wnd : Nat
  rxmits : Nat
  tsF : Bool
  tsreflect : W
  ts : W
  tsoff : W
  scaleF : Bool
  sScale : Nat
  rScale : Nat
  sack : Bool
  ecn : Bool
  noopt : Bool
  unreach : Bool
  peerMss : Nat
deriving DecidableEq, Repr

/-- `struct syncache_head` (include/ofpi_tcp_syncache.h:114-126); `list`: newest first. -/
structure Bucket where
  list : List Sc
  len : Nat
  oddeven : Bool
  odd : List Nat
  even : List Nat
  reseed : Nat

/-- Settings: size of the zone; `V_tcp_syncookies`, `V_tcp_syncookiesonly`, `V_tcp_do_rfc1323`, `V_tcp_do_ecn`, `ofp_sb_max`,
`V_tcp_minmss`.  `md5`: the words of the digest of a string of bytes; `enc`: the bytes of an `in_conninfo`. -/
structure Cfg where
  n : Nat
  cookies : Bool
  only : Bool
  rfc1323 : Bool
  doEcn : Bool
  sbMax : Nat
  minMss : Nat
  md5 : List Nat → Nat → W
  enc : Inc → List Nat

/-- `bucket_limit` (src/ofp_tcp_syncache.c:122, 202). -/
def limit : Nat := 30

/-- The cache: buckets, free records of the zone, and the entries of threads between the two halves of `_syncache_add`. -/
structure S where
  b : Nat → Bucket
  free : List Nat
  flight : List Sc

/-- `ofp_syncache_init` (src/ofp_tcp_syncache.c:196-235); the shared memory is zero. -/
def init (cfg : Cfg) : S :=
  { b := fun _ => ⟨[], 0, false, List.replicate 32 0, List.replicate 32 0, 0⟩, free := List.range cfg.n, flight := [] }

/-- The segment `syncache_respond` sends. -/
structure SynAck where
  inc : Inc
  seq : W
  ack : W
  wnd : Nat
  ece : Bool
  mss : Option Nat
  scale : Option Nat
  ts : Option (W × W)
  sack : Bool
deriving DecidableEq, Repr

/-- `syncache_respond` (src/ofp_tcp_syncache.c:1148-1307): header and options; `mo`: `ofp_tcp_mssopt`. -/
def respond (cfg : Cfg) (mo : Nat) (sc : Sc) : SynAck :=
  { inc := sc.inc, seq := sc.iss, ack := sc.irs + 1, wnd := sc.wnd, ece := sc.ecn
    mss := if sc.noopt then none else some (if sc.peerMss ≠ 0 then max (min sc.peerMss mo) cfg.minMss else mo)
    scale := if !sc.noopt && sc.scaleF then some sc.rScale else none
    ts := if !sc.noopt && sc.tsF then some (sc.ts, sc.tsreflect) else none
    sack := !sc.noopt && sc.sack }

/-- The control block `syncache_socket` makes (src/ofp_tcp_syncache.c:694-745). -/
structure Conn where
  inc : Inc
  iss : W
  irs : W
  wnd : Nat
  /-- Send scale and own scale, if window scaling is on. -/
  scale : Option (Nat × Nat)
  /-- `ts_recent` and `ts_offset`, if timestamps are on. -/
  ts : Option (W × W)
  sack : Bool
  ecn : Bool
  peerMss : Nat
deriving DecidableEq, Repr

/-- The fields `syncache_socket` copies; the VRF is that of the listening socket (src/ofp_tcp_syncache.c:582). -/
def connOf (fib : Nat) (sc : Sc) : Conn :=
  { inc := { sc.inc with fib := fib }, iss := sc.iss, irs := sc.irs, wnd := sc.wnd, scale := if !sc.noopt && sc.scaleF then some (sc.sScale, sc.rScale) else none
    ts := if !sc.noopt && sc.tsF then some (sc.tsreflect, sc.tsoff) else none, sack := !sc.noopt && sc.sack, ecn := sc.ecn, peerMss := sc.peerMss }

/-! ## Cookies -/

/-- The bytes of a word in memory. -/
def le32 (x : W) : List Nat := [x.toNat % 256, x.toNat / 256 % 256, x.toNat / 65536 % 256, x.toNat / 16777216 % 256]

/-- What is hashed (src/ofp_tcp_syncache.c:1447-1454, 1520-1527): the secret from byte `off` on, its first `off` bytes, the
connection, the peer's sequence number, seven bits of parameters. -/
def hashed (cfg : Cfg) (sec : List Nat) (off : Nat) (inc : Inc) (irs data : W) : List Nat :=
  sec.drop off ++ sec.take off ++ cfg.enc inc ++ le32 irs ++ le32 data

/-- `tcp_sc_msstab` (src/ofp_tcp_syncache.c:1389). -/
def msstab (i : Nat) : Nat := [0, 256, 468, 536, 996, 1452, 1460, 8960].getD i 0

/-- The loop choosing the index (src/ofp_tcp_syncache.c:1438-1440). -/
def mssLoop : Nat → Nat → Nat
  | 0, _ => 0
  | k + 1, p => if msstab (k + 1) ≤ p then k + 1 else mssLoop k p

/-- The secret a parity selects (src/ofp_tcp_syncache.c:1415-1416, 1507). -/
def Bucket.sec (b : Bucket) (p : Bool) : List Nat := if p then b.odd else b.even

/-- Reseed the secret if too old (src/ofp_tcp_syncache.c:1419-1426); `SYNCOOKIE_LIFETIME` is 16. -/
def reseed (b : Bucket) (now : Nat) (rnd : List Nat) : Bucket :=
  if b.reseed < now then
    if b.oddeven then { b with oddeven := false, even := rnd, reseed := now + 16 }
    else { b with oddeven := true, odd := rnd, reseed := now + 16 }
  else b

/-- A Boolean as a word. -/
def bit (b : Bool) : W := if b then 1 else 0

/-- `syncookie_generate` (src/ofp_tcp_syncache.c:1393-1478) after reseeding; `mo`: `ofp_tcp_mssopt`; `tick`: `tcp_ts_getticks`. -/
def generate (cfg : Cfg) (b : Bucket) (mo : Nat) (tick : W) (sc : Sc) : Sc :=
  let off := sc.iss &&& 7
  let mss := mssLoop 7 (max (min sc.peerMss mo) cfg.minMss)
  let data := bit b.oddeven ||| (off <<< 1) ||| (BitVec.ofNat 32 mss <<< 4)
  let d := cfg.md5 (hashed cfg (b.sec b.oddeven) off.toNat sc.inc sc.irs data)
  let sc1 := { sc with iss := data ||| (d 0 <<< 7) }
  if sc.tsF then
    let x := (bit sc.sack <<< 1) ||| (BitVec.ofNat 32 sc.sScale <<< 2) ||| (BitVec.ofNat 32 sc.rScale <<< 6) ||| (d 2 <<< 10)
    let y := x ^^^ d 3
    { sc1 with ts := y, tsoff := y - tick }
  else sc1

/-- Clip a window to 16 bits (src/ofp_tcp_syncache.c:1058-1060, 1582-1585). -/
def clip (win : Int) : Nat := (min (max win 0) 65535).toNat

/-- `syncookie_lookup` (src/ofp_tcp_syncache.c:1480-1592). -/
def cookieLookup (cfg : Cfg) (b : Bucket) (inc : Inc) (ackno seqno : W) (o : Opts) (win : Int) (now : Nat) (tick : W) : Option Sc :=
  let ack := ackno - 1
  let seq := seqno - 1
  let off := (ack >>> 1) &&& 7
  let mss := (ack >>> 4) &&& 7
  let flags := ack &&& 0x7f
  if b.reseed + 16 < now then none
  else
    let d := cfg.md5 (hashed cfg (b.sec (flags &&& 1 ≠ 0)) off.toNat inc seq flags)
    if ack &&& ~~~(0x7f : W) ≠ d 0 <<< 7 then none
    else
      let data := match o.ts with | some (_, ecr) => d 3 ^^^ ecr | none => 0
      if o.ts.isSome && data &&& ~~~(0x3ff : W) ≠ d 2 <<< 10 then none
      else
        let sc : Sc := { id := none, inc := inc, irs := seq, iss := ack, wnd := clip win, rxmits := 0, tsF := false, tsreflect := 0, ts := 0, tsoff := 0,
                         scaleF := false, sScale := 0, rScale := 0, sack := false, ecn := false, noopt := false, unreach := false, peerMss := msstab mss.toNat }
        match o.ts with
        | some (val, ecr) =>
          if data ≠ 0 then
            let ss := min ((data >>> 2) &&& 0xf).toNat 14
            let rs := min ((data >>> 6) &&& 0xf).toNat 14
            some { sc with tsF := true, tsreflect := val, ts := ecr, tsoff := ecr - tick, sack := (data >>> 1) &&& 1 ≠ 0
                           sScale := ss, rScale := rs, scaleF := ss ≠ 0 || rs ≠ 0 }
          else some { sc with noopt := true }
        | none => some { sc with noopt := true }

/-! ## Buckets -/

/-- `ofp_syncache_lookup` (src/ofp_tcp_syncache.c:376-421). -/
def lookup (b : Bucket) (inc : Inc) : Option Sc := b.list.find? fun e => inc.same e.inc

/-- Change the first entry of a connection. -/
def updFirst (inc : Inc) (f : Sc → Sc) : List Sc → List Sc
  | [] => []
  | e :: l => if inc.same e.inc then f e :: l else e :: updFirst inc f l

/-- Write a bucket. -/
def S.put (s : S) (k : Nat) (b : Bucket) : S := { s with b := fun j => if j = k then b else s.b j }

/-- `syncache_free` (src/ofp_tcp_syncache.c:182-193). -/
def S.zfree (s : S) (id : Option Nat) : S := match id with | some i => { s with free := i :: s.free } | none => s

/-- Remove the first entry of a connection from a bucket (src/ofp_tcp_syncache.c:285-287, 820-822). -/
def Bucket.remove (b : Bucket) (inc : Inc) : Bucket := { b with list := b.list.eraseP fun e => inc.same e.inc, len := b.len - 1 }

/-- `syncache_drop` of the entry found by a lookup (src/ofp_tcp_syncache.c:280-295). -/
def drop (s : S) (k : Nat) (inc : Inc) (sc : Sc) : S := (s.put k ((s.b k).remove inc)).zfree sc.id

/-- `syncache_drop` of the last entry of a bucket (`OFP_TAILQ_LAST`); an empty bucket is left alone. -/
def dropLast (s : S) (k : Nat) : S :=
  match (s.b k).list.getLast? with
  | some e => (s.put k { s.b k with list := (s.b k).list.dropLast, len := (s.b k).len - 1 }).zfree e.id
  | none => s

/-- `syncache_insert` (src/ofp_tcp_syncache.c:241-274); `syncache_timeout` counts `sc_rxmits`. -/
def insert (s : S) (k : Nat) (sc : Sc) : S :=
  let s1 := if (s.b k).len ≥ limit then dropLast s k else s
  s1.put k { s1.b k with list := { sc with rxmits := sc.rxmits + 1 } :: (s1.b k).list, len := (s1.b k).len + 1 }

/-! ## Events -/

/-- A SYN for a listening socket; `win`: its `sbspace`; `noopt`: `TF_NOOPT`; `mo`: `ofp_tcp_mssopt`; `now`: `time_uptime`; `tick`:
`tcp_ts_getticks`; `rnd`: 32 random bytes; `ok`: sending the answer works (used if the answer is sent under the lock). -/
structure SynIn where
  inc : Inc
  seq : W
  o : Opts
  ecn : Bool
  win : Int
  noopt : Bool
  mo : Nat
  now : Nat
  tick : W
  rnd : List Nat
  ok : Bool

/-- An ACK for a listening socket. -/
structure AckIn where
  inc : Inc
  ack : W
  seq : W
  o : Opts
  win : Int
  sockOk : Bool
  now : Nat
  tick : W

/-- Events: the first half of `_syncache_add`; the second half for the `i`-th entry in flight; `ofp_syncache_expand`;
`ofp_syncache_chkrst` (`bad`: with ACK, SYN or FIN); `ofp_syncache_badack`; `ofp_syncache_unreach`. -/
inductive Ev where
  | syn (x : SynIn)
  | send (i : Nat) (mo : Nat) (ok : Bool)
  | ack (x : AckIn)
  | rst (inc : Inc) (seq : W) (bad : Bool)
  | badack (inc : Inc)
  | unreach (inc : Inc) (seq : W)

/-- What is seen: nothing; a SYN|ACK; a new connection; the ACK is answered with a reset; there was no socket for the connection. -/
inductive Out where
  | none
  | synack (p : SynAck)
  | conn (c : Conn)
  | reset
  | nosock
deriving DecidableEq, Repr

/-- `SEQ_LEQ` (include/ofpi_tcp_seq.h:43-46). -/
def leq (a b : W) : Bool := (a - b).toInt ≤ 0

/-- `SEQ_GEQ`. -/
def geq (a b : W) : Bool := (a - b).toInt ≥ 0

/-- The window scale offered (src/ofp_tcp_syncache.c:1095-1097). -/
def wscale (sbMax : Nat) : Nat → Nat → Nat
  | 0, w => w
  | k + 1, w => if w < 14 && 65535 * 2 ^ w < sbMax then wscale sbMax k (w + 1) else w

/-- The entry `_syncache_add` fills in (src/ofp_tcp_syncache.c:1036-1109). -/
def fill (cfg : Cfg) (x : SynIn) (id : Option Nat) : Sc :=
  { id := id, inc := x.inc, irs := x.seq, iss := 31415, wnd := clip x.win, rxmits := 0
    tsF := cfg.rfc1323 && x.o.ts.isSome
    tsreflect := if cfg.rfc1323 then (match x.o.ts with | some (v, _) => v | none => 0) else 0
    ts := if cfg.rfc1323 && x.o.ts.isSome then x.tick else 0, tsoff := 0
    scaleF := cfg.rfc1323 && x.o.scale.isSome
    sScale := if cfg.rfc1323 then x.o.scale.getD 0 % 16 else 0
    rScale := if cfg.rfc1323 && x.o.scale.isSome then wscale cfg.sbMax 14 0 else 0
    sack := x.o.sack, ecn := x.ecn && cfg.doEcn, noopt := x.noopt, unreach := false, peerMss := x.o.mss.getD 0 }

/-- Fill in an entry, make the cookie, release the bucket (src/ofp_tcp_syncache.c:1036-1125). -/
def launch (cfg : Cfg) (s : S) (x : SynIn) (id : Option Nat) : S :=
  let k := bucketOf x.inc
  let sc := fill cfg x id
  if cfg.cookies then
    let b := reseed (s.b k) x.now x.rnd
    { s.put k b with flight := s.flight ++ [generate cfg b x.mo x.tick sc] }
  else { s with flight := s.flight ++ [sc] }

/-- A second SYN of a connection in the cache (src/ofp_tcp_syncache.c:983-997): the timestamp. -/
def dup (o : Opts) (sc : Sc) : Sc :=
  match sc.tsF, o.ts with
  | true, some (v, _) => { sc with tsreflect := v }
  | _, _ => { sc with tsF := false }

/-- The segment validation of `ofp_syncache_expand` (src/ofp_tcp_syncache.c:830-862). -/
def valid (sc : Sc) (x : AckIn) : Bool :=
  x.ack = sc.iss + 1 && !leq x.seq sc.irs && leq x.seq (sc.irs + BitVec.ofNat 32 sc.wnd) &&
    (match x.o.ts with | none => true | some (_, ecr) => sc.tsF && ecr = sc.ts)

/-- What an ACK that found an entry leads to (src/ofp_tcp_syncache.c:830-886). -/
def answer (sc : Sc) (x : AckIn) : Out :=
  if valid sc x then if x.sockOk then .conn (connOf x.inc.fib sc) else .nosock else .reset

/-- One event. -/
def step (cfg : Cfg) (s : S) : Ev → Out × S
  | .syn x =>
    let k := bucketOf x.inc
    match lookup (s.b k) x.inc with
    | some sc =>
      let sc1 := dup x.o sc
      (if x.ok then .synack (respond cfg x.mo sc1) else .none,
        s.put k { s.b k with list := updFirst x.inc (fun e => if x.ok then { dup x.o e with rxmits := 1 } else dup x.o e) (s.b k).list })
    | none =>
      match s.free with
      | i :: r => (.none, launch cfg { s with free := r } x (some i))
      | [] =>
        let s1 := dropLast s k
        match s1.free with
        | i :: r => (.none, launch cfg { s1 with free := r } x (some i))
        | [] => if cfg.cookies then (.none, launch cfg s1 x none) else (.none, s1)
  | .send i mo ok =>
    match s.flight[i]? with
    | none => (.none, s)
    | some sc =>
      let s1 := { s with flight := s.flight.eraseIdx i }
      if ok then
        (.synack (respond cfg mo sc),
          if cfg.cookies && cfg.only then s1.zfree sc.id
          else if sc.id.isSome then insert s1 (bucketOf sc.inc) sc else s1)
      else (.none, s1.zfree sc.id)
  | .ack x =>
    let k := bucketOf x.inc
    match lookup (s.b k) x.inc with
    | none =>
      if cfg.cookies then
        match cookieLookup cfg (s.b k) x.inc x.ack x.seq x.o x.win x.now x.tick with
        | none => (.reset, s)
        | some sc => (answer sc x, s)
      else (.reset, s)
    | some sc => (answer sc x, (s.put k ((s.b k).remove x.inc)).zfree sc.id)
  | .rst inc seq bad =>
    let k := bucketOf inc
    match lookup (s.b k) inc with
    | none => (.none, s)
    | some sc => (.none, if !bad && geq seq sc.irs && leq seq (sc.irs + BitVec.ofNat 32 sc.wnd) then drop s k inc sc else s)
  | .badack inc =>
    let k := bucketOf inc
    match lookup (s.b k) inc with
    | none => (.none, s)
    | some sc => (.none, drop s k inc sc)
  | .unreach inc seq =>
    let k := bucketOf inc
    match lookup (s.b k) inc with
    | none => (.none, s)
    | some sc =>
      (.none,
        if seq ≠ sc.iss then s
        else if !sc.unreach || sc.rxmits < 4 then
          s.put k { s.b k with list := updFirst inc (fun e => { e with unreach := true }) (s.b k).list }
        else drop s k inc sc)

end Verif.Syncache

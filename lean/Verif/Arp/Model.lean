/-
Model of `src/ofp_arp.c` (default build, no OFP_USE_LIBCK) and of the ARP side of
`src/ofp_route.c`.

Conventions
* `entries[]` is `ent : Nat → Entry`; index 0 is the "invalid entry", the pool proper is `1..n`.
* STAILQ/SLIST lists are Lean lists of indexes (entries) or of packets (saved packets, head first).
* Every function below runs under the write lock of its hash set in C, and is one atomic step here.
  The lock-free fast path of the lookup is also one step.
* A `pkt_entry` carries no identity that matters, so the pool of 2048 of them is a counter.
* Timers are external (`ofp_timer.c`, modelled separately): `timers` lists the armed saved-packet
  timers as (timer id, entry index argument).  `ofp_timer_start` may fail (`tmr = false`).
  The usetime-update timer only matters through "is it armed", so it is a flag.
* Clock readings are parameters of the operations.
-/
namespace Verif.Arp

/-- `struct arp_key`, include/ofpi_arp.h:19-22 (vrf, ipv4_addr). -/
abbrev K := BitVec 32 × BitVec 32

/-- `set_key_and_hash`, ofp_arp.c:93-104: all callers pass a 16-bit vrf
(`uint16_t vrf`, ofpi_arp.h and `struct ofp_ifnet`). The hash itself is `Env.hash`. -/
def mkKey (vrf : BitVec 16) (ip : BitVec 32) : K := (vrf.setWidth 32, ip)

/-- `struct arp_entry`, include/ofpi_arp.h:57-71. `pktTmo` is `pkt_tmo` (a timer id or invalid),
`updTmo` says whether `usetime_upd_tmo` is armed. MAC addresses and packets are opaque numbers. -/
structure Entry where
  key : K
  usetime : Nat
  updTmo : Bool
  used : Bool
  complete : Bool
  manual : Bool
  mac : Nat
  pkts : List Nat
  pktTmo : Option Nat
  ref : BitVec 32

/-- Configuration: `global_param->arp.entries` (n), `hash_bits` (nsets), `entry_timeout`, and
`ipv4_hash` (ofp_arp.c:88-91), which is always below NUM_SETS because of its mask. -/
structure Env where
  n : Nat
  nsets : Nat
  hash : K → Nat
  hash_lt : ∀ k, hash k < nsets
  timeout : Nat

/-- `struct ofp_arp_mem`, ofp_arp.c:49-80: entries, free list, per-set table and cache, number of
free `pkt_entry`s; plus the armed saved-packet timers. -/
structure St where
  ent : Nat → Entry
  free : List Nat
  tab : Nat → List Nat
  cache : Nat → Nat
  pktFree : Nat
  timers : List (Nat × Nat)
  nextT : Nat

/-- A store into one element of an array. -/
def put {α : Type} (f : Nat → α) (i : Nat) (v : α) : Nat → α := fun j => if j = i then v else f j

/-- `ARP_WAITING_PKTS_SIZE`, ofp_arp.c:35. -/
def pktPool : Nat := 2048

/-- State of an entry after `ofp_arp_init_tables`, ofp_arp.c:768-800. Entry 0 is filled with
0x01 bytes (line 796), so is_used = 1 and key = (0x01010101, 0x01010101); its packet list is
cleared again by `ofp_arp_init_tables_pkt_list` (line 804). -/
def initEnt (i : Nat) : Entry :=
  if i = 0 then
    ⟨(0x01010101#32, 0x01010101#32), 0x0101010101010101, false, true, false, false,
      0x0101010101010101, [], none, 0x01010101#32⟩
  else ⟨(0#32, 0#32), 0, false, false, false, false, 0, [], none, 0#32⟩

/-- `ofp_arp_init_global` / `ofp_arp_init_tables`, ofp_arp.c:768-806. -/
def init (E : Env) : St where
  ent := initEnt
  free := List.range' 1 E.n
  tab := fun _ => []
  cache := fun _ => 0
  pktFree := pktPool
  timers := []
  nextT := 0

/-- `ofp_timer_cancel` on a saved-packet timer: the timer with that id, if still armed, is gone.
(The model does not cover the effect of cancelling an id that already fired.) -/
def cancel (s : St) (t : Option Nat) : St :=
  { s with
    timers := s.timers.filter (fun p => some p.1 != t) }

/-- `arp_lookup`, ofp_arp.c:167-178. -/
def find (E : Env) (s : St) (k : K) : Option Nat :=
  (s.tab (E.hash k)).find? (fun i => (s.ent i).key == k)

/-- `entry_alloc` + `ofp_arp_entry_reset`, ofp_arp.c:106-153, followed by the initialisation in
`insert_new_entry`, ofp_arp.c:189-194: the entry gets the key, is_used, no packets, no reference;
`usetime` keeps its old value. -/
def freshEnt (old : Entry) (k : K) : Entry :=
  ⟨k, old.usetime, false, true, false, false, 0, [], none, 0#32⟩

/-- `insert_new_entry`, ofp_arp.c:180-198: the index found or allocated. -/
def insertNew (E : Env) (s : St) (k : K) : Option (St × Nat) :=
  match find E s k with
  | some i => some (s, i)
  | none =>
    match s.free with
    | [] => none
    | i :: rest =>
      let s1 := cancel s (s.ent i).pktTmo
      some ({ s1 with
        ent := put s.ent i (freshEnt (s.ent i) k)
        free := rest
        tab := put s.tab (E.hash k) (i :: s.tab (E.hash k)) }, i)

/-- `remove_entry`, ofp_arp.c:200-231, and `entry_free`, ofp_arp.c:156-165. -/
def removeEntry (_E : Env) (s : St) (set i : Nat) : St :=
  { s with
    cache := if (s.ent (s.cache set)).key == (s.ent i).key then put s.cache set 0 else s.cache
    tab := put s.tab set ((s.tab set).erase i)
    ent := put s.ent i
      { s.ent i with
        updTmo := false
        used := false
        complete := false
        manual := false
        pktTmo := none }
    free := s.free ++ [i] }

/-- The test in `ofp_arp_ipv4_remove_entry`, ofp_arp.c:391. -/
def removable (s : St) (i : Nat) : Bool := (s.ent i).ref == 0#32 && (s.ent i).used

/-- `ofp_arp_ipv4_remove_entry`, ofp_arp.c:387-402: the saved packets' `pkt_entry`s go back to
their pool (the packets themselves are not freed), then the entry is removed. -/
def remove (E : Env) (s : St) (set i : Nat) : St :=
  if removable s i then
    let s1 : St :=
      { s with
        pktFree := s.pktFree + (s.ent i).pkts.length
        ent := put s.ent i
          { s.ent i with
            pkts := [] } }
    removeEntry E s1 set i
  else s

/-- `ofp_arp_ipv4_remove_entry_idx`, ofp_arp.c:404-418. -/
def removeIdx (E : Env) (s : St) (i : Nat) : St := remove E s (E.hash (s.ent i).key) i

/-- What an operation lets the caller (or the network, or the packet pool) see. `sent`: packets
handed to `ofp_ip_output_common`, in order; `freed`: packets passed to `odp_packet_free` or returned
to the caller for dropping. -/
structure Out where
  ok : Bool
  idx : Nat
  mac : Nat
  sent : List Nat
  freed : List Nat
deriving DecidableEq

/-- Failure (return value -1). -/
def Out.fail : Out := ⟨false, 0, 0, [], []⟩
/-- Success with an index (return value 0). -/
def Out.idxOk (i : Nat) : Out := ⟨true, i, 0, [], []⟩

/-- The entry after the stores of `ofp_arp_ipv4_insert_entry`, ofp_arp.c:330-348, with a send list
and `is_complete`. -/
def completed (e : Entry) (mac : Nat) (manual : Bool) (now : Nat) : Entry :=
  { e with
    mac := mac
    complete := true
    manual := e.manual || manual
    usetime := now
    pkts := []
    pktTmo := if e.pkts = [] then e.pktTmo else none }

/-- `ofp_arp_ipv4_insert`, ofp_arp.c:358-385, with `ofp_arp_ipv4_insert_entry(..., TRUE, manual,
.., &send_list)`, ofp_arp.c:309-356. (`ofp_add_mac`, ofp_route.c:101-108, is the case
manual = false.) The saved packets are sent from the head of the list. -/
def insert (E : Env) (s : St) (k : K) (mac : Nat) (manual : Bool) (now : Nat) : St × Out :=
  match insertNew E s k with
  | none => (s, Out.fail)
  | some (s1, i) =>
    let e := s1.ent i
    let s2 := if e.pkts = [] then s1 else cancel s1 e.pktTmo
    ({ s2 with
        ent := put s2.ent i (completed e mac manual now)
        pktFree := s2.pktFree + e.pkts.length },
     { Out.idxOk i with
        sent := e.pkts })

/-- `ofp_arp_ipv4_insert_entry(gw, zero_mac, vrf, FALSE, FALSE, &idx, NULL)`, as called by
`add_route`, ofp_route.c:192-197; ofp_arp.c:309-356: the MAC field is overwritten with zeros. -/
def insertInc (E : Env) (s : St) (k : K) : St × Out :=
  match insertNew E s k with
  | none => (s, Out.fail)
  | some (s1, i) =>
    ({ s1 with
        ent := put s1.ent i
          { s1.ent i with
            mac := 0 } },
     Out.idxOk i)

/-- `ofp_arp_inc_ref_count`, ofp_arp.c:420-435. -/
def incRef (s : St) (i : Nat) : St :=
  { s with
    ent := put s.ent i
      { s.ent i with
        ref := (s.ent i).ref + 1#32 } }

/-- `ofp_arp_dec_ref_count`, ofp_arp.c:437-454. -/
def decRef (E : Env) (s : St) (i : Nat) : St :=
  let s1 : St :=
    { s with
      ent := put s.ent i
        { s.ent i with
          ref := (s.ent i).ref - 1#32 } }
  removeIdx E s1 i

/-- The use-time refresh of `ofp_ipv4_lookup_arp_entry_idx`, ofp_arp.c:516-533. -/
def touch (s : St) (i : Nat) (now : Nat) (tmr : Bool) : St :=
  if !(s.ent i).manual && !(s.ent i).updTmo then
    { s with
      ent := put s.ent i
        { s.ent i with
          usetime := now
          updTmo := tmr } }
  else s

/-- `ofp_ipv4_lookup_arp_entry_idx`, ofp_arp.c:482-538. -/
def lookupIdx (E : Env) (s : St) (k : K) (now : Nat) (tmr : Bool) : St × Option Nat :=
  let set := E.hash k
  let c := s.cache set
  if (s.ent c).key == k then (touch s c now tmr, some c)
  else
    match find E s k with
    | none => (s, none)
    | some i =>
      if (s.ent i).pkts ≠ [] then (s, none)
      else
        let s1 := { s with
                    cache := put s.cache set i }
        (touch s1 i now tmr, some i)

/-- `ofp_ipv4_get_mac_by_idx`, ofp_arp.c:562-573 (and `ofp_arp_entry_is_complete`, 456-463). -/
def getMac (s : St) (i : Nat) : Option Nat :=
  if (s.ent i).complete then some (s.ent i).mac else none

/-- `ofp_ipv4_lookup_mac`, ofp_arp.c:540-560. -/
def lookupMac (E : Env) (s : St) (k : K) (now : Nat) (tmr : Bool) : St × Option Nat :=
  let r := lookupIdx E s k now tmr
  (r.1, r.2.bind (getMac r.1))

/-- The second half of `ofp_arp_save_ipv4_pkt`, ofp_arp.c:633-662, once the entry `i` is known. -/
def saveTo (E : Env) (s : St) (set i pkt : Nat) (tmr : Bool) : St × Out :=
  let s0 : St := { s with
                   ent := put s.ent i
                     { s.ent i with
                       usetime := 0 } }
  if s.pktFree = 0 then
    (if (s.ent i).pkts = [] then remove E s0 set i else s0,
     { Out.fail with
       freed := [pkt] })
  else
    let e := s.ent i
    let arm := decide (e.pkts = [])
    ({ s with
        pktFree := s.pktFree - 1
        timers := if arm && tmr then (s.nextT, i) :: s.timers else s.timers
        nextT := if arm && tmr then s.nextT + 1 else s.nextT
        ent := put s.ent i
          { e with
            usetime := 0
            pkts := pkt :: e.pkts
            pktTmo := if arm then (if tmr then some s.nextT else none) else e.pktTmo } },
     Out.idxOk i)

/-- `ofp_arp_save_ipv4_pkt` with `is_link_local`, ofp_arp.c:594-662. -/
def saveLocal (E : Env) (s : St) (k : K) (pkt : Nat) (tmr : Bool) : St × Out :=
  match insertNew E s k with
  | none => (s, { Out.fail with
                  freed := [pkt] })
  | some (s1, i) =>
    if (s1.ent i).complete then (s1, { Out.fail with
                                       freed := [pkt] })
    else saveTo E s1 (E.hash k) i pkt tmr

/-- `ofp_arp_save_ipv4_pkt` through a route's entry index, ofp_arp.c:630-662. `k` is the
gateway's key: the set lock and a possible removal use its hash. -/
def saveIdx (E : Env) (s : St) (k : K) (i pkt : Nat) (tmr : Bool) : St × Out :=
  saveTo E s (E.hash k) i pkt tmr

/-- `ofp_arp_entry_is_timeout`, ofp_arp.c:675-681. -/
def isTimeout (E : Env) (e : Entry) (now : Nat) : Bool := decide (now > e.usetime + E.timeout)

/-- The ageing test of one entry, ofp_arp.c:698-701. -/
def ageable (E : Env) (e : Entry) (now : Nat) : Bool :=
  !e.manual && e.pkts.isEmpty && isTimeout E e now

/-- One entry of the ageing pass, ofp_arp.c:696-703. -/
def age1 (E : Env) (now set : Nat) (s : St) (i : Nat) : St :=
  if ageable E (s.ent i) now then remove E s set i else s

/-- One set of the ageing pass, ofp_arp.c:692-706 (the list is walked with a saved next
pointer, so every entry present at the start is visited once). -/
def ageSet (E : Env) (now : Nat) (s : St) (set : Nat) : St :=
  (s.tab set).foldl (age1 E now set) s

/-- `ofp_arp_age_cb`, ofp_arp.c:683-713 (without re-arming its own timer). -/
def age (E : Env) (s : St) (now : Nat) : St :=
  (List.range E.nsets).foldl (ageSet E now) s

/-- A saved-packet timer fires: `ofp_arp_cleanup_pkt_list`, ofp_arp.c:579-592. -/
def pktTimeout (E : Env) (s : St) (t : Nat) : St :=
  match s.timers.find? (fun p => p.1 == t) with
  | none => s
  | some (_, i) =>
    removeIdx E { s with
                  timers := s.timers.filter (fun p => p.1 != t) } i

/-- `ofp_arp_entry_usetime_tmo`, ofp_arp.c:465-480. -/
def useTimeout (s : St) (i : Nat) : St :=
  { s with
    ent := put s.ent i
      { s.ent i with
        updTmo := false } }

/-- The atomic operations on the ARP tables. -/
inductive Op where
  | insert (k : BitVec 16 × BitVec 32) (mac : Nat) (manual : Bool) (now : Nat)
  | insertInc (k : BitVec 16 × BitVec 32)
  | inc (i : Nat)
  | dec (i : Nat)
  | removeIdx (i : Nat)
  | lookup (k : BitVec 16 × BitVec 32) (now : Nat) (tmr : Bool)
  | lookupI (k : BitVec 16 × BitVec 32) (now : Nat) (tmr : Bool)
  | getMac (i : Nat)
  | saveLocal (k : BitVec 16 × BitVec 32) (pkt : Nat) (tmr : Bool)
  | saveIdx (k : BitVec 16 × BitVec 32) (i pkt : Nat) (tmr : Bool)
  | age (now : Nat)
  | pktTimeout (t : Nat)
  | useTimeout (i : Nat)

/-- Report of a MAC query. -/
def Out.macOf : Option Nat → Out
  | none => Out.fail
  | some m => { Out.idxOk 0 with
                mac := m }

/-- Report of an index query. -/
def Out.ofIdx : Option Nat → Out
  | none => Out.fail
  | some i => Out.idxOk i

/-- One atomic step. -/
def step (E : Env) (s : St) : Op → St × Out
  | .insert k mac m now => insert E s (mkKey k.1 k.2) mac m now
  | .insertInc k => insertInc E s (mkKey k.1 k.2)
  | .inc i => (incRef s i, Out.idxOk i)
  | .dec i => (decRef E s i, Out.idxOk i)
  | .removeIdx i => (removeIdx E s i, Out.idxOk i)
  | .lookup k now tmr =>
    let r := lookupMac E s (mkKey k.1 k.2) now tmr
    (r.1, Out.macOf r.2)
  | .lookupI k now tmr =>
    let r := lookupIdx E s (mkKey k.1 k.2) now tmr
    (r.1, Out.ofIdx r.2)
  | .getMac i => (s, Out.macOf (getMac s i))
  | .saveLocal k p tmr => saveLocal E s (mkKey k.1 k.2) p tmr
  | .saveIdx k i p tmr => saveIdx E s (mkKey k.1 k.2) i p tmr
  | .age now => (age E s now, Out.idxOk 0)
  | .pktTimeout t => (pktTimeout E s t, Out.idxOk 0)
  | .useTimeout i => (useTimeout s i, Out.idxOk i)

end Verif.Arp

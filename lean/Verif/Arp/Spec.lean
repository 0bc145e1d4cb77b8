import Verif.Arp.Model
/-!
Specification vocabulary for ARP: what a user can say about the table without knowing its hash
sets, caches and lists.

`view s k` is what the table holds for a key (address in a VRF).  A history is the list of executed
operations with their reported results, newest first; from it we compute the MAC address inserted
last for a key, the packets accepted for waiting, and the packets sent.
-/
namespace Verif.Arp

/-- What is known about one address. `idx` is the handle handed out to routes. -/
structure Info where
  idx : Nat
  mac : Nat
  complete : Bool
  manual : Bool
  ref : BitVec 32
  usetime : Nat
  pkts : List Nat

/-- Public content of an entry. -/
def info (i : Nat) (e : Entry) : Info := ⟨i, e.mac, e.complete, e.manual, e.ref, e.usetime, e.pkts⟩

/-- What the table holds for `k`. -/
def view (E : Env) (s : St) (k : K) : Option Info := (find E s k).map (fun i => info i (s.ent i))

/-- The address as the API takes it. -/
abbrev Addr := BitVec 16 × BitVec 32

/-- The key of an API address. -/
def keyOf (a : Addr) : K := mkKey a.1 a.2

/-- Executed operations and what they reported, newest first. -/
abbrev History := List (Op × Out)

/-- The MAC of the last successful insertion for `a`. -/
def lastMac : History → Addr → Option Nat
  | [], _ => none
  | (.insert b m _ _, o) :: h, a => if b = a ∧ o.ok = true then some m else lastMac h a
  | _ :: h, a => lastMac h a

/-- Packets accepted for waiting on `a`, newest first. -/
def savedFor : History → Addr → List Nat
  | [], _ => []
  | (.saveLocal b p _, o) :: h, a => if b = a ∧ o.ok = true then p :: savedFor h a else savedFor h a
  | (.saveIdx b _ p _, o) :: h, a => if b = a ∧ o.ok = true then p :: savedFor h a else savedFor h a
  | _ :: h, a => savedFor h a

/-- Packets sent by insertions for `a`: the newest batch first, each batch in the order sent. -/
def sentFor : History → Addr → List Nat
  | [], _ => []
  | (.insert b _ _ _, o) :: h, a => if b = a then o.sent ++ sentFor h a else sentFor h a
  | _ :: h, a => sentFor h a

/-- Handles passed to the API must come from it: an index lies in the pool, and a packet is saved
through an index only for a route whose gateway entry this still is. -/
def Valid (E : Env) (s : St) : Op → Prop
  | .inc i => 1 ≤ i ∧ i ≤ E.n
  | .dec i => 1 ≤ i ∧ i ≤ E.n
  | .removeIdx i => 1 ≤ i ∧ i ≤ E.n
  | .useTimeout i => 1 ≤ i ∧ i ≤ E.n
  | .saveIdx a i _ _ => ∃ e, view E s (keyOf a) = some e ∧ e.idx = i
  | _ => True

/-- No race between the two halves of a caller: `add_route` (ofp_route.c:190-198) creates an
incomplete entry only if its lookup just failed, and the output path (ofp_pkt_processing.c:1002-1008)
saves a packet through an index only if that entry just had no MAC. -/
def Fair (E : Env) (s : St) : Op → Prop
  | .insertInc a => ∀ now tmr, (lookupIdx E s (keyOf a) now tmr).2 = none
  | .saveIdx _ i _ _ => getMac s i = none
  | _ => True

/-- Histories of valid operations and the state they lead to. -/
inductive Run (E : Env) : History → St → Prop where
  | nil : Run E [] (init E)
  | cons {h : History} {s : St} (op : Op) : Run E h s → Valid E s op →
      Run E ((op, (step E s op).2) :: h) (step E s op).1

/-- Histories of valid operations without the races excluded by `Fair`. -/
inductive FairRun (E : Env) : History → St → Prop where
  | nil : FairRun E [] (init E)
  | cons {h : History} {s : St} (op : Op) : FairRun E h s → Valid E s op → Fair E s op →
      FairRun E ((op, (step E s op).2) :: h) (step E s op).1

/-- Number of entries in use. -/
def liveCount (E : Env) (s : St) : Nat := ((List.range E.nsets).map (fun h => (s.tab h).length)).sum

/-- Number of packets waiting. -/
def waitingCount (E : Env) (s : St) : Nat :=
  ((List.range' 1 E.n).map (fun i => (s.ent i).pkts.length)).sum

/-- The table after removing the handle `i` if nothing refers to it. -/
def dropIdx (A : K → Option Info) (i : Nat) : K → Option Info := fun k =>
  (A k).bind (fun e => if e.idx = i ∧ e.ref = 0#32 then none else some e)

/-- The table with the entry of handle `i` changed. -/
def modIdx (A : K → Option Info) (i : Nat) (f : Info → Info) : K → Option Info := fun k =>
  (A k).map (fun e => if e.idx = i then f e else e)

/-- The table with the information for `k` replaced. -/
def setKey (A : K → Option Info) (k : K) (v : Option Info) : K → Option Info := fun k' =>
  if k' = k then v else A k'

/-- An entry the ageing pass may remove: learned, nothing waiting, no reference, idle longer than
the timeout. -/
def Info.idle (e : Info) (timeout now : Nat) : Prop :=
  e.manual = false ∧ e.pkts = [] ∧ e.ref = 0#32 ∧ now > e.usetime + timeout

instance (e : Info) (a b : Nat) : Decidable (e.idle a b) := by unfold Info.idle; infer_instance

end Verif.Arp

import Verif.Syncache.Model
/-! # Half-open connections: what is said about them -/
namespace Verif.Syncache

/-- What happened and what was seen, latest first. -/
abbrev Log := List (Ev × Out)

/-- All histories of the cache. -/
inductive Hist (cfg : Cfg) : Log → S → Prop where
  | nil : Hist cfg [] (init cfg)
  | cons {l : Log} {s : S} (ev : Ev) : Hist cfg l s → Hist cfg ((ev, (step cfg s ev).1) :: l) (step cfg s ev).2

/-- A SYN arrived. -/
def Synned (l : Log) (x : SynIn) : Prop := ∃ o, (Ev.syn x, o) ∈ l

/-- A SYN|ACK was sent. -/
def Sent (l : Log) (p : SynAck) : Prop := ∃ ev, (ev, Out.synack p) ∈ l

/-- `seq` is one of the `wnd` sequence numbers after `irs`. -/
def InWindow (seq irs : W) (wnd : Nat) : Prop := ∃ j : Nat, 1 ≤ j ∧ j ≤ wnd ∧ seq = irs + BitVec.ofNat 32 j

/-- The cookie for a connection: seven bits of parameters, 25 bits of the digest of secret, connection, the peer's sequence number and
the parameters. -/
def cookieOf (cfg : Cfg) (sec : List Nat) (inc : Inc) (irs flags : W) : W :=
  flags ||| cfg.md5 (hashed cfg sec ((flags >>> 1) &&& 7).toNat inc irs flags) 0 <<< 7

/-- The times of a history do not go back. -/
def time : Ev → Option Nat
  | .syn x => some x.now
  | .ack x => some x.now
  | _ => none

/-- Histories with a clock. -/
inductive THist (cfg : Cfg) : Nat → S → Prop where
  | nil : THist cfg 0 (init cfg)
  | step {t : Nat} {s : S} (ev : Ev) (t' : Nat) : THist cfg t s → t ≤ t' → (∀ u, time ev = some u → u = t') → THist cfg t' (step cfg s ev).2

/-- A run of events from a state, with a clock. -/
inductive TRun (cfg : Cfg) : Nat → S → Nat → S → Prop where
  | refl {t : Nat} {s : S} : TRun cfg t s t s
  | step {t0 t : Nat} {s0 s : S} (ev : Ev) (t' : Nat) : TRun cfg t0 s0 t s → t ≤ t' → (∀ u, time ev = some u → u = t') → TRun cfg t0 s0 t' (step cfg s ev).2

end Verif.Syncache

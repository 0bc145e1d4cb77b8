import Mathlib.Data.List.Basic
/-!
# Model of the packet rate (`src/ofp_stat.c`)

Times are nanoseconds.
-/
namespace Verif.Stat

/-- The counters `rx_fp` of the threads (modulo 2^64 only their sum is looked at), `ofp_perf_stat`, `prev_poll`, the flag
`OFP_STAT_COMPUTE_PERF`, and how many timers with `ofp_perf_tmo` are running (src/ofp_stat.c:21-29). -/
structure St where
  ctr : Nat → Nat
  rate : Nat
  prev : Nat
  poll : Nat
  flag : Bool
  timers : Nat

/-- Nothing counted, nothing switched on (src/ofp_stat.c:128-135). -/
def St.init : St := ⟨fun _ => 0, 0, 0, 0, false, 0⟩

/-- The sum of the counters of the first `k` threads (src/ofp_stat.c:62-64). -/
def total (c : Nat → Nat) : Nat → Nat
  | 0 => 0
  | k + 1 => total c k + c k

/-- A thread receives packets (`OFP_UPDATE_PACKET_STAT`, src/ofp_pkt_processing.c:1480). -/
def rx (s : St) (thr n : Nat) : St := { s with ctr := fun i => if i = thr then s.ctr i + n else s.ctr i }

/-- `ofp_set_stat_flags` (src/ofp_stat.c:149-158), the flag of the rate only. -/
def set (s : St) (b : Bool) : St :=
  { s with flag := b, timers := if s.flag = false ∧ b = true then s.timers + 1 else s.timers }

/-- `ofp_perf_tmo` (src/ofp_stat.c:48-83) at a time, with `k` threads; `none`: a division by zero. -/
def fire (k now : Nat) (s : St) : Option St :=
  let timers := s.timers - 1 + (if s.flag then 1 else 0)
  let value := total s.ctr k % 2 ^ 64
  let pps := (value + 2 ^ 64 - s.prev) % 2 ^ 64
  let diff := now - s.poll
  let s1 := { s with timers := timers, prev := value, poll := now }
  if diff > 10 ^ 9 then some s1
  else if diff = 0 then none
  else some { s1 with rate := (s.rate + pps * 10 ^ 9 % 2 ^ 64 / diff) % 2 ^ 64 / 2 }

/-- What happens: packets, the flag, a timer that has run off. -/
inductive Ev where
  | rx (thr n : Nat)
  | set (b : Bool)
  | fire (k now : Nat)

/-- One of them; a timer only runs off if one is running. -/
def step (s : St) : Ev → Option St
  | .rx t n => some (rx s t n)
  | .set b => some (set s b)
  | .fire k now => if s.timers = 0 then some s else fire k now s

/-- All of them. -/
def run (s : St) : List Ev → Option St
  | [] => some s
  | e :: l => (step s e).bind fun s => run s l

end Verif.Stat

import Verif.Vxlan.TabForget
/-!
# The table under concurrency

The calls of `Verif.Vxlan.Tab` split at their atomic instructions; any number of threads, any
interleaving.  Simplifications: sequential consistency (the code uses relaxed atomics, which allow
more behaviours), and the unprotected updates of `tick` and `next_check` are one step.
-/
namespace Verif.Vxlan

/-- Where a thread stands. -/
inductive Pc where
  | idle
  /-- before the first exchange; `n` more rounds after this one (src/ofp_vxlan.c:83) -/
  | cas1 (m : Mac) (d n i old : Nat)
  /-- before the second exchange (src/ofp_vxlan.c:98-99) -/
  | cas2 (m : Mac) (d n i : Nat)
  /-- before the store of the address (src/ofp_vxlan.c:88, :104) -/
  | sAddr (d i : Nat)
  /-- before the store of the time-out (src/ofp_vxlan.c:89, :105) -/
  | sTmo (i : Nat)
  /-- before the load of a key (src/ofp_vxlan.c:130) -/
  | lKey (m : Mac) (n i : Nat)
  /-- before the load of the address (src/ofp_vxlan.c:135) -/
  | lAddr (m : Mac) (i : Nat)
  /-- `ofp_vxlan_get_mac_dst` has returned `r` -/
  | ret (m : Mac) (r : Nat)
  /-- timer: before the load of the time-out (src/ofp_vxlan.c:148) -/
  | tTmo (i : Nat)
  /-- timer: before the load of the key (src/ofp_vxlan.c:149) -/
  | tKey (i tmo : Nat)
  /-- timer: before the store of the tombstone (src/ofp_vxlan.c:159) -/
  | tDel (i : Nat)
  /-- timer: before the update of the counters (src/ofp_vxlan.c:162-163) -/
  | tEnd

/-- A call a thread can make. -/
inductive Call where
  | set (m : Mac) (d : Nat)
  | get (m : Mac)
  | tick

/-- Table, threads, and a record of the calls to `ofp_vxlan_set_mac_dst`. -/
structure Sys where
  tab : Tab
  pc : Nat → Pc
  log : List (Mac × Nat)

/-- The system after initialisation. -/
def Sys.init : Sys := ⟨Verif.Vxlan.init, fun _ => .idle, []⟩

/-- Set one program counter. -/
def at' (f : Nat → Pc) (i : Nat) (p : Pc) : Nat → Pc := fun j => if j = i then p else f j

/-- First instruction of a call (src/ofp_vxlan.c:73-81, :121-129, :147). -/
def begin' (s : Sys) : Call → Pc
  | .set m d => .cas1 m d (N - 1) (home m) FREE
  | .get m => .lKey m (N - 1) (home m)
  | .tick => .tTmo s.tab.check

/-- One atomic instruction of a thread that stands at `p`: the table afterwards and where the thread
stands then (src/ofp_vxlan.c:71-168). -/
def instr (t : Tab) : Pc → Tab × Pc
  | .idle => (t, .idle)
  | .cas1 m d n i old =>
    let c := cas t i old m.val
    if c.2 = FREE ∨ c.2 = m.val then (c.1, .sAddr d i) else (c.1, .cas2 m d n i)
  | .cas2 m d n i =>
    let c := cas t i RECYC m.val
    if c.2 = RECYC ∨ c.2 = m.val then (c.1, .sAddr d i)
    else (c.1, match n with
      | 0 => .idle
      | n + 1 => .cas1 m d n ((i + 1) % N) c.2)
  | .sAddr d i => (t.put i { t.slot i with addr := d }, .sTmo i)
  | .sTmo i => (t.put i { t.slot i with tmo := (t.tick + AGE) % 2 ^ 32 }, .idle)
  | .lKey m n i =>
    if (t.slot i).key = m.val then (t, .lAddr m i)
    else if (t.slot i).key = FREE then (t, .ret m 0)
    else (t, match n with
      | 0 => .ret m 0
      | n + 1 => .lKey m n ((i + 1) % N))
  | .lAddr m i => (t, .ret m (t.slot i).addr)
  | .ret m r => (t, .ret m r)
  | .tTmo i => (t, .tKey i (t.slot i).tmo)
  | .tKey i tmo =>
    if (t.slot i).key ≠ FREE ∧ (t.slot i).key ≠ RECYC ∧ tmo + AGE < t.tick then (t, .tDel i)
    else (t, .tEnd)
  | .tDel i => (t.put i { t.slot i with key := RECYC }, .tEnd)
  | .tEnd => (⟨t.slot, (t.check + 1) % N, (t.tick + 1) % 2 ^ 32⟩, .idle)

/-- Is the thread between calls? -/
def Pc.free : Pc → Bool
  | .idle => true
  | .ret _ _ => true
  | _ => false

/-- Something happens: a thread between calls makes a call, or a thread executes its next
instruction. -/
inductive Ev where
  | call (tid : Nat) (c : Call)
  | go (tid : Nat)

/-- Calls recorded in the log. -/
def logged : Call → List (Mac × Nat)
  | .set m d => [(m, d)]
  | _ => []

/-- One event. -/
def ev (s : Sys) : Ev → Sys
  | .call k c =>
    if (s.pc k).free then ⟨s.tab, at' s.pc k (begin' s c), s.log ++ logged c⟩ else s
  | .go k => ⟨(instr s.tab (s.pc k)).1, at' s.pc k (instr s.tab (s.pc k)).2, s.log⟩

/-- A schedule. -/
def sched (s : Sys) (es : List Ev) : Sys := es.foldl ev s

end Verif.Vxlan

/-!
# The VXLAN table of MAC addresses

Model of the open-addressing table of src/ofp_vxlan.c that maps a remote MAC address to the IPv4
address of the tunnel end point behind which it was seen.  A slot index is a number below `N`, a
key is the 64-bit word the code compares.  Little-endian byte order.

Here every call is one atomic step; `Verif.Vxlan.Conc` splits the calls at their atomic
instructions.
-/

namespace Verif.Vxlan

/-- `NUM_MAC_DST_ENTRIES` (src/ofp_vxlan.c:47). -/
def N : Nat := 8192

/-- `KEY_FREE` (src/ofp_vxlan.c:48). -/
def FREE : Nat := 0

/-- `KEY_RECYCLED` (src/ofp_vxlan.c:49). -/
def RECYC : Nat := 0x0100000000000001

/-- `VXLAN_MAC_IP_AGE_TICKS` (src/ofp_vxlan.c:51-53): one hour in ticks of 20 ms. -/
def AGE : Nat := 180000

/-- A MAC address, as the number its six bytes form in little-endian order. -/
abbrev Mac := Fin (2 ^ 48)

/-- Byte `i` of a MAC address. -/
def byte (m : Mac) (i : Nat) : Nat := m.val / 256 ^ i % 256

/-- The hash: the last two bytes read as a little-endian number, masked
(src/ofp_vxlan.c:76 and :124). -/
def home (m : Mac) : Nat := (byte m 4 + 256 * byte m 5) % N

/-- `struct mac_dst` (src/ofp_vxlan.c:55-59). -/
structure Slot where
  key : Nat
  addr : Nat
  tmo : Nat
  deriving Repr, DecidableEq

/-- `struct ofp_vxlan_mem` (src/ofp_vxlan.c:61-65). -/
structure Tab where
  slot : Nat → Slot
  check : Nat
  tick : Nat

/-- The table after `ofp_vxlan_init_global` (src/ofp_vxlan.c:297-309). -/
def init : Tab := ⟨fun _ => ⟨FREE, 0, 0⟩, 0, 0⟩

/-- Write one slot. -/
def Tab.put (t : Tab) (i : Nat) (s : Slot) : Tab :=
  ⟨fun j => if j = i then s else t.slot j, t.check, t.tick⟩

/-- `__atomic_compare_exchange_n` on the key of slot `i`: the table afterwards and the value left
in the variable `old_key` (src/ofp_vxlan.c:83-86, :99-102). -/
def cas (t : Tab) (i old key : Nat) : Tab × Nat :=
  if (t.slot i).key = old then (t.put i { t.slot i with key := key }, old) else (t, (t.slot i).key)

/-- The two stores that follow a successful search (src/ofp_vxlan.c:88-90, :104-106); the time-out
is stored in a 32-bit word. -/
def store (t : Tab) (i dst : Nat) : Tab :=
  t.put i { t.slot i with addr := dst, tmo := (t.tick + AGE) % 2 ^ 32 }

/-- The loop of `ofp_vxlan_set_mac_dst` (src/ofp_vxlan.c:81-118): `fuel` rounds are left before
`i` is back at the hash, `old` is the variable `old_key`, which is not reset between rounds. -/
def setLoop (key dst : Nat) : Nat → Tab → Nat → Nat → Tab
  | 0, t, _, _ => t
  | fuel + 1, t, i, old =>
    let c1 := cas t i old key
    if c1.2 = FREE ∨ c1.2 = key then store c1.1 i dst
    else
      let c2 := cas c1.1 i RECYC key
      if c2.2 = RECYC ∨ c2.2 = key then store c2.1 i dst
      else setLoop key dst fuel c2.1 ((i + 1) % N) c2.2

/-- `ofp_vxlan_set_mac_dst` (src/ofp_vxlan.c:71-119). -/
def setMac (t : Tab) (m : Mac) (dst : Nat) : Tab := setLoop m.val dst N t (home m) FREE

/-- The loop of `ofp_vxlan_get_mac_dst` (src/ofp_vxlan.c:129-142). -/
def getLoop (key : Nat) (t : Tab) : Nat → Nat → Nat
  | 0, _ => 0
  | fuel + 1, i =>
    if (t.slot i).key = key then (t.slot i).addr
    else if (t.slot i).key = FREE then 0
    else getLoop key t fuel ((i + 1) % N)

/-- `ofp_vxlan_get_mac_dst` (src/ofp_vxlan.c:121-143): the end point behind which a MAC address
was seen, 0 if unknown. -/
def getMac (t : Tab) (m : Mac) : Nat := getLoop m.val t N (home m)

/-- `ofp_vxlan_tmo` (src/ofp_vxlan.c:145-168), without restarting the timer.  `tmo` is a 32-bit
word, the sum with the `unsigned long` constant is a 64-bit one; `tick` is a 32-bit word. -/
def tickTab (t : Tab) : Tab :=
  let s := t.slot t.check
  let t' := if s.key ≠ FREE ∧ s.key ≠ RECYC ∧ s.tmo + AGE < t.tick then
      t.put t.check { s with key := RECYC } else t
  ⟨t'.slot, (t.check + 1) % N, (t.tick + 1) % 2 ^ 32⟩

/-- What the rest of the stack does with the table: learn an address (on receiving a frame or an
ARP request), or run the periodic timer. -/
inductive Op where
  | set (m : Mac) (dst : Nat)
  | tick
  deriving Repr, DecidableEq

/-- One operation. -/
def step (t : Tab) : Op → Tab
  | .set m d => setMac t m d
  | .tick => tickTab t

/-- A history of operations. -/
def run (t : Tab) (ops : List Op) : Tab := ops.foldl step t

end Verif.Vxlan

import Verif.Pcb6.Props
/-!
# IPv6 sockets, addresses and ports: witnesses and violations

Concrete histories: the hypotheses of the theorems of Props.lean are met, and where a property fails the history that
shows it.
-/
namespace Verif.Pcb6
open Verif.Pcb

/-- `2001:db8::1`, the address of the interface. -/
def us : A6 := ⟨0x20010db8 * 2 ^ 64, 1⟩
/-- `2001:db8::9` -/
def peer : A6 := ⟨0x20010db8 * 2 ^ 64, 9⟩
/-- `::ffff:0.0.0.9` -/
def mapped9 : A6 := ⟨0xffff, 9⟩
/-- `ff02::1` -/
def group : A6 := ⟨0xff02 * 2 ^ 80, 1⟩

/-- One interface with an address of either family. -/
def exE6 : Env6 := ⟨exE, some us, fun a => a == us, fun _ => some us⟩

example : us.mapped = false ∧ us.mcast = false ∧ mapped9.mapped = true ∧ group.mcast = true ∧ DstOk6 exE6 peer ∧
    DstOk6 exE6 any6 ∧ realDst exE6 any6 = us := by
  unfold DstOk6
  refine ⟨?_, ?_, ?_, ?_, ?_, ?_, ?_⟩ <;> decide +kernel

/-- Socket 0 bound to our address and port 80, socket 1 to `::` and port 81 for both families, socket 2 connected, socket
3 unbound, socket 4 an IPv4 one. -/
def exRun6 : List Label :=
  [.socket6 plain true, .bind6 exE6 0 us 80, .socket6 plain false, .bind6 exE6 1 any6 81, .socket6 plain false,
   .udpConnect6 exE6 2 peer 53, .socket6 plain false, .v4 (.socket plain), .v4 (.bind exE 4 (some (0, 90)))]

theorem exRun6_reach : Reach6 exC (run exC Tab6.empty exRun6) :=
  Reach6.run (by
    intro l hl
    simp only [exRun6, List.mem_cons, List.not_mem_nil, or_false] at hl
    rcases hl with rfl | rfl | rfl | rfl | rfl | rfl | rfl | rfl | rfl <;>
      first | trivial | exact ⟨trivial, trivial⟩ | (show (realDst _ _).lo ≠ 0; decide +kernel))

/-- The hypotheses of C187..C194 are met. -/
example :
    let t := run exC Tab6.empty exRun6
    lookupHash6 exC t peer 7 us 80 true = some 0 ∧ lookupHash6 exC t peer 7 us 81 true = some 1 ∧
    lookupHash6 exC t peer 53 us 5000 true = some 2 ∧ lookupHash6 exC t peer 54 us 5000 true = none ∧
    lookupHash exC t.base 7 7 2 81 true = some 1 ∧ lookupHash6 exC t peer 7 us 90 true = none := by
  refine ⟨?_, ?_, ?_, ?_, ?_, ?_⟩ <;> decide +kernel

example :
    let t := run exC Tab6.empty exRun6
    t.base.pcb 3 = some ⟨0, 0, 0, 0, false, false, false, none, false, true, false, plain⟩ ∧
    For6 exC (t.x 3) any6 ∧ For6 exC (t.x 3) us ∧ Dual (t.x 3) any6 ∧ Acceptable6 exE6 plain us ∧
    (bind6 exC exE6 t 3 us 82).1 = none ∧ (bind6 exC exE6 t 3 us 80).1 = some (.e .eaddrinuse) ∧
    (bind6 exC exE6 t 3 any6 80).1 = some (.e .eaddrinuse) ∧ (bind6 exC exE6 t 3 peer 82).1 = some (.e .eaddrnotavail) ∧
    (bind6 exC exE6 t 3 any6 0).1 = none ∧ (bind6 exC exE6 t 0 any6 0).1 = some (.e .einval) := by
  refine ⟨?_, ?_, ?_, ?_, ?_, ?_, ?_, ?_, ?_, ?_, ?_⟩ <;>
    first | decide +kernel | (unfold For6; decide +kernel) | (unfold Dual; decide +kernel)

example :
    let t := run exC Tab6.empty exRun6
    (udpConnect6 exC exE6 t 3 peer 53).1 = none ∧ (udpConnect6 exC exE6 t 0 peer 53).1 = none ∧
    (udpConnect6 exC exE6 t 2 peer 53).1 = some (.e .eisconn) ∧ (tcpConnect6 exC exE6 t 3 peer 53).1 = none ∧
    (listen6 exC exE6 t 3).1 = none ∧ (disconnect6 exC t 2).1 = none ∧ (disconnect6 exC t 0).1 = some (.e .enotconn) ∧
    (sendto6 exC exE6 t 3 peer 53).1 = .ok (us, 5001, peer) := by
  refine ⟨?_, ?_, ?_, ?_, ?_, ?_, ?_, ?_⟩ <;> decide +kernel

/-! ## C188: the families mix -/

/-- **C188**, violation: a socket with `IPV6_V6ONLY` bound to `::` receives an IPv4 packet. -/
theorem v6only_gets_v4_violated : ∃ t, Reach6 exC t ∧ lookupHash exC t.base 7 7 2 80 true = some 0 ∧
    (t.x 0).v6only = true := by
  refine ⟨run exC Tab6.empty [.socket6 plain true, .bind6 exE6 0 any6 80], Reach6.run ?_, by decide +kernel, by decide +kernel⟩
  intro l hl
  simp only [List.mem_cons, List.not_mem_nil, or_false] at hl
  rcases hl with rfl | rfl <;> trivial

/-- **C188**, violation: an accepted IPv6 connection gets the segments of an IPv4 peer whose address is the last word of
the IPv6 one, although a socket listens for IPv4 connections on that port. -/
theorem accepted6_gets_v4_violated : ∃ t, Reach6 exC t ∧ lookupHash exC t.base 9 2000 1 80 true = some 1 ∧
    (∃ p, Bound t.base 1 p ∧ fa6 (t.x 1) p = peer ∧ la6 (t.x 1) p = us) ∧
    ∃ q, Bound t.base 0 q ∧ Takes 9 2000 1 80 q .any := by
  refine ⟨run exC Tab6.empty [.v4 (.socket plain), .v4 (.bind exE 0 (some (0, 80))),
    .accept6 exE6 plain false us 80 peer 2000], Reach6.run ?_, by decide +kernel,
    ⟨⟨1, 80, 9, 2000, true, false, false, none, false, true, false, plain⟩, ⟨by decide +kernel, rfl⟩, by decide +kernel,
      by decide +kernel⟩,
    ⟨0, 80, 0, 0, true, false, false, none, false, true, false, plain⟩, ⟨by decide +kernel, rfl⟩, rfl, rfl, rfl, rfl⟩
  intro l hl
  simp only [List.mem_cons, List.not_mem_nil, or_false] at hl
  rcases hl with rfl | rfl | rfl
  · exact ⟨trivial, trivial⟩
  · exact ⟨trivial, trivial⟩
  · exact ⟨by decide, by unfold DstOk6; decide +kernel⟩

/-! ## C189 -/

/-- **C189**, violation: a socket for both families binds `::` although an IPv4 socket without options has any address
of the same port; the IPv4 packets go to the new socket. -/
theorem dual_bind_steals_violated : ∃ t, Reach6 exC t ∧ (∃ q, Bound t.base 0 q ∧ Takes 7 7 2 80 q .any) ∧
    lookupHash exC t.base 7 7 2 80 true = some 0 ∧ Dual (t.x 1) any6 ∧ ¬ Free t.base plain 0 80 ∧
    (bind6 exC exE6 t 1 any6 80).1 = none ∧
    ∃ q, Bound (bind6 exC exE6 t 1 any6 80).2.1.base 1 q ∧ Takes 7 7 2 80 q .any := by
  refine ⟨run exC Tab6.empty [.v4 (.socket plain), .v4 (.bind exE 0 (some (0, 80))), .socket6 plain false], Reach6.run ?_,
    ⟨⟨0, 80, 0, 0, true, false, false, none, false, true, false, plain⟩, ⟨by decide +kernel, rfl⟩, rfl, rfl, rfl, rfl⟩,
    by decide +kernel, by unfold Dual; decide +kernel, ?_, by decide +kernel,
    ⟨0, 80, 0, 0, true, false, false, none, false, true, false, plain⟩, ⟨by decide +kernel, rfl⟩, rfl, rfl, rfl, rfl⟩
  · intro l hl
    simp only [List.mem_cons, List.not_mem_nil, or_false] at hl
    rcases hl with rfl | rfl | rfl
    · exact ⟨trivial, trivial⟩
    · exact ⟨trivial, trivial⟩
    · trivial
  · intro hf
    have := hf 0 ⟨0, 80, 0, 0, true, false, false, none, false, true, false, plain⟩ ⟨by decide +kernel, rfl⟩ rfl rfl
    rw [if_pos (by decide)] at this
    exact this (Or.inl rfl)

/-! ## C191 -/

/-- Sockets 0 and 1 with `SO_REUSEADDR`, 0 connected from port 5000, 2 has taken the other automatic port. -/
def exReuse : List Label :=
  [.socket6 reuse false, .socket6 reuse false, .socket6 plain false, .udpConnect6 exE6 0 peer 53, .bind6 exE6 2 us 0]

/-- **C191**, violation: two datagram sockets with `SO_REUSEADDR` connect to the same peer from the same port. -/
theorem connection6_unique_violated : Reach6 exC (run exC Tab6.empty exReuse) ∧
    let t := run exC Tab6.empty exReuse
    let u := (udpConnect6 exC exE6 t 1 peer 53).2
    (udpConnect6 exC exE6 t 1 peer 53).1 = none ∧ u.base.pcb 0 = u.base.pcb 1 ∧ u.x 0 = u.x 1 ∧
    ∃ p, Bound u.base 0 p ∧ fa6 (u.x 0) p = peer ∧ p.fport = 53 ∧ la6 (u.x 0) p = us ∧ p.lport = 5000 := by
  refine ⟨Reach6.run ?_, by decide +kernel, by decide +kernel, by decide +kernel,
    ⟨1, 5000, 9, 53, true, false, false, none, false, false, true, reuse⟩, ⟨by decide +kernel, rfl⟩, by decide +kernel, rfl,
    by decide +kernel, rfl⟩
  intro l hl
  simp only [exReuse, List.mem_cons, List.not_mem_nil, or_false] at hl
  rcases hl with rfl | rfl | rfl | rfl | rfl <;> first | trivial | (show (realDst _ _).lo ≠ 0; decide +kernel)

/-! ## C192 -/

/-- A socket for both families, bound to our IPv6 address and port 80. -/
def exBound : List Label := [.socket6 plain false, .bind6 exE6 0 us 80]

theorem exBound_reach : Reach6 exC (run exC Tab6.empty exBound) := by
  refine Reach6.run ?_
  intro l hl
  simp only [exBound, List.mem_cons, List.not_mem_nil, or_false] at hl
  rcases hl with rfl | rfl <;> trivial

/-- **C192**, violation: a `bind` to a mapped address that fails, or a `connect` to one that fails, makes a bound socket
deaf: the packets it received before are no longer delivered. -/
theorem failed_call_deafens_violated : Reach6 exC (run exC Tab6.empty exBound) ∧
    let t := run exC Tab6.empty exBound
    lookupHash6 exC t peer 7 us 80 true = some 0 ∧
    (bind6 exC exE6 t 0 mapped9 90).1 = some (.e .einval) ∧
    lookupHash6 exC (bind6 exC exE6 t 0 mapped9 90).2.1 peer 7 us 80 true = none ∧
    (udpConnect6 exC exE6 t 0 mapped9 0).1 = some (.e .eaddrnotavail) ∧
    lookupHash6 exC (udpConnect6 exC exE6 t 0 mapped9 0).2 peer 7 us 80 true = none :=
  ⟨exBound_reach, by decide +kernel, by decide +kernel, by decide +kernel, by decide +kernel, by decide +kernel⟩

/-- **C192**, violation: a `connect` of a stream socket that fails leaves it bound, and a later `bind` is refused. -/
theorem failed_tcp_connect_binds_violated : Reach6 exC (run exC Tab6.empty [.socket6 plain false]) ∧
    let t := run exC Tab6.empty [.socket6 plain false]
    let e := { exE6 with route := fun _ => none }
    (tcpConnect6 exC e t 0 peer 80).1 = some .ehostunreach ∧
    (bind6 exC exE6 t 0 us 80).1 = none ∧
    (bind6 exC exE6 (tcpConnect6 exC e t 0 peer 80).2 0 us 80).1 = some (.e .einval) := by
  refine ⟨Reach6.run ?_, by decide +kernel, by decide +kernel, by decide +kernel⟩
  intro l hl
  simp only [List.mem_cons, List.not_mem_nil, or_false] at hl
  subst hl; trivial

/-! ## C193: the structure of the caller -/

/-- **C193.**  `bind` of an IPv6 socket to `::`, to a multicast or to a mapped address leaves the port in the caller's
structure alone. -/
theorem bind6_keeps_port_partial (c : Cfg) (e : Env6) (t : Tab6) (i : Nat) (a : A6) (n : Nat)
    (h : a = any6 ∨ a.mcast = true ∨ ((t.x i).v6only = false ∧ a.mapped = true)) : (bind6 c e t i a n).2.2 = n := by
  unfold bind6
  cases t.base.pcb i with
  | none => rfl
  | some p =>
    simp only
    split
    · rfl
    split
    · rfl
    split
    · rfl
    · rename_i hm
      have h' : ¬ (a.mcast = false ∧ a ≠ any6) := by
        rintro ⟨x, y⟩
        rcases h with h | h | h
        · exact y h
        · rw [h] at x; cases x
        · exact hm h
      unfold pcbbind6
      simp only [Option.map_some, Option.getD_some]
      rw [if_neg h']
      repeat' split
      all_goals rfl

/-- **C193**, violation: every `bind` of an unbound IPv6 socket to a unicast address sets the port in the structure of the
caller to 0, whether it succeeds or not: a retry with the same structure asks for an automatic port. -/
theorem bind6_clears_port_violated {c : Cfg} {e : Env6} {t : Tab6} {i : Nat} {p : Pcb} (hp : t.base.pcb i = some p)
    (hlive : p.timewait = false ∧ p.dropped = false) (hunb : p.lport = 0 ∧ la6 (t.x i) p = any6) (hpr : e.primary ≠ none)
    {a : A6} (hf : For6 c (t.x i) a) (ha : a.mcast = false ∧ a ≠ any6) (n : Nat) : (bind6 c e t i a n).2.2 = 0 := by
  rw [bind6_eq hp hlive hf]
  generalize (!(t.x i).v6only && a == any6) = v
  have hla : la6 ((setFam t i p v true).x i) { p with v4 := v } = any6 := by
    have : (setFam t i p v true).x i = { t.x i with v6 := true } := by simp only [setFam, upd_self]
    rw [this]; exact hunb.2
  unfold pcbbind6
  simp only
  rw [if_neg hpr, if_neg (by rintro (x | x); exacts [x hunb.1, x hla]), if_pos ha]
  repeat' split
  all_goals rfl

/-- **C193**, violation: `sendto` to a mapped address overwrites the caller's structure with an IPv4 one. -/
theorem sendto6_overwrites_violated {c : Cfg} {e : Env6} {t : Tab6} {i : Nat} {p : Pcb} (hp : t.base.pcb i = some p)
    (hlive : p.timewait = false ∧ p.dropped = false) (hv : (t.x i).v6only = false) {dst : A6} (hm : dst.mapped = true)
    (n : Nat) : (sendto6 c e t i dst n).2.2 = true := by
  unfold sendto6
  simp only [hp, hlive.1, hlive.2, hv, hm, Bool.false_eq_true, or_self, and_self, if_true, if_false]

/-- **C193**: any other `sendto` leaves it alone. -/
theorem sendto6_keeps_partial (c : Cfg) (e : Env6) (t : Tab6) (i : Nat) {dst : A6}
    (hm : dst.mapped = false ∨ (t.x i).v6only = true) (n : Nat) : (sendto6 c e t i dst n).2.2 = false := by
  unfold sendto6
  have h' : ¬ ((t.x i).v6only = false ∧ dst.mapped = true) := by
    rintro ⟨x, y⟩
    rcases hm with h | h
    · rw [h] at y; cases y
    · rw [h] at x; cases x
  cases t.base.pcb i with
  | none => rfl
  | some p =>
    simp only
    by_cases h1 : p.timewait = true ∨ p.dropped = true
    · rw [if_pos h1]
    rw [if_neg h1, if_neg h']
    by_cases h2 : n = 0
    · rw [if_pos h2]
    rw [if_neg h2]
    by_cases h3 : fa6 (t.x i) p ≠ any6
    · rw [if_pos h3]
    rw [if_neg h3]
    by_cases h4 : dst.mapped = true
    · rw [if_pos h4]
    rw [if_neg h4]
    cases (if dst = any6 then e.primary else selectSrc e (la6 (t.x i) p) dst) with
    | none => rfl
    | some s =>
      simp only
      by_cases h5 : p.lport = 0
      · rw [if_pos h5]
        cases (setport6 c e t i p (la6 (t.x i) p)).1 <;>
          cases (setport6 c e t i p (la6 (t.x i) p)).2.base.pcb i <;> rfl
      · rw [if_neg h5]

example : (bind6 exC exE6 (run exC Tab6.empty exRun6) 3 us 82).2.2 = 0 ∧
    (bind6 exC exE6 (run exC Tab6.empty exRun6) 3 any6 82).2.2 = 82 ∧
    (sendto6 exC exE6 (run exC Tab6.empty exRun6) 3 mapped9 53).2.2 = true ∧
    (sendto6 exC exE6 (run exC Tab6.empty exRun6) 3 peer 53).2.2 = false := by
  refine ⟨?_, ?_, ?_, ?_⟩ <;> decide +kernel

/-- **C191**: a socket with `IPV6_V6ONLY` refuses to connect to a mapped IPv4 address, and nothing changes. -/
theorem connect6_mapped_refused {c : Cfg} {e : Env6} {t : Tab6} {i : Nat} {p : Pcb} (hp : t.base.pcb i = some p)
    {dst : A6} {dport : Nat} (hm : dst.mapped = true) (hv : (t.x i).v6only = true) :
    udpConnect6 c e t i dst dport = (some (.e .einval), t) := by
  unfold udpConnect6
  simp [hp, hm, hv]

/-- **C187**: the socket of an IPv4 connection accepted on an IPv6 listener gets no IPv6 segments, whatever the addresses. -/
theorem accepted4_not_ipv6 {c : Cfg} {e : Env6} {t : Tab6} {o : Opts} {v : Bool} {la lport fa fport : Nat}
    {fa' la' : A6} {fp lp : Nat} :
    lookupExact6 c (accept4 c e t o v la lport fa fport).2 fa' fp la' lp ≠ some t.base.next := by
  intro hr
  obtain ⟨_, p, _, hf⟩ := find6_some (f := fun i p =>
    ((accept4 c e t o v la lport fa fport).2.x i).v6 && fa6 ((accept4 c e t o v la lport fa fport).2.x i) p == fa' &&
      la6 ((accept4 c e t o v la lport fa fport).2.x i) p == la' && p.fport == fp && p.lport == lp) hr
  have hx : ((accept4 c e t o v la lport fa fport).2.x t.base.next).v6 = false := by
    simp only [accept4, upd_self]
  rw [hx] at hf
  simp at hf

/-! ## C194 -/

/-- A connected socket, then a `bind` to `::`, which fails. -/
def exHalf : List Label := [.socket6 plain false, .udpConnect6 exE6 0 peer 53, .bind6 exE6 0 any6 90]

/-- **C194**, violation: `disconnect` reports success, the socket still has most of its peer's address, and neither
another `connect` nor the answer of anyone reaches it. -/
theorem disconnect6_half_violated : Reach6 exC (run exC Tab6.empty exHalf) ∧
    let t := run exC Tab6.empty exHalf
    lookupHash6 exC t peer 53 us 5000 true = some 0 ∧ (disconnect6 exC t 0).1 = none ∧
    (∃ p, Bound (disconnect6 exC t 0).2.base 0 p ∧ fa6 ((disconnect6 exC t 0).2.x 0) p = { peer with lo := 0 }) ∧
    (udpConnect6 exC exE6 (disconnect6 exC t 0).2 0 peer 54).1 = some (.e .eisconn) ∧
    lookupHash6 exC (disconnect6 exC t 0).2 peer 53 us 5000 true = none := by
  refine ⟨Reach6.run ?_, by decide +kernel, by decide +kernel,
    ⟨⟨0, 5000, 0, 0, true, false, false, none, false, true, true, plain⟩, ⟨by decide +kernel, rfl⟩, by decide +kernel⟩,
    by decide +kernel, by decide +kernel⟩
  intro l hl
  simp only [exHalf, List.mem_cons, List.not_mem_nil, or_false] at hl
  rcases hl with rfl | rfl | rfl <;> first | trivial | (show (realDst _ _).lo ≠ 0; decide +kernel)

/-- **C194**, violation: `disconnect` of a socket for both families that is not connected reports success. -/
theorem disconnect6_unconnected_violated : Reach6 exC (run exC Tab6.empty [.socket6 plain false]) ∧
    (disconnect6 exC (run exC Tab6.empty [.socket6 plain false]) 0).1 = none := by
  refine ⟨Reach6.run ?_, by decide +kernel⟩
  intro l hl
  simp only [List.mem_cons, List.not_mem_nil, or_false] at hl
  subst hl; trivial

end Verif.Pcb6

import Verif.Udp.Hist
import Verif.Udp.Trip
/-! # What does not hold for datagram sockets

Violations of C117, C119 and C120, and concrete cases that meet the hypotheses of the theorems of this directory. -/
namespace Verif.Udp

/-! ## C119: reads behind the datagram -/

/-- The bytes of an IP and a UDP header without checksum and with length field `ul`. -/
def hdr (src sp dst dp ul : Nat) : List UInt8 :=
  [0x45, 0, 0, 28, 0, 0, 0, 0, 64, 17, 0, 0] ++ b32 src ++ b32 dst ++ (b16 sp ++ b16 dp ++ b16 ul ++ [0, 0])

/-- A packet of `k` bytes (and an Ethernet header) of those headers; what follows in memory is not part of the packet. -/
def cut (k src sp dst dp ul : Nat) (mem : List UInt8) : Buf :=
  ⟨0, List.replicate 14 0, (hdr src sp dst dp ul).take k, 20, (hdr src sp dst dp ul).drop k ++ mem, 0, .none⟩

theorem cut_byte (k src sp dst dp ul : Nat) (mem : List UInt8) (i : Nat) :
    (cut k src sp dst dp ul mem).byte i = (hdr src sp dst dp ul ++ mem).getD i 0 := by
  unfold Buf.byte cut
  simp only
  rw [← List.append_assoc, List.take_append_drop]

theorem cut_fields (k src sp dst dp ul : Nat) (mem : List UInt8) (hs : src < 4294967296) (hd : dst < 4294967296)
    (hsp : sp < 65536) (hdp : dp < 65536) (hul : ul < 65536) :
    let b := cut k src sp dst dp ul mem
    b.hlen = 20 ∧ b.src = src ∧ b.dst = dst ∧ b.sport = sp ∧ b.dport = dp ∧ b.ttl = 64 ∧ b.usum = 0 ∧ b.ulen = ul := by
  intro b
  have hb : ∀ i, b.byte i = (hdr src sp dst dp ul ++ mem).getD i 0 := cut_byte k src sp dst dp ul mem
  have e0 : b.hlen = 20 := by
    unfold Buf.hlen
    rw [hb, show (hdr src sp dst dp ul ++ mem).getD 0 0 = 0x45 from rfl]
    rfl
  refine ⟨e0, ?_, ?_, ?_, ?_, ?_, ?_, ?_⟩
  · unfold Buf.src Buf.be32 Buf.be16
    rw [hb, hb, hb, hb]
    show ((UInt8.ofNat (src / 65536 / 256)).toNat * 256 + (UInt8.ofNat (src / 65536 % 256)).toNat) * 65536 +
      ((UInt8.ofNat (src % 65536 / 256)).toNat * 256 + (UInt8.ofNat (src % 65536 % 256)).toNat) = src
    rw [b16_toNat _ (by omega), b16_toNat _ (by omega)]
    omega
  · unfold Buf.dst Buf.be32 Buf.be16
    rw [hb, hb, hb, hb]
    show ((UInt8.ofNat (dst / 65536 / 256)).toNat * 256 + (UInt8.ofNat (dst / 65536 % 256)).toNat) * 65536 +
      ((UInt8.ofNat (dst % 65536 / 256)).toNat * 256 + (UInt8.ofNat (dst % 65536 % 256)).toNat) = dst
    rw [b16_toNat _ (by omega), b16_toNat _ (by omega)]
    omega
  · unfold Buf.sport Buf.be16
    rw [e0, hb, hb]
    exact b16_toNat _ hsp
  · unfold Buf.dport Buf.be16
    rw [e0, hb, hb]
    exact b16_toNat _ hdp
  · unfold Buf.ttl
    rw [hb, show (hdr src sp dst dp ul ++ mem).getD 8 0 = 64 from rfl]
    rfl
  · unfold Buf.usum Buf.be16
    rw [e0, hb, hb, show (hdr src sp dst dp ul ++ mem).getD (20 + 6) 0 = 0 from rfl,
      show (hdr src sp dst dp ul ++ mem).getD (20 + 6 + 1) 0 = 0 from rfl]
    rfl
  · unfold Buf.ulen Buf.be16
    rw [e0, hb, hb]
    exact b16_toNat _ hul

/-- Such a packet is delivered, and the read returns memory behind the packet. -/
theorem cut_read (e : Env) (s : St) (j k src sp dst dp ul : Nat) (mem : List UInt8) (hk : 20 ≤ k)
    (hs : src < 4294967296) (hd : dst < 4294967296) (hsp : sp < 65536) (hdp : dp < 65536) (hul : ul < 65536)
    (hdp0 : dp ≠ 0) (hg : (multicast dst || broadcast dst) = false)
    (hl : Pcb.lookupHash e.cfg s.tab src sp dst dp true = some j) (httl : (s.sk j).minttl ≤ 64)
    (ht : (s.sk j).takes 0 = false) (hr : (s.sk j).rcv = []) (n : Nat) (hn : n ≤ mem.length) :
    (input e s (cut k src sp dst dp ul mem)).1 = .processed ∧
    (recvfrom (input e s (cut k src sp dst dp ul mem)).2 j n).1 =
      some ⟨mem.take (min n ((ul + 18446744073709551616 - 8) % 18446744073709551616)), sockaddr src sp⟩ := by
  obtain ⟨f0, f1, f2, f3, f4, f5, f6, f7⟩ := cut_fields k src sp dst dp ul mem hs hd hsp hdp hul
  have hlen : (cut k src sp dst dp ul mem).l3.length = min k 28 := by
    unfold cut; rw [List.length_take]; rfl
  have hl2 : (cut k src sp dst dp ul mem).l2.length = 14 := rfl
  have hacc : Accepted e (cut k src sp dst dp ul mem) := by
    refine ⟨by rw [hlen, hl2, f0]; omega, by rw [f4]; exact hdp0, ?_⟩
    unfold rejects
    rw [f6]; rfl
  have hin := unicast_delivery e s _ hacc (by rw [f2]; exact hg) j (by rw [f1, f2, f3, f4]; exact hl)
    (by rw [f5]; exact httl) ht (by rw [hr]; decide)
  rw [hin]
  refine ⟨rfl, ?_⟩
  rw [f1, f3, hr]
  have hsb : ∀ i, 4 ≤ i → ((cut k src sp dst dp ul mem).save (sockaddr src sp)).byte i =
      (hdr src sp dst dp ul ++ mem).getD i 0 := by
    intro i hi
    rw [save_byte _ _ (by rw [hlen, hl2, sockaddr_len]; omega) i (by rw [hl2, sockaddr_len]; omega), cut_byte]
  have hcl : ((cut k src sp dst dp ul mem).save (sockaddr src sp)).claimed =
      (ul + 18446744073709551616 - 8) % 18446744073709551616 := by
    unfold Buf.claimed Buf.be16
    have h4 : ((cut k src sp dst dp ul mem).save (sockaddr src sp)).l4 = 20 := rfl
    rw [h4, hsb _ (by omega), hsb _ (by omega)]
    have : ((hdr src sp dst dp ul ++ mem).getD (20 + 4) 0).toNat * 256 +
        ((hdr src sp dst dp ul ++ mem).getD (20 + 4 + 1) 0).toNat = ul := b16_toNat ul hul
    rw [this]
  unfold recvfrom
  simp only [Pcb.upd_self, List.nil_append]
  rw [hcl]
  generalize (ul + 18446744073709551616 - 8) % 18446744073709551616 = C
  have hmin : (if C > n then n else C) = min n C := by
    by_cases h : C > n
    · rw [if_pos h]; omega
    · rw [if_neg h]; omega
  have hread : ∀ m, m ≤ mem.length → ((cut k src sp dst dp ul mem).save (sockaddr src sp)).read (20 + 8) m = mem.take m := by
    intro m hm
    unfold Buf.read
    apply List.ext_getElem
    · simp; omega
    · intro x h1 h2
      have hx : x < m := by simpa using h1
      rw [List.getElem_map, List.getElem_range, hsb _ (by omega), getD_right _ _ _ (by
        show 28 ≤ _; omega), List.getElem_take, List.getD_eq_getElem?_getD]
      have : 20 + 8 + x - (hdr src sp dst dp ul).length = x := by
        show 20 + 8 + x - 28 = x
        omega
      rw [this, List.getElem?_eq_getElem (by omega)]
      rfl
  have hl4 : ((cut k src sp dst dp ul mem).save (sockaddr src sp)).l4 = 20 := rfl
  have htake : (((cut k src sp dst dp ul mem).save (sockaddr src sp)).l2 ++
      ((cut k src sp dst dp ul mem).save (sockaddr src sp)).l3).take
      (((((cut k src sp dst dp ul mem).save (sockaddr src sp)).l2 ++
      ((cut k src sp dst dp ul mem).save (sockaddr src sp)).l3).headD 0).toNat) = sockaddr src sp := by
    rw [save_whole]
    have : ((sockaddr src sp ++ ((cut k src sp dst dp ul mem).l2 ++ (cut k src sp dst dp ul mem).l3).drop
        (sockaddr src sp).length).headD 0).toNat = 16 := rfl
    rw [this, List.take_append_of_le_length (by rw [sockaddr_len]; omega), List.take_of_length_le (by rw [sockaddr_len]; omega)]
  rw [hl4, hmin, hread _ (by omega), htake]

/-- **C119, violation (announced length).**  The UDP length field is believed.  A datagram of 28 bytes that announces
more makes `ofp_recvfrom` return whatever lies in memory behind the packet: for every such content `secret`. -/
theorem overread_violated (e : Env) (s : St) (j src sp dst dp : Nat) (secret : List UInt8) (hsec : secret.length < 65528)
    (hs : src < 4294967296) (hd : dst < 4294967296) (hsp : sp < 65536) (hdp : dp < 65536)
    (hdp0 : dp ≠ 0) (hg : (multicast dst || broadcast dst) = false)
    (hl : Pcb.lookupHash e.cfg s.tab src sp dst dp true = some j) (httl : (s.sk j).minttl ≤ 64)
    (ht : (s.sk j).takes 0 = false) (hr : (s.sk j).rcv = []) :
    ∃ b : Buf, b.l3.length = 28 ∧ b.after = secret ∧ (input e s b).1 = .processed ∧
      (recvfrom (input e s b).2 j secret.length).1 = some ⟨secret, sockaddr src sp⟩ := by
  refine ⟨cut 28 src sp dst dp (secret.length + 8) secret, rfl, rfl, ?_⟩
  obtain ⟨h1, h2⟩ := cut_read e s j 28 src sp dst dp (secret.length + 8) secret (by omega) hs hd hsp hdp (by omega) hdp0 hg
    hl httl ht hr secret.length (Nat.le_refl _)
  refine ⟨h1, h2.trans ?_⟩
  have : min secret.length ((secret.length + 8 + 18446744073709551616 - 8) % 18446744073709551616) = secret.length := by
    omega
  rw [this, List.take_length]

/-- **C119, violation (length below 8).**  The subtraction wraps: the read returns as many bytes behind the packet as
the caller's buffer takes. -/
theorem underflow_violated (e : Env) (s : St) (j src sp dst dp ul : Nat) (secret : List UInt8) (hul : ul < 8)
    (hsec : secret.length < 18446744073709551608)
    (hs : src < 4294967296) (hd : dst < 4294967296) (hsp : sp < 65536) (hdp : dp < 65536)
    (hdp0 : dp ≠ 0) (hg : (multicast dst || broadcast dst) = false)
    (hl : Pcb.lookupHash e.cfg s.tab src sp dst dp true = some j) (httl : (s.sk j).minttl ≤ 64)
    (ht : (s.sk j).takes 0 = false) (hr : (s.sk j).rcv = []) :
    ∃ b : Buf, b.l3.length = 28 ∧ b.ulen = ul ∧ b.after = secret ∧ (input e s b).1 = .processed ∧
      (recvfrom (input e s b).2 j secret.length).1 = some ⟨secret, sockaddr src sp⟩ := by
  refine ⟨cut 28 src sp dst dp ul secret, rfl,
    (cut_fields 28 src sp dst dp ul secret hs hd hsp hdp (by omega)).2.2.2.2.2.2.2, rfl, ?_⟩
  obtain ⟨h1, h2⟩ := cut_read e s j 28 src sp dst dp ul secret (by omega) hs hd hsp hdp (by omega) hdp0 hg
    hl httl ht hr secret.length (Nat.le_refl _)
  refine ⟨h1, h2.trans ?_⟩
  have : min secret.length ((ul + 18446744073709551616 - 8) % 18446744073709551616) = secret.length := by
    omega
  rw [this, List.take_length]

/-- **C119, violation (no UDP header at all).**  The length test counts the Ethernet header, so an IP packet of 20 bytes
passes; its "ports" are read from memory behind the packet and decide who gets it. -/
theorem headerless_violated (e : Env) (s : St) (j src sp dst dp : Nat)
    (hs : src < 4294967296) (hd : dst < 4294967296) (hsp : sp < 65536) (hdp : dp < 65536)
    (hdp0 : dp ≠ 0) (hg : (multicast dst || broadcast dst) = false)
    (hl : Pcb.lookupHash e.cfg s.tab src sp dst dp true = some j) (httl : (s.sk j).minttl ≤ 64)
    (ht : (s.sk j).takes 0 = false) (hr : (s.sk j).rcv = []) :
    ∃ b : Buf, b.l3.length = 20 ∧ b.after.take 4 = b16 sp ++ b16 dp ∧ (input e s b).1 = .processed ∧
      (recvfrom (input e s b).2 j 0).1 = some ⟨[], sockaddr src sp⟩ := by
  refine ⟨cut 20 src sp dst dp 8 [], rfl, rfl, ?_⟩
  exact cut_read e s j 20 src sp dst dp 8 [] (by omega) hs hd hsp hdp (by omega) hdp0 hg hl httl ht hr 0 (Nat.le_refl _)

/-! ## C120: VRFs -/

/-- **C120, violation.**  The VRF of a packet and that of a socket play no role: a unicast datagram the lookup gives to
socket `j` is delivered to it whatever VRF it came in and whatever VRF the socket was opened in. -/
theorem vrf_violated (e : Env) (s : St) (b : Buf) (ha : Accepted e b)
    (hg : (multicast b.dst || broadcast b.dst) = false) (j : Nat)
    (hl : Pcb.lookupHash e.cfg s.tab b.src b.sport b.dst b.dport true = some j)
    (httl : (s.sk j).minttl ≤ b.ttl) (ht : (s.sk j).takes b.id = false) (hr : (s.sk j).rcv.length < room) (v v' : Nat) :
    ∃ q, Copy { b with vrf := v } (sockaddr b.src b.sport) q ∧
      ((input e { s with sk := Pcb.upd s.sk j { s.sk j with vrf := v' } } { b with vrf := v }).2.sk j).rcv =
        (s.sk j).rcv ++ [q] := by
  have ha' : Accepted e { b with vrf := v } := ⟨ha.long, ha.port, ha.sum⟩
  generalize hS : ({ s with sk := Pcb.upd s.sk j { s.sk j with vrf := v' } } : St) = S
  have hk : S.sk j = { s.sk j with vrf := v' } := by rw [← hS]; exact Pcb.upd_self ..
  have hT : S.tab = s.tab := by rw [← hS]
  have := unicast_delivery e S { b with vrf := v } ha' hg j (by rw [hT]; exact hl)
    (by rw [hk]; exact httl) (by rw [hk]; exact ht) (by rw [hk]; exact hr)
  rw [this]
  refine ⟨Buf.save { b with vrf := v } (sockaddr b.src b.sport), ⟨b.id, rfl⟩, ?_⟩
  show (Pcb.upd S.sk j _ j).rcv = _
  rw [Pcb.upd_self]
  show (S.sk j).rcv ++ _ = _
  rw [hk]
  rfl

/-! ## Concrete cases -/

def exE : Pcb.Env := ⟨some 1, fun a => a == 1 || a == 2, multicast, fun _ => some 1, 0, true⟩

/-- 224.0.0.5 -/
def exG : Nat := 3758096389

/-- Socket 0 any address port 80, socket 1 the group port 80, both sharing, both members; socket 2 address 2 port 53. -/
def exCalls : List Act :=
  [.call (.socket Pcb.reuse), .call (.bind exE 0 (some (0, 80))), .call (.socket Pcb.reuse),
   .call (.bind exE 1 (some (exG, 80))), .call (.socket Pcb.plain), .call (.bind exE 2 (some (2, 53))),
   .option 0 0 0 (some fun _ _ _ => true) (fun _ => false),
   .option 1 0 0 (some fun _ _ _ => true) (fun _ => false)]

def exRun (ls : List Act) : World := ls.foldl (step Pcb.exC) World.init

def exEnv : Env := ⟨Pcb.exC, fun _ => (false, false), fun _ => true, true⟩

/-- A datagram of 3 bytes without checksum. -/
def exPkt (src sp dst dp : Nat) : Buf :=
  ⟨0, List.replicate 14 0, hdr src sp dst dp 11 ++ [7, 8, 9], 20, [1, 2, 3], 0, .none⟩

def exWorld : World := exRun (exCalls ++
  [.packet exEnv (exPkt 9 1000 exG 80), .packet exEnv (exPkt 9 1000 2 53), .packet exEnv (exPkt 9 1000 2 80),
   .recv 0 10, .recv 1 2, .recv 2 10])

theorem exWorld_reach : Reach Pcb.exC exWorld := by
  unfold exWorld exRun exCalls
  simp only [List.cons_append, List.nil_append, List.foldl_cons, List.foldl_nil]
  repeat' (first
    | exact Reach.init
    | refine Reach.step _ _ ?_ ?_)
  all_goals first
    | exact ⟨trivial, trivial⟩
    | rfl
    | (unfold Ok; decide +kernel)

/-- The hypotheses of C115 - C118 are met: both members read the group datagram, one of them truncated, socket 2 its
unicast datagram; a unicast datagram to port 80 is queued for socket 0. -/
example :
    exWorld.got 0 = [(10, ⟨[7, 8, 9], sockaddr 9 1000⟩)] ∧ exWorld.got 1 = [(2, ⟨[7, 8], sockaddr 9 1000⟩)] ∧
    exWorld.got 2 = [(10, ⟨[7, 8, 9], sockaddr 9 1000⟩)] := by decide +kernel

example : (exWorld.s.sk 0).rcv.length = 1 ∧ exWorld.given.length = 4 ∧ exWorld.s.freed.length = 3 := by decide +kernel

example : ∀ p ∈ exWorld.fed, Whole p.2.2 := by
  have h : exWorld.fed.map (fun p => p.2.2) =
    [{ exPkt 9 1000 exG 80 with id := 0 }, { exPkt 9 1000 2 53 with id := 2 }, { exPkt 9 1000 2 80 with id := 3 }] := by
    decide +kernel
  intro p hp
  have : p.2.2 ∈ exWorld.fed.map (fun p => p.2.2) := List.mem_map_of_mem hp
  rw [h] at this
  simp only [List.mem_cons, List.not_mem_nil, or_false] at this
  rcases this with g | g | g <;> rw [g] <;>
    exact ⟨by decide +kernel, by decide +kernel, by decide +kernel, by decide +kernel⟩

/-- The hypotheses of C117's partial theorem. -/
example : (multicast (exPkt 9 1000 exG 80).dst || broadcast (exPkt 9 1000 exG 80).dst) = true ∧
    rejects exEnv.al (exPkt 9 1000 exG 80) = false ∧ (exPkt 9 1000 exG 80).dport ≠ 0 := by decide +kernel

/-- A round trip: socket 2 of `exWorld` sends to port 80 of address 2; the hypotheses of `udp_round_trip` are met. -/
example :
    let e : SEnv := ⟨Pcb.exC, exE, true, true, true⟩
    let k : Snd := ⟨false, 0, false, 0, 64⟩
    let r := sendto e exWorld.s.tab k 2 [104, 105, 33] (some (2, 80))
    r.fate = .sent ∧ r.res = .ok 3 ∧ (addresses e exWorld.s.tab 2 (some (2, 80))).1 = .ok (2, 53, 2, 80) ∧
    (multicast 2 || broadcast 2) = false ∧ Pcb.lookupHash exEnv.cfg exWorld.s.tab 2 53 2 80 true = some 0 ∧
    (exWorld.s.sk 0).minttl ≤ 60 ∧ (exWorld.s.sk 0).takes 9 = false ∧ (exWorld.s.sk 0).rcv.length < room := by
  decide +kernel

/-- **C117, violation (copy).**  If a packet copy cannot be made, a member of the group misses the datagram although it
shares its port, has room and no callback; no error is reported. -/
theorem group_copy_violated :
    let w := exRun (exCalls ++ [.packet { exEnv with copyOk := fun _ => false } (exPkt 9 1000 exG 80)])
    (w.s.sk 1).rcv = [] ∧ (w.s.sk 0).rcv.length = 1 ∧ w.given.length = 1 := by decide +kernel

/-- **C117, violation (option).**  A member that has cleared the sharing option hides the members opened before it. -/
theorem group_share_violated :
    let w := exRun (exCalls ++ [.call (.setopt 1 Pcb.plain), .packet exEnv (exPkt 9 1000 exG 80)])
    (w.s.sk 1).rcv.length = 1 ∧ (w.s.sk 0).rcv = [] := by decide +kernel

/-- **C117, violation (directed broadcast).**  A broadcast to a subnet (here 10.255.255.255, an address the interface
accepts) is not recognised as one: only one of the sockets bound to the port gets it. -/
theorem directed_broadcast_violated :
    let d := 184549375
    let w := exRun [.call (.socket Pcb.reuse), .call (.bind exE 0 (some (0, 80))), .call (.socket { Pcb.reuse with bindany := true }),
      .call (.bind exE 1 (some (d, 80))), .packet exEnv (exPkt 9 1000 d 80)]
    (w.s.sk 1).rcv.length = 1 ∧ (w.s.sk 0).rcv = [] ∧
    wants ((w.s.tab.pcb 0).getD ⟨0, 0, 0, 0, false, false, false, none, false, false, false, Pcb.plain⟩) (w.s.sk 0)
      (exPkt 9 1000 d 80) = true := by decide +kernel

/-- C119, violations: the hypotheses are met by socket 2. -/
example : Pcb.lookupHash exEnv.cfg (exRun exCalls).s.tab 9 1000 2 53 true = some 2 ∧
    ((exRun exCalls).s.sk 2).minttl ≤ 64 ∧ ((exRun exCalls).s.sk 2).takes 0 = false ∧ ((exRun exCalls).s.sk 2).rcv = [] := by
  decide +kernel

end Verif.Udp

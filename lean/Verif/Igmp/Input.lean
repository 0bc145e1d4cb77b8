import Verif.Cksum.Props
/-!
# Model of `ofp_igmp_input` (`src/ofp_igmp.c`)

The packet is the memory from `odp_packet_data` on, also beyond the end of the packet.  What the handlers of queries and
reports do then is in `Host.lean`; here is which of them is called, with what it reads.
-/
namespace Verif.Igmp.Input

/-- What comes of a packet.  `freed`: freed, and to be freed again by the caller. -/
inductive Out where
  | freed
  | drop
  | cont
  | query1
  | query2 (group code : Nat)
  | query3 (code qrv qqi : Nat)
  | query3g (group code qrv qqi nsrc : Nat)
  | report1 (group : Nat)
  | report2 (group : Nat)
deriving DecidableEq, Repr

/-- 16 bits of memory in network byte order. -/
def rd16 (m : Nat → UInt8) (i : Nat) : Nat := (m i).toNat * 256 + (m (i + 1)).toNat

/-- 32 bits of memory in network byte order. -/
def rd32 (m : Nat → UInt8) (i : Nat) : Nat := rd16 m i * 65536 + rd16 m (i + 2)

/-- `n` bytes of memory. -/
def bytes (m : Nat → UInt8) (i n : Nat) : List UInt8 := (List.range n).map fun j => m (i + j)

/-- 224.0.0.1. -/
def allHosts : Nat := 0xe0000001

/-- The checks of `igmp_input_v1_query` (src/ofp_igmp.c:811-821). -/
def v1 (dst group : Nat) : Out := if dst ≠ allHosts ∨ group ≠ 0 then .cont else .query1

/-- The checks of `igmp_input_v2_query` (src/ofp_igmp.c:899-919). -/
def v2 (dst group code : Nat) : Out := if group = 0 ∧ dst ≠ allHosts then .cont else .query2 group code

/-- The checks of `igmp_input_v3_query` (src/ofp_igmp.c:1038-1108); `p` is where it reads the message. -/
def v3 (m : Nat → UInt8) (p dst : Nat) : Out :=
  let code := (m (p + 1)).toNat
  let group := rd32 m (p + 4)
  let qrv := (m (p + 8)).toNat % 8
  let qqi := (m (p + 9)).toNat
  let nsrc := rd16 m (p + 10)
  if group = 0 then
    if dst ≠ allHosts ∨ nsrc > 0 then .cont else .query3 code qrv qqi
  else .query3g group code qrv qqi nsrc

/-- The checks of `igmp_input_v1_report`, `igmp_input_v2_report` (src/ofp_igmp.c:1315-1323, 1424-1440) on an interface that is
no loopback; `own`: the report is from this host. -/
def report (own : Bool) (dst group : Nat) (out : Out) : Out :=
  if own then .cont
  else if group / 2 ^ 28 ≠ 14 ∨ group ≠ dst then .drop
  else out

/-- `ofp_igmp_input` (src/ofp_igmp.c:1507-1675).  `l3` is the offset of the IP header, `off` its length; `odd2`, `arm4` are the
alignment of the message; `e1`, `e2` tell whether versions 1, 2 are enabled. -/
def input (odd2 arm4 e1 e2 own : Bool) (m : Nat → UInt8) (l3 off : Nat) : Out :=
  let igmp := l3 + off
  let igmplen := rd16 m (l3 + 2)
  let dst := rd32 m (l3 + 16)
  if igmplen < 8 then .freed
  else if Cksum.cksumBuffer odd2 arm4 igmplen (bytes m igmp igmplen) ≠ some 0 then .drop
  else if m igmp ≠ 0x13 ∧ m (l3 + 8) ≠ 1 then .drop
  else if m igmp = 0x11 then
    if igmplen = 8 then
      if m (igmp + 1) = 0 then (if e1 then v1 dst (rd32 m (igmp + 4)) else .cont)
      else (if e2 then v2 dst (rd32 m (igmp + 4)) (m (igmp + 1)).toNat else .cont)
    else if igmplen ≥ 12 then v3 m off dst
    else .drop
  else if m igmp = 0x12 then (if e1 then report false dst (rd32 m (igmp + 4)) (.report1 (rd32 m (igmp + 4))) else .cont)
  else if m igmp = 0x16 then (if e2 then report own dst (rd32 m (igmp + 4)) (.report2 (rd32 m (igmp + 4))) else .cont)
  else .cont

/-! ## Specification -/

/-- The memory holds an IPv4 datagram at `l3` with a header of `off` bytes that is from the wire well formed: protocol IGMP,
TTL 1, `ip_len` covers the header and an IGMP message of `n` bytes. -/
structure Datagram (m : Nat → UInt8) (l3 off n : Nat) : Prop where
  header : 20 ≤ off ∧ off ≤ 60
  total : rd16 m (l3 + 2) = off + n
  ttl : m (l3 + 8) = 1
  proto : m (l3 + 9) = 2

/-- The IGMP message has a good checksum. -/
def Good (m : Nat → UInt8) (l3 off n : Nat) : Prop := Cksum.Spec.checksum (bytes m (l3 + off) n) = 0

/-! ## Lemmas -/

theorem rd16_lt (m : Nat → UInt8) (i : Nat) : rd16 m i < 65536 := by
  unfold rd16
  have h1 := (m i).toNat_lt; have h2 := (m (i + 1)).toNat_lt
  omega

theorem bytes_length (m : Nat → UInt8) (i n : Nat) : (bytes m i n).length = n := by simp [bytes]

theorem bytes_add (m : Nat → UInt8) (i a b : Nat) : bytes m i (a + b) = bytes m i a ++ bytes m (i + a) b := by
  unfold bytes
  rw [List.range_add, List.map_append, List.map_map]
  congr 1
  apply List.map_congr_left
  intro j _
  simp [Nat.add_assoc]

/-- The test of the code is the checksum over `ip_len` bytes. -/
theorem cksum_zero (odd2 arm4 : Bool) (m : Nat → UInt8) (i n : Nat) (hn : n < 65536) :
    Cksum.cksumBuffer odd2 arm4 n (bytes m i n) = some 0 ↔ Cksum.Spec.checksum (bytes m i n) = 0 := by
  obtain ⟨r, h1, h2⟩ := Cksum.ofp_cksum_buffer_partial odd2 arm4 (bytes m i n) n (by rw [bytes_length]; exact Nat.le_refl _)
    (by omega)
  rw [h1]
  rw [List.take_of_length_le (by rw [bytes_length]; exact Nat.le_refl _)] at h2
  have hc : Cksum.Spec.checksum (bytes m i n) ≤ 65535 := by unfold Cksum.Spec.checksum; omega
  simp only [Cksum.stored, Cksum.Spec.wireBytes, List.cons.injEq, and_true] at h2
  constructor
  · intro h
    have : r = 0 := by simpa using h
    subst this; omega
  · intro h
    rw [h] at h2
    have : r = 0 := by omega
    rw [this]

theorem words_append (a b : List UInt8) (h : a.length % 2 = 0) :
    Cksum.Spec.words (a ++ b) = Cksum.Spec.words a ++ Cksum.Spec.words b := by
  induction a using Cksum.Spec.words.induct with
  | case1 => rfl
  | case2 x => simp at h
  | case3 x y r ih =>
    simp only [List.cons_append, Cksum.Spec.words]
    rw [ih (by simp only [List.length_cons] at h; omega)]

theorem fold_zeros (n s : Nat) (hs : s < 65536) :
    (Cksum.Spec.words (List.replicate n 0)).foldl Cksum.Spec.ocAdd s = s := by
  induction n using Nat.strongRecOn with
  | _ n ih =>
    match n with
    | 0 => rfl
    | 1 => simp [List.replicate, Cksum.Spec.words, Cksum.Spec.ocAdd, hs]
    | n + 2 =>
      simp only [List.replicate_succ, Cksum.Spec.words, List.foldl_cons]
      have : Cksum.Spec.ocAdd s ((0 : UInt8).toNat * 256 + (0 : UInt8).toNat) = s := by
        simp [Cksum.Spec.ocAdd, hs]
      rw [this]
      exact ih n (by omega)

theorem words_lt (bs : List UInt8) : ∀ w ∈ Cksum.Spec.words bs, w < 65536 := by
  induction bs using Cksum.Spec.words.induct with
  | case1 => simp [Cksum.Spec.words]
  | case2 x => have := x.toNat_lt; simp [Cksum.Spec.words]; omega
  | case3 x y r ih =>
    have h1 := x.toNat_lt; have h2 := y.toNat_lt
    intro w hw
    simp only [Cksum.Spec.words, List.mem_cons] at hw
    rcases hw with rfl | hw
    · omega
    · exact ih w hw

theorem fold_lt (ws : List Nat) (s : Nat) (hs : s < 65536) (h : ∀ w ∈ ws, w < 65536) :
    ws.foldl Cksum.Spec.ocAdd s < 65536 := by
  induction ws generalizing s with
  | nil => exact hs
  | cons w ws ih =>
    simp only [List.foldl_cons]
    refine ih _ ?_ (fun w' hw => h w' (by simp [hw]))
    have := h w (by simp)
    unfold Cksum.Spec.ocAdd; split <;> omega

theorem fold_zero_lt (bs : List UInt8) : (Cksum.Spec.words bs).foldl Cksum.Spec.ocAdd 0 < 65536 :=
  fold_lt _ _ (by decide) (words_lt bs)

/-! ## Checksum -/

/-- **C212**: if what follows the message in memory is zero, messages with a good checksum are let through, and those with a
bad one are dropped. -/
theorem checksum_partial (odd2 arm4 e1 e2 own : Bool) (m : Nat → UInt8) {l3 off n : Nat} (hd : Datagram m l3 off n)
    (hn : 8 ≤ n ∧ n % 2 = 0) (hz : ∀ i, l3 + off + n ≤ i → m i = 0) :
    (¬ Good m l3 off n → input odd2 arm4 e1 e2 own m l3 off = .drop) ∧
    (Good m l3 off n → ¬ Cksum.cksumBuffer odd2 arm4 (rd16 m (l3 + 2)) (bytes m (l3 + off) (rd16 m (l3 + 2))) ≠ some 0) := by
  have hlt := rd16_lt m (l3 + 2)
  have hcs : Cksum.Spec.checksum (bytes m (l3 + off) (n + off)) = Cksum.Spec.checksum (bytes m (l3 + off) n) := by
    have hzero : bytes m (l3 + off + n) off = List.replicate off 0 := by
      unfold bytes
      rw [List.eq_replicate_iff]
      refine ⟨by simp, fun b hb => ?_⟩
      obtain ⟨j, _, rfl⟩ := List.mem_map.mp hb
      exact hz _ (by omega)
    rw [bytes_add]
    unfold Cksum.Spec.checksum
    rw [words_append _ _ (by rw [bytes_length]; exact hn.2), List.foldl_append, hzero,
      fold_zeros _ _ (fold_zero_lt _)]
  have hk := cksum_zero odd2 arm4 m (l3 + off) (rd16 m (l3 + 2)) hlt
  rw [hd.total, Nat.add_comm off n] at hk
  rw [hcs] at hk
  have h8 : ¬ rd16 m (l3 + 2) < 8 := by rw [hd.total]; omega
  constructor
  · intro hg
    unfold input
    rw [if_neg h8, if_pos]
    rw [hd.total, Nat.add_comm off n]
    exact fun h => hg (hk.mp h)
  · intro hg h
    rw [hd.total, Nat.add_comm off n] at h
    exact h (hk.mpr hg)

/-- **C212, violated**: for every message with a good checksum there is memory behind the packet that makes the host drop
it: the checksum is computed over `off` bytes more than the message has. -/
theorem checksum_violated (odd2 arm4 e1 e2 own : Bool) (m : Nat → UInt8) {l3 off n : Nat} (hd : Datagram m l3 off n)
    (hn : 8 ≤ n ∧ n % 2 = 0) (hg : Good m l3 off n) :
    ∃ m' : Nat → UInt8, (∀ i, i < l3 + off + n → m' i = m i) ∧ Datagram m' l3 off n ∧ Good m' l3 off n ∧
      input odd2 arm4 e1 e2 own m' l3 off = .drop := by
  let m' : Nat → UInt8 := fun i => if i < l3 + off + n then m i else if i = l3 + off + n + 1 then 1 else 0
  have hsame : ∀ i, i < l3 + off + n → m' i = m i := fun i hi => by simp only [m', if_pos hi]
  have hoff := hd.header.1
  have hd' : Datagram m' l3 off n := by
    refine ⟨hd.header, ?_, ?_, ?_⟩
    · have := hd.total
      unfold rd16 at this ⊢
      rw [hsame _ (by omega), hsame _ (by omega)]; exact this
    · rw [hsame _ (by omega)]; exact hd.ttl
    · rw [hsame _ (by omega)]; exact hd.proto
  have hb : bytes m' (l3 + off) n = bytes m (l3 + off) n := by
    unfold bytes
    apply List.map_congr_left
    intro j hj
    exact hsame _ (by have := List.mem_range.mp hj; omega)
  refine ⟨m', hsame, hd', by unfold Good; rw [hb]; exact hg, ?_⟩
  have hlt := rd16_lt m' (l3 + 2)
  have h8 : ¬ rd16 m' (l3 + 2) < 8 := by rw [hd'.total]; omega
  unfold input
  rw [if_neg h8, if_pos]
  intro h
  have hk := (cksum_zero odd2 arm4 m' (l3 + off) (rd16 m' (l3 + 2)) hlt).mp h
  rw [hd'.total, Nat.add_comm off n, bytes_add, hb] at hk
  have ht : bytes m' (l3 + off + n) off = 0 :: 1 :: List.replicate (off - 2) 0 := by
    have : bytes m' (l3 + off + n) off = bytes m' (l3 + off + n) 2 ++ bytes m' (l3 + off + n + 2) (off - 2) := by
      have h2 : off = 2 + (off - 2) := by omega
      exact (congrArg (bytes m' (l3 + off + n)) h2).trans (bytes_add _ _ _ _)
    rw [this]
    have h1 : bytes m' (l3 + off + n) 2 = [0, 1] := by
      show [m' (l3 + off + n + 0), m' (l3 + off + n + 1)] = [0, 1]
      simp only [m']
      rw [if_neg (by omega), if_neg (by omega), if_neg (by omega), if_pos trivial]
    have h2 : bytes m' (l3 + off + n + 2) (off - 2) = List.replicate (off - 2) 0 := by
      unfold bytes
      rw [List.eq_replicate_iff]
      refine ⟨by simp, fun b hb => ?_⟩
      obtain ⟨j, _, rfl⟩ := List.mem_map.mp hb
      simp only [m']
      rw [if_neg (by omega), if_neg (by omega)]
    rw [h1, h2]; rfl
  unfold Good Cksum.Spec.checksum at hg
  have hf := fold_zero_lt (bytes m (l3 + off) n)
  have h65 : (Cksum.Spec.words (bytes m (l3 + off) n)).foldl Cksum.Spec.ocAdd 0 = 65535 := by omega
  unfold Cksum.Spec.checksum at hk
  rw [words_append _ _ (by rw [bytes_length]; exact hn.2), List.foldl_append, h65, ht] at hk
  simp only [Cksum.Spec.words, List.foldl_cons] at hk
  have h1 : Cksum.Spec.ocAdd 65535 ((0 : UInt8).toNat * 256 + (1 : UInt8).toNat) = 1 := by decide
  rw [h1, fold_zeros _ _ (by decide)] at hk
  omega

/-! ## Which query it is -/

/-- **C210, violated**: a query of version 1 or 2 (8 bytes) is never recognised, since the length compared is that of the
datagram: whatever packet comes, the handlers of version 1 and 2 queries are not called. -/
theorem old_queries_violated (odd2 arm4 e1 e2 own : Bool) (m : Nat → UInt8) {l3 off n : Nat} (hd : Datagram m l3 off n) :
    input odd2 arm4 e1 e2 own m l3 off ≠ .query1 ∧ ∀ g c, input odd2 arm4 e1 e2 own m l3 off ≠ .query2 g c := by
  have h8 : rd16 m (l3 + 2) ≠ 8 := by rw [hd.total]; have := hd.header.1; omega
  have h3 : v3 m off (rd32 m (l3 + 16)) ≠ .query1 ∧ ∀ g c, v3 m off (rd32 m (l3 + 16)) ≠ .query2 g c := by
    unfold v3
    simp only
    split
    · split <;> simp
    · simp
  have hrep : ∀ b d g o, (o ≠ .query1 ∧ ∀ g c, o ≠ .query2 g c) →
      (report b d g o ≠ .query1 ∧ ∀ g' c, report b d g o ≠ .query2 g' c) := by
    intro b d g o ho
    unfold report
    split
    · simp
    · split
      · simp
      · exact ho
  unfold input
  simp only
  split
  · simp
  · split
    · simp
    · split
      · simp
      · split
        · split
          · exact h3
          · simp
        · split
          · split
            · exact hrep _ _ _ _ (by simp)
            · simp
          · split
            · split
              · exact hrep _ _ _ _ (by simp)
              · simp
            · simp

/-- **C211, violated**: in an Ethernet frame (with or without VLAN tag), with an IP header of 20 or 24 bytes (the router alert
option), a general query of version 3 is never recognised: the message is read at `off` bytes from the start of the frame,
which is in the IP header. -/
theorem general_query_violated (odd2 arm4 e1 e2 own : Bool) (m : Nat → UInt8) {l3 off n : Nat} (hd : Datagram m l3 off n)
    (hl3 : l3 = 14 ∨ l3 = 18) (hoff : off = 20 ∨ off = 24) (hdst : rd32 m (l3 + 16) = allHosts) (c v q : Nat) :
    input odd2 arm4 e1 e2 own m l3 off ≠ .query3 c v q := by
  have h8 : rd16 m (l3 + 2) ≠ 8 := by rw [hd.total]; have := hd.header.1; omega
  -- the destination address is 224.0.0.1
  have hb : ∀ i, (m i).toNat < 256 := fun i => (m i).toNat_lt
  have hdst' : rd16 m (l3 + 16) = 0xe000 := by
    have h1 := rd16_lt m (l3 + 16); have h2 := rd16_lt m (l3 + 16 + 2)
    unfold rd32 allHosts at hdst
    omega
  have h3 : v3 m off (rd32 m (l3 + 16)) ≠ .query3 c v q := by
    unfold v3
    simp only
    split
    · rename_i hg
      split
      · simp
      · rename_i hns
        exfalso
        apply hns
        rcases hl3 with rfl | rfl <;> rcases hoff with rfl | rfl
        · right
          show rd16 m (14 + 16) > 0
          rw [hdst']; decide
        · exfalso
          -- the group read ends in the first half of the destination address
          have : rd16 m (24 + 4 + 2) = 0xe000 := hdst'
          unfold rd32 at hg
          rw [this] at hg
          omega
        · exfalso
          -- the group read holds the protocol number
          have hp : (m (20 + 4 + 3)).toNat = 2 := by
            have := hd.proto
            rw [this]; rfl
          unfold rd32 rd16 at hg
          have hz : (m (20 + 4 + 2 + 1)).toNat = 2 := hp
          omega
        · right
          show rd16 m (18 + 16) > 0
          rw [hdst']; decide
    · simp
  have hrep : ∀ b d g o, o ≠ .query3 c v q → report b d g o ≠ .query3 c v q := by
    intro b d g o ho
    unfold report
    split
    · simp
    · split
      · simp
      · exact ho
  unfold input
  simp only
  split
  · simp
  · split
    · simp
    · split
      · simp
      · split
        · split
          · exact h3
          · simp
        · split
          · split
            · exact hrep _ _ _ _ (by simp)
            · simp
          · split
            · split
              · exact hrep _ _ _ _ (by simp)
              · simp
            · simp

/-- **C211**: if the packet data starts with the IP header, a general query of version 3 with a checksum that passes is
recognised and read right. -/
theorem general_query_partial (odd2 arm4 e1 e2 own : Bool) (m : Nat → UInt8) {off n : Nat} (hd : Datagram m 0 off n)
    (hn : 12 ≤ n ∧ n % 2 = 0) (hz : ∀ i, off + n ≤ i → m i = 0) (hg : Good m 0 off n) (htype : m off = 0x11)
    (hgroup : rd32 m (off + 4) = 0) (hsrc : rd16 m (off + 10) = 0) (hdst : rd32 m 16 = allHosts) :
    input odd2 arm4 e1 e2 own m 0 off =
      .query3 (m (off + 1)).toNat ((m (off + 8)).toNat % 8) (m (off + 9)).toNat := by
  have hh := hd.header.1
  have h0 := hd.total
  simp only [Nat.zero_add] at h0
  have hck := (checksum_partial odd2 arm4 e1 e2 own m hd ⟨by omega, hn.2⟩ (by intro i hi; exact hz i (by omega))).2 hg
  have httl := hd.ttl
  simp only [Nat.zero_add] at hck httl
  unfold input
  simp only [Nat.zero_add]
  rw [if_neg (by omega), if_neg hck, if_neg (by rw [httl]; simp), if_pos htype, if_neg (by omega), if_pos (by omega)]
  unfold v3
  simp only [hgroup, hsrc, hdst, if_true]
  rw [if_neg (by simp)]

/-- A general query of version 3 with a good checksum (10 s, robustness 2, 125 s) as the packet data. -/
def sample (l3 : Nat) : Nat → UInt8 := fun i =>
  (List.replicate l3 0 ++ [0x46, 0, 0, 36, 0, 0, 0, 0, 1, 2, 0, 0, 10, 0, 0, 1, 224, 0, 0, 1, 0x94, 4, 0, 0,
    0x11, 100, 0xec, 0x1e, 0, 0, 0, 0, 2, 125, 0, 0] : List UInt8).getD i 0

/-- The hypotheses are met; in the Ethernet frame it is taken for a query for sources of 0.1.224.0. -/
example : Datagram (sample 14) 14 24 12 ∧ Good (sample 14) 14 24 12 ∧ rd32 (sample 14) 30 = allHosts ∧
    input false false true true false (sample 14) 14 24 = .query3g 0x0001e000 0 0 1 0x9404 ∧
    input false false true true false (sample 0) 0 24 = .query3 100 2 125 := by
  unfold Good
  refine ⟨⟨by decide, by decide +kernel, by decide +kernel, by decide +kernel⟩, ?_, ?_, ?_, ?_⟩ <;> decide +kernel

end Verif.Igmp.Input

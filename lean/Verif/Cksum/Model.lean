/-!
# Model of `src/ofp_in_cksum.c`

Host is little-endian.  Buffers are byte lists; a read past the end of the list is `none`
(out-of-bounds).  64-bit sums wrap modulo 2^64.
-/
namespace Verif.Cksum

/-- `*w++` for a `const uint16_t *w` on a little-endian host; `none` = read past the buffer. -/
def ld16 : List UInt8 → Option (Nat × List UInt8)
  | a :: b :: r => some (a.toNat + 256 * b.toNat, r)
  | _ => none

/-- `*d++` for a `const uint32_t *d` on a little-endian host. -/
def ld32 : List UInt8 → Option (Nat × List UInt8)
  | a :: b :: c :: d :: r =>
      some (a.toNat + 256 * b.toNat + 65536 * c.toNat + 16777216 * d.toNat, r)
  | _ => none

/-- `sum += x` on `uint64_t`. -/
def add64 (s x : Nat) : Nat := (s + x) % 2 ^ 64

/-- `n` consecutive statements `sum += *d++;` (src/ofp_in_cksum.c:33-36, 42-52, 92-101, 107-113). -/
def addWords : Nat → Nat → List UInt8 → Option (Nat × List UInt8)
  | 0, s, d => some (s, d)
  | n + 1, s, d =>
    match ld32 d with
    | none => none
    | some (x, d') => addWords n (add64 s x) d'

/-- `ofp_cksum_fold` (src/ofp_in_cksum.c:15-20): `uint64_t` arithmetic, result truncated to 16 bits. -/
def fold (sum : Nat) : Nat :=
  let s1 := add64 (sum / 2 ^ 32) (sum % 2 ^ 32)
  let s2 := add64 (s1 / 2 ^ 16) (s1 % 2 ^ 16)
  (s2 + s2 / 2 ^ 16) % 2 ^ 16

/-- `~x` truncated to `uint16_t`. -/
def not16 (x : Nat) : Nat := 65535 - x % 65536

/-- `ofp_cksum_iph` (src/ofp_in_cksum.c:22-64).  `odd` is the test `(uint64_t)w & 2`; `hl` is the
`int ip_hl` argument.  The `switch` executes `k` additions when `ip_hl - 4 = k` with `1 ≤ k ≤ 11`
and none otherwise (`default`). -/
def cksumIph (odd : Bool) (hl : Int) (bs : List UInt8) : Option Nat := do
  let (s, hl, d) ← (if odd then (ld16 bs).map (fun (x, d) => (add64 0 x, hl - 1, d))
                    else some (0, hl, bs))
  let (s, d) ← addWords 4 s d
  let hl := hl - 4
  let (s, d) ← (if 1 ≤ hl ∧ hl ≤ 11 then addWords hl.toNat s d else some (s, d))
  let s ← (if odd then (ld16 d).map (fun (x, _) => add64 s x) else some s)
  return not16 (fold s)

/-- The main loop of `ofp_cksum_buffer`, `while (nleft >= 32)` (src/ofp_in_cksum.c:91-103). -/
def bufLoop (nleft s : Nat) (d : List UInt8) : Option (Nat × Nat × List UInt8) :=
  if 32 ≤ nleft then
    match addWords 8 s d with
    | none => none
    | some (s', d') => bufLoop (nleft - 32) s' d'
  else some (nleft, s, d)
termination_by nleft

/-- `ofp_cksum_buffer` (src/ofp_in_cksum.c:66-130).  `odd2` is the test `(uint64_t)w & 2`;
`arm4` is the test `(uint64_t)d & 4` of the `__ARM_ARCH` build (false in other builds).
`len` is the `int len` argument, assumed non-negative (all callers pass lengths; a negative value is
not modelled). -/
def cksumBuffer (odd2 arm4 : Bool) (len : Nat) (bs : List UInt8) : Option Nat := do
  let (nleft, s, w) ← (if odd2 ∧ 2 ≤ len then (ld16 bs).map (fun (x, d) => (len - 2, add64 0 x, d))
                       else some (len, 0, bs))
  let (nleft, s, d) ← (if arm4 ∧ 4 ≤ nleft then (ld32 w).map (fun (x, d) => (nleft - 4, add64 s x, d))
                       else some (nleft, s, w))
  let (nleft, s, d) ← bufLoop nleft s d
  -- switch (nleft>>2): nleft < 32, so the number of additions is nleft / 4 (0..7)
  let (s, d) ← addWords (nleft / 4) s d
  let nleft := nleft % 4
  let (nleft, s, d) ← (if 1 < nleft then (ld16 d).map (fun (x, d) => (nleft - 2, add64 s x, d))
                       else some (nleft, s, d))
  -- `sum += odp_cpu_to_be_16(*(const uint8_t *)w << 8)`: on a little-endian host this is the byte
  let s ← (if nleft = 1 then (match d with | [] => none | a :: _ => some (add64 s a.toNat))
           else some s)
  return not16 (fold s)

/-- Outcome of a loop that may not terminate or may hit undefined behaviour. -/
inductive Res where
  | ok (v : Nat)
  | diverge          -- the C loop never terminates
  | ub               -- undefined behaviour (signed overflow, out-of-bounds read)
deriving DecidableEq, Repr

/-- Byte swap of a `uint16_t` (src/ofp_in_cksum.c:170-171). -/
def swap16 (x : Nat) : Nat := (x % 256) * 256 + x / 256 % 256

/-- `REDUCE` (src/ofp_in_cksum.c:133-136): add the two 16-bit halves, then `ADDCARRY`. -/
def reduce (sum : Nat) : Nat :=
  let s := sum % 65536 + sum / 65536 % 65536
  if s > 65535 then s - 65535 else s

/-- The segment loop of `ofp_cksum` (src/ofp_in_cksum.c:150-182) followed by `REDUCE; return ~sum`.
`segs` are the segments from the current one on; each comes with the two alignment flags of its data
pointer.  When `off >= seglen` the C code does `off -= seglen; continue;` WITHOUT advancing `seg`, so
the same segment is examined again (and forever if it is empty). -/
def segLoop (al : Nat → Bool × Bool) (segs : List (List UInt8)) (off len done sum : Nat) : Res :=
  match segs with
  | [] => .ok (not16 (reduce sum))
  | seg :: rest =>
    if seg.length ≤ off then
      if seg.length = 0 then .diverge
      else segLoop al (seg :: rest) (off - seg.length) len done sum
    else
      let clen := if seg.length - off > len then len else seg.length - off
      let (a2, a4) := al rest.length
      match cksumBuffer a2 a4 clen (seg.drop off) with
      | none => .ub
      | some c =>
        let tmp := not16 c
        let tmp := if done % 2 = 1 then swap16 tmp else tmp
        if sum + tmp ≥ 2 ^ 31 then .ub      -- signed `int sum` overflow
        else if done + clen = len then .ok (not16 (reduce (sum + tmp)))
        else segLoop al rest 0 len (done + clen) (sum + tmp)
termination_by (segs.length, off)
decreasing_by
  · exact Prod.Lex.right _ (by omega)
  · exact Prod.Lex.left _ _ (by simp)

/-- `ofp_cksum(pkt, off, len)` (src/ofp_in_cksum.c:138-186).  Note `clen` is bounded by the whole
`len`, not by what is left of it (as in the C code). -/
def cksum (al : Nat → Bool × Bool) (segs : List (List UInt8)) (off len : Nat) : Res :=
  segLoop al segs off len 0 0

/-- `ofp_in4_cksum(pkt)` (src/ofp_in_cksum.c:191-223).  `l3` is `odp_packet_l3_offset(pkt)`; the IP
header is read through `odp_packet_l3_ptr` from the first segment and must lie in it (20 bytes),
otherwise the read is out of bounds.  `ih_len` is a `uint16_t`; the length passed to `ofp_cksum` is an
`int` converted to `unsigned int`.  The ten words `u.w[0..9]` are the bytes of `struct ofp_ipovly`
(9 zero bytes, protocol, length in network order, source, destination) read little-endian; their sum
is `wsum`. -/
def in4Cksum (al : Nat → Bool × Bool) (segs : List (List UInt8)) (l3 : Nat) : Res :=
  match (segs.headD []).drop l3 with
  | b0 :: _ :: b2 :: b3 :: _ :: _ :: _ :: _ :: _ :: p :: _ :: _ ::
      s0 :: s1 :: s2 :: s3 :: d0 :: d1 :: d2 :: d3 :: _ =>
    let off := b0.toNat % 16 * 4
    let ipLen := b2.toNat * 256 + b3.toNat
    let ihLen := (ipLen + 65536 - off) % 65536            -- uint16_t
    let wsum := p.toNat * 256 +                            -- w[0..3] = 0, w[4] = (0, ih_pr)
      (ihLen / 256 + ihLen % 256 * 256) +                  -- w[5]
      (s0.toNat + s1.toNat * 256) + (s2.toNat + s3.toNat * 256) +
      (d0.toNat + d1.toNat * 256) + (d2.toNat + d3.toNat * 256)
    let len := (ipLen + 2 ^ 32 - off) % 2 ^ 32             -- int -> unsigned int
    match cksum al segs (l3 + off) len with
    | .ok c => .ok (not16 (reduce (wsum + not16 c)))
    | r => r
  | _ => .ub

/-- The forwarding step of `ofp_ipv4_processing` on the IP header bytes
(src/ofp_pkt_processing.c:419-435): `none` = dropped (`ip_ttl <= 1`, ICMP time exceeded), otherwise
the rewritten header.  `ip_ttl` is byte 8, `ip_sum` bytes 10-11, read and written as a little-endian
`uint16_t`; `odp_cpu_to_be_16(1 << 8)` is 1 and `a = ~1 = 0xfffe`. Headers shorter than 12 bytes
do not occur (`ub` is not represented here: the function is only applied to 20-byte headers). -/
def fwdHeader : List UInt8 → Option (List UInt8)
  | b0 :: b1 :: b2 :: b3 :: b4 :: b5 :: b6 :: b7 :: ttl :: pr :: c0 :: c1 :: r =>
    if ttl.toNat ≤ 1 then none
    else
      let sum := c0.toNat + 256 * c1.toNat
      let a := 65534
      let sum' := if sum ≥ a then sum - a else sum + 1
      some (b0 :: b1 :: b2 :: b3 :: b4 :: b5 :: b6 :: b7 :: (ttl - 1) :: pr ::
        UInt8.ofNat (sum' % 256) :: UInt8.ofNat (sum' / 256) :: r)
  | _ => none

end Verif.Cksum

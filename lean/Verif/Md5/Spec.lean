/-! # MD5: RFC 1321, written from the RFC and not from the code -/
namespace Verif.Md5.Spec

/-- RFC 1321, 3.4: `T[i]` is the integer part of `4294967296 * abs(sin(i))`, `i` in radians from 1 to 64. -/
def T : List UInt32 := [
  3614090360, 3905402710, 606105819, 3250441966,
  4118548399, 1200080426, 2821735955, 4249261313,
  1770035416, 2336552879, 4294925233, 2304563134,
  1804603682, 4254626195, 2792965006, 1236535329,
  4129170786, 3225465664, 643717713, 3921069994,
  3593408605, 38016083, 3634488961, 3889429448,
  568446438, 3275163606, 4107603335, 1163531501,
  2850285829, 4243563512, 1735328473, 2368359562,
  4294588738, 2272392833, 1839030562, 4259657740,
  2763975236, 1272893353, 4139469664, 3200236656,
  681279174, 3936430074, 3572445317, 76029189,
  3654602809, 3873151461, 530742520, 3299628645,
  4096336452, 1126891415, 2878612391, 4237533241,
  1700485571, 2399980690, 4293915773, 2240044497,
  1873313359, 4264355552, 2734768916, 1309151649,
  4149444226, 3174756917, 718787259, 3951481745]

/-- The amounts of the rotations of the four rounds. -/
def shifts : List (List Nat) := [[7, 12, 17, 22], [5, 9, 14, 20], [4, 11, 16, 23], [6, 10, 15, 21]]

/-- The word of the block that step `i` (from 0) uses. -/
def wordOf (i : Nat) : Nat :=
  if i < 16 then i else if i < 32 then (5 * i + 1) % 16 else if i < 48 then (3 * i + 5) % 16 else 7 * i % 16

/-- The auxiliary function of step `i`: F "if X then Y else Z", G the same with Z choosing, H parity, I. -/
def aux (i : Nat) (x y z : UInt32) : UInt32 :=
  if i < 16 then (x &&& y) ||| (~~~x &&& z)
  else if i < 32 then (x &&& z) ||| (y &&& ~~~z)
  else if i < 48 then x ^^^ y ^^^ z
  else y ^^^ (x ||| ~~~z)

/-- Rotation to the left. -/
def rotl (x : UInt32) (n : Nat) : UInt32 := ⟨x.toBitVec.rotateLeft n⟩

/-- Step `i`: the four words move on by one place, one of them being replaced. -/
def step (x : Nat → UInt32) (q : UInt32 × UInt32 × UInt32 × UInt32) (i : Nat) : UInt32 × UInt32 × UInt32 × UInt32 :=
  let (a, b, c, d) := q
  (d, b + rotl (a + aux i b c d + x (wordOf i) + T.getD i 0) ((shifts.getD (i / 16) []).getD (i % 4) 0), b, c)

/-- A number from its bytes, low byte first. -/
def ofBytes (bs : List UInt8) : Nat := bs.foldr (fun b n => b.toNat + 256 * n) 0

/-- The `n` low bytes of a number, low byte first. -/
def toBytes : Nat → Nat → List UInt8
  | 0, _ => []
  | n + 1, v => UInt8.ofNat v :: toBytes n (v / 256)

/-- The effect of one block of 64 bytes. -/
def compress (q : UInt32 × UInt32 × UInt32 × UInt32) (blk : List UInt8) : UInt32 × UInt32 × UInt32 × UInt32 :=
  let x := fun k => UInt32.ofNat (ofBytes ((blk.drop (4 * k)).take 4))
  let r := (List.range 64).foldl (step x) q
  (q.1 + r.1, q.2.1 + r.2.1, q.2.2.1 + r.2.2.1, q.2.2.2 + r.2.2.2)

/-- All the full blocks of a message, from the first on. -/
def absorb (q : UInt32 × UInt32 × UInt32 × UInt32) (m : List UInt8) : UInt32 × UInt32 × UInt32 × UInt32 :=
  (List.range (m.length / 64)).foldl (fun q i => compress q ((m.drop (64 * i)).take 64)) q

/-- RFC 1321, 3.1 and 3.2: a byte 0x80, as few zeros as bring the length to 56 modulo 64, the length in bits modulo 2^64. -/
def padded (m : List UInt8) : List UInt8 :=
  m ++ 0x80 :: List.replicate ((119 - m.length % 64) % 64) 0 ++ toBytes 8 (8 * m.length % 2 ^ 64)

/-- The MD5 digest of a message. -/
def md5 (m : List UInt8) : List UInt8 :=
  let q := absorb (0x67452301, 0xefcdab89, 0x98badcfe, 0x10325476) (padded m)
  toBytes 4 q.1.toNat ++ toBytes 4 q.2.1.toNat ++ toBytes 4 q.2.2.1.toNat ++ toBytes 4 q.2.2.2.toNat

/-- The test suite of the RFC (A.5), and lengths around the block size. -/
example : md5 [] = [0xd4, 0x1d, 0x8c, 0xd9, 0x8f, 0x00, 0xb2, 0x04, 0xe9, 0x80, 0x09, 0x98, 0xec, 0xf8, 0x42, 0x7e] := by decide +kernel
example : md5 [97, 98, 99] = [0x90, 0x1, 0x50, 0x98, 0x3c, 0xd2, 0x4f, 0xb0, 0xd6, 0x96, 0x3f, 0x7d, 0x28, 0xe1, 0x7f, 0x72] := by decide +kernel
example : md5 [109, 101, 115, 115, 97, 103, 101, 32, 100, 105, 103, 101, 115, 116] = [0xf9, 0x6b, 0x69, 0x7d, 0x7c, 0xb7, 0x93, 0x8d, 0x52, 0x5a, 0x2f, 0x31, 0xaa, 0xf1, 0x61, 0xd0] := by decide +kernel
example : md5 [97, 98, 99, 100, 101, 102, 103, 104, 105, 106, 107, 108, 109, 110, 111, 112, 113, 114, 115, 116, 117, 118, 119, 120, 121, 122] = [0xc3, 0xfc, 0xd3, 0xd7, 0x61, 0x92, 0xe4, 0x0, 0x7d, 0xfb, 0x49, 0x6c, 0xca, 0x67, 0xe1, 0x3b] := by decide +kernel
example : md5 (List.replicate 55 97) = [0xef, 0x17, 0x72, 0xb6, 0xdf, 0xf9, 0xa1, 0x22, 0x35, 0x85, 0x52, 0x95, 0x4a, 0xd0, 0xdf, 0x65] := by decide +kernel
example : md5 (List.replicate 56 97) = [0x3b, 0xc, 0x8a, 0xc7, 0x3, 0xf8, 0x28, 0xb0, 0x4c, 0x6c, 0x19, 0x70, 0x6, 0xd1, 0x72, 0x18] := by decide +kernel
example : md5 (List.replicate 64 97) = [0x1, 0x48, 0x42, 0xd4, 0x80, 0xb5, 0x71, 0x49, 0x5a, 0x4a, 0x3, 0x63, 0x79, 0x3f, 0x73, 0x67] := by decide +kernel
example : md5 (List.replicate 200 97) = [0x88, 0x7f, 0x30, 0xb4, 0x3b, 0x28, 0x67, 0xf4, 0xa9, 0xac, 0xcc, 0xee, 0xe7, 0xd1, 0x6e, 0x6c] := by decide +kernel

end Verif.Md5.Spec

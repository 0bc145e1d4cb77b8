/-!
# Specification: the Internet checksum (RFC 1071), in network byte order

Independent of the implementation: the data is cut into big-endian 16-bit words (an odd last byte is
padded with a zero byte), the words are added in one's complement (end-around carry), and the result
is complemented.
-/
namespace Verif.Cksum.Spec

/-- One's complement 16-bit addition (end-around carry). -/
def ocAdd (a b : Nat) : Nat := if a + b < 65536 then a + b else a + b - 65535

/-- Big-endian 16-bit words of a byte string, zero-padded. -/
def words : List UInt8 → List Nat
  | [] => []
  | [a] => [a.toNat * 256]
  | a :: b :: r => (a.toNat * 256 + b.toNat) :: words r

/-- RFC 1071 checksum as a number in network order. -/
def checksum (bs : List UInt8) : Nat := 65535 - (words bs).foldl ocAdd 0

/-- The two bytes a 16-bit number occupies on the wire (big-endian). -/
def wireBytes (n : Nat) : List Nat := [n / 256, n % 256]

/-- The two bytes of a 16-bit number in network order. -/
def be16 (n : Nat) : List UInt8 := [UInt8.ofNat (n / 256), UInt8.ofNat (n % 256)]

/-- The IPv4 pseudo header of RFC 768 / RFC 793: source, destination, zero, protocol, length. -/
def pseudoHeader (src dst : List UInt8) (proto : UInt8) (len : Nat) : List UInt8 :=
  src ++ dst ++ [0, proto] ++ be16 len

end Verif.Cksum.Spec

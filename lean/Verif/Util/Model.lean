/-!
# Model of `src/ofp_util.c`

C strings are lists of characters (the terminating NUL is the end of the list).  `sprintf("%d")` of a
non-negative number and `atoi` are modelled here (`dec`, `atoi`); integer overflow in `atoi` is outside the model
(numbers below 2^31 in the theorems).
-/
namespace Verif.Util

/-- Decimal digit. -/
def digit (n : Nat) : Char := Char.ofNat (48 + n)

/-- `sprintf("%d", n)` for `n ≥ 0`. -/
def dec (n : Nat) : List Char := if h : n < 10 then [digit n] else dec (n / 10) ++ [digit (n % 10)]
termination_by n
decreasing_by omega

/-- Digits at the front of a string, accumulated. -/
def atoiDigits : Nat → List Char → Nat
  | acc, [] => acc
  | acc, c :: s => if '0' ≤ c ∧ c ≤ '9' then atoiDigits (acc * 10 + (c.toNat - 48)) s else acc

/-- `atoi`: white space, sign, digits. -/
def atoi : List Char → Int
  | [] => 0
  | c :: s =>
    if c = ' ' ∨ c = '\t' ∨ c = '\n' ∨ c = '\x0b' ∨ c = '\x0c' ∨ c = '\r' then atoi s
    else if c = '-' then - (atoiDigits 0 s : Int)
    else if c = '+' then (atoiDigits 0 s : Int)
    else (atoiDigits 0 (c :: s) : Int)

/-- `OFP_FP_INTERFACE_MAX` (include/api/ofp_config.h:100) and the special ports
(include/ofpi_portconf.h:23-34). -/
def LOCAL : Int := 8
def VXLAN : Int := 9
def GRE : Int := 10

/-- `strncmp(dev, prefix, strlen(prefix)) == 0`, returning the rest of the string. -/
def skip (pre s : List Char) : Option (List Char) :=
  if pre.isPrefixOf s then some (s.drop pre.length) else none

/-- `strchr(s, '.')`, from the character after the dot. -/
def afterDot : List Char → Option (List Char)
  | [] => none
  | c :: s => if c = '.' then some s else afterDot s

/-- First character is a decimal digit (src/ofp_util.c:197, 207; on the empty string the character is NUL). -/
def digitFirst : List Char → Bool
  | [] => false
  | c :: _ => '0' ≤ c ∧ c ≤ '9'

/-- `ofp_name_to_port_vlan` (src/ofp_util.c:173-223): returned port, and the vlan when it is assigned. -/
def nameToPortVlan (dev : List Char) : Int × Option Int :=
  match skip ['g', 'r', 'e'] dev with
  | some n => (GRE, some (atoi n))
  | none =>
  match skip ['v', 'x', 'l', 'a', 'n'] dev with
  | some n => if digitFirst n then (VXLAN, some (atoi n)) else (-1, none)
  | none =>
  match skip ['l', 'o'] dev with
  | some n => if digitFirst n then (LOCAL, some (atoi n)) else (-1, none)
  | none =>
  match skip ['f', 'p'] dev with
  | none => (-1, none)
  | some n =>
    let port := atoi n
    match afterDot dev with
    | some v => (port, some (atoi v))
    | none => (port, some 0)

/-- `ofp_port_vlan_to_ifnet_name` (src/ofp_util.c:225-255) for non-negative arguments. -/
def ifnetName (port vlan : Nat) : List Char :=
  if (port : Int) = LOCAL then ['l', 'o'] ++ dec vlan
  else if (port : Int) = GRE then ['g', 'r', 'e'] ++ dec vlan
  else if (port : Int) = VXLAN then ['v', 'x', 'l', 'a', 'n'] ++ dec vlan
  else if vlan ≠ 0 then ['f', 'p'] ++ dec port ++ ['.'] ++ dec vlan
  else ['f', 'p'] ++ dec port

/-- `ofp_ip6_masklen_to_mask` (src/ofp_util.c:138-152), `masklen ≥ 0`.  `none` = write past the 16 bytes. -/
def masklenToMask (masklen : Nat) : Option (List UInt8) :=
  let bytes := masklen / 8
  let bits := 8 - masklen % 8
  if 16 < bytes then none
  else
    let m := List.replicate bytes (0xff : UInt8) ++ List.replicate (16 - bytes) (0 : UInt8)
    if bytes < 16 ∧ bits < 8 then some (m.set bytes (UInt8.ofNat (0xffff <<< bits))) else some m

/-- Inner loop of `ofp_mask_length` (src/ofp_util.c:162-167) from bit `j` on (`k` bits left): `inl` = return. -/
def maskByte (b : UInt8) : Nat → Nat → Int → Int ⊕ Int
  | _, 0, ml => .inr ml
  | j, k + 1, ml => if b &&& ((1 : UInt8) <<< UInt8.ofNat j) ≠ 0 then .inl ml else maskByte b (j + 1) k (ml - 1)

/-- Outer loop of `ofp_mask_length` (src/ofp_util.c:157-171) over the `masklen / 8` bytes. -/
def maskBytes : List UInt8 → Int → Int
  | [], _ => 0
  | b :: l, ml => match maskByte b 0 8 ml with
    | .inl r => r
    | .inr ml' => maskBytes l ml'

/-- `ofp_mask_length(masklen, mask)` with `masklen = 8 * mask.length`; the bytes are in little-endian order (least
significant first), as the comment of the function says. -/
def maskLength (mask : List UInt8) : Int := maskBytes mask (8 * mask.length)

/-- `ofp_mac_to_link_local` (src/ofp_util.c:115-125). -/
def macToLinkLocal (mac : List UInt8) : List UInt8 :=
  let ll := List.replicate 8 (0 : UInt8) ++ mac.take 3 ++ [0, 0] ++ (mac.drop 3).take 3
  ((((ll.set 8 ((ll[8]?).getD 0 ^^^ 0x02)).set 11 0xff).set 12 0xfe).set 0 0xfe).set 1 0x80

/-- `ofp_has_mac` (src/ofp_util.c:127-136). -/
def hasMac (mac : List UInt8) : Bool := (mac.take 6).any (· ≠ 0)

/-- Value of a hexadecimal digit (src/ofp_util.c:101-106). -/
def hexDigit (c : Char) : Option Nat :=
  if '0' ≤ c ∧ c ≤ '9' then some (c.toNat - 48)
  else if 'a' ≤ c ∧ c ≤ 'f' then some (c.toNat - 97 + 10)
  else if 'A' ≤ c ∧ c ≤ 'F' then some (c.toNat - 65 + 10)
  else none

/-- `ofp_hex_to_num` (src/ofp_util.c:95-113).  `none`: `n << 4` is not representable in `int` (undefined). -/
def hexToNum : Nat → List Char → Option Nat
  | n, [] => some n
  | n, c :: s => match hexDigit c with
    | none => some n
    | some d => if n * 16 ≥ 2 ^ 31 then none else hexToNum (n <<< 4 ||| d) s

end Verif.Util

/-! # MD5: the code (`src/ofp_md5c.c`) -/
namespace Verif.Md5

abbrev B := UInt8
abbrev W := UInt32

/-- What can go wrong: an access outside an array, or (an artefact of the model, shown never to happen) the loop bound of the model
    being used up. -/
inductive Fault
  | oob
  | fuel
deriving DecidableEq, Repr

/-- `uint32_t state[4]` (`include/ofpi_md5.h:36-40`), also the four working variables `a, b, c, d` of `MD5Transform`
    (`src/ofp_md5c.c:227`). -/
structure Regs where
  a : W
  b : W
  c : W
  d : W
deriving DecidableEq, Repr

/-- Names of the working variables (`src/ofp_md5c.c:227`). -/
inductive R
  | a | b | c | d
deriving DecidableEq, Repr

/-- Read a working variable (`src/ofp_md5c.c:227`). -/
def Regs.get (r : Regs) : R → W
  | .a => r.a
  | .b => r.b
  | .c => r.c
  | .d => r.d

/-- Write a working variable (`src/ofp_md5c.c:227`). -/
def Regs.set (r : Regs) (v : W) : R → Regs
  | .a => { r with a := v }
  | .b => { r with b := v }
  | .c => { r with c := v }
  | .d => { r with d := v }

/-- The macros `FF`, `GG`, `HH`, `II` (`src/ofp_md5c.c:96-119`). -/
inductive Mac
  | FF | GG | HH | II
deriving DecidableEq, Repr

/-- `F`, `G`, `H`, `I` (`src/ofp_md5c.c:88-91`). -/
def mac : Mac → W → W → W → W
  | .FF, x, y, z => (x &&& y) ||| (~~~x &&& z)
  | .GG, x, y, z => (x &&& z) ||| (y &&& ~~~z)
  | .HH, x, y, z => x ^^^ y ^^^ z
  | .II, x, y, z => y ^^^ (x ||| ~~~z)

/-- `ROTATE_LEFT` (`src/ofp_md5c.c:94`). -/
def rotateLeft (x n : W) : W := (x <<< n) ||| (x >>> (32 - n))

/-- One macro call `FF (a, b, c, d, x[k], s, ac)` of `MD5Transform` (`src/ofp_md5c.c:236-317`). -/
structure Op where
  m : Mac
  a : R
  b : R
  c : R
  d : R
  k : Nat
  s : W
  ac : W
deriving DecidableEq, Repr

/-- Execute one macro call: `a += F (b, c, d) + x + ac; a = ROTATE_LEFT (a, s); a += b` (`src/ofp_md5c.c:100-119`). -/
def exec (x : Nat → W) (r : Regs) (o : Op) : Regs :=
  let r := r.set (r.get o.a + (mac o.m (r.get o.b) (r.get o.c) (r.get o.d) + x o.k + o.ac)) o.a
  let r := r.set (rotateLeft (r.get o.a) o.s) o.a
  r.set (r.get o.a + r.get o.b) o.a

/-- `S11` (`src/ofp_md5c.c:232`). -/
abbrev S11 : W := 7
/-- `S12` (`src/ofp_md5c.c:233`). -/
abbrev S12 : W := 12
/-- `S13` (`src/ofp_md5c.c:234`). -/
abbrev S13 : W := 17
/-- `S14` (`src/ofp_md5c.c:235`). -/
abbrev S14 : W := 22
/-- `S21` (`src/ofp_md5c.c:254`). -/
abbrev S21 : W := 5
/-- `S22` (`src/ofp_md5c.c:255`). -/
abbrev S22 : W := 9
/-- `S23` (`src/ofp_md5c.c:256`). -/
abbrev S23 : W := 14
/-- `S24` (`src/ofp_md5c.c:257`). -/
abbrev S24 : W := 20
/-- `S31` (`src/ofp_md5c.c:276`). -/
abbrev S31 : W := 4
/-- `S32` (`src/ofp_md5c.c:277`). -/
abbrev S32 : W := 11
/-- `S33` (`src/ofp_md5c.c:278`). -/
abbrev S33 : W := 16
/-- `S34` (`src/ofp_md5c.c:279`). -/
abbrev S34 : W := 23
/-- `S41` (`src/ofp_md5c.c:298`). -/
abbrev S41 : W := 6
/-- `S42` (`src/ofp_md5c.c:299`). -/
abbrev S42 : W := 10
/-- `S43` (`src/ofp_md5c.c:300`). -/
abbrev S43 : W := 15
/-- `S44` (`src/ofp_md5c.c:301`). -/
abbrev S44 : W := 21

/-- The 64 macro calls of `MD5Transform`, as written (`src/ofp_md5c.c:236-317`). -/
def prog : List Op := [
  ⟨.FF, .a, .b, .c, .d, 0, S11, 0xd76aa478⟩,
  ⟨.FF, .d, .a, .b, .c, 1, S12, 0xe8c7b756⟩,
  ⟨.FF, .c, .d, .a, .b, 2, S13, 0x242070db⟩,
  ⟨.FF, .b, .c, .d, .a, 3, S14, 0xc1bdceee⟩,
  ⟨.FF, .a, .b, .c, .d, 4, S11, 0xf57c0faf⟩,
  ⟨.FF, .d, .a, .b, .c, 5, S12, 0x4787c62a⟩,
  ⟨.FF, .c, .d, .a, .b, 6, S13, 0xa8304613⟩,
  ⟨.FF, .b, .c, .d, .a, 7, S14, 0xfd469501⟩,
  ⟨.FF, .a, .b, .c, .d, 8, S11, 0x698098d8⟩,
  ⟨.FF, .d, .a, .b, .c, 9, S12, 0x8b44f7af⟩,
  ⟨.FF, .c, .d, .a, .b, 10, S13, 0xffff5bb1⟩,
  ⟨.FF, .b, .c, .d, .a, 11, S14, 0x895cd7be⟩,
  ⟨.FF, .a, .b, .c, .d, 12, S11, 0x6b901122⟩,
  ⟨.FF, .d, .a, .b, .c, 13, S12, 0xfd987193⟩,
  ⟨.FF, .c, .d, .a, .b, 14, S13, 0xa679438e⟩,
  ⟨.FF, .b, .c, .d, .a, 15, S14, 0x49b40821⟩,
  ⟨.GG, .a, .b, .c, .d, 1, S21, 0xf61e2562⟩,
  ⟨.GG, .d, .a, .b, .c, 6, S22, 0xc040b340⟩,
  ⟨.GG, .c, .d, .a, .b, 11, S23, 0x265e5a51⟩,
  ⟨.GG, .b, .c, .d, .a, 0, S24, 0xe9b6c7aa⟩,
  ⟨.GG, .a, .b, .c, .d, 5, S21, 0xd62f105d⟩,
  ⟨.GG, .d, .a, .b, .c, 10, S22, 0x2441453⟩,
  ⟨.GG, .c, .d, .a, .b, 15, S23, 0xd8a1e681⟩,
  ⟨.GG, .b, .c, .d, .a, 4, S24, 0xe7d3fbc8⟩,
  ⟨.GG, .a, .b, .c, .d, 9, S21, 0x21e1cde6⟩,
  ⟨.GG, .d, .a, .b, .c, 14, S22, 0xc33707d6⟩,
  ⟨.GG, .c, .d, .a, .b, 3, S23, 0xf4d50d87⟩,
  ⟨.GG, .b, .c, .d, .a, 8, S24, 0x455a14ed⟩,
  ⟨.GG, .a, .b, .c, .d, 13, S21, 0xa9e3e905⟩,
  ⟨.GG, .d, .a, .b, .c, 2, S22, 0xfcefa3f8⟩,
  ⟨.GG, .c, .d, .a, .b, 7, S23, 0x676f02d9⟩,
  ⟨.GG, .b, .c, .d, .a, 12, S24, 0x8d2a4c8a⟩,
  ⟨.HH, .a, .b, .c, .d, 5, S31, 0xfffa3942⟩,
  ⟨.HH, .d, .a, .b, .c, 8, S32, 0x8771f681⟩,
  ⟨.HH, .c, .d, .a, .b, 11, S33, 0x6d9d6122⟩,
  ⟨.HH, .b, .c, .d, .a, 14, S34, 0xfde5380c⟩,
  ⟨.HH, .a, .b, .c, .d, 1, S31, 0xa4beea44⟩,
  ⟨.HH, .d, .a, .b, .c, 4, S32, 0x4bdecfa9⟩,
  ⟨.HH, .c, .d, .a, .b, 7, S33, 0xf6bb4b60⟩,
  ⟨.HH, .b, .c, .d, .a, 10, S34, 0xbebfbc70⟩,
  ⟨.HH, .a, .b, .c, .d, 13, S31, 0x289b7ec6⟩,
  ⟨.HH, .d, .a, .b, .c, 0, S32, 0xeaa127fa⟩,
  ⟨.HH, .c, .d, .a, .b, 3, S33, 0xd4ef3085⟩,
  ⟨.HH, .b, .c, .d, .a, 6, S34, 0x4881d05⟩,
  ⟨.HH, .a, .b, .c, .d, 9, S31, 0xd9d4d039⟩,
  ⟨.HH, .d, .a, .b, .c, 12, S32, 0xe6db99e5⟩,
  ⟨.HH, .c, .d, .a, .b, 15, S33, 0x1fa27cf8⟩,
  ⟨.HH, .b, .c, .d, .a, 2, S34, 0xc4ac5665⟩,
  ⟨.II, .a, .b, .c, .d, 0, S41, 0xf4292244⟩,
  ⟨.II, .d, .a, .b, .c, 7, S42, 0x432aff97⟩,
  ⟨.II, .c, .d, .a, .b, 14, S43, 0xab9423a7⟩,
  ⟨.II, .b, .c, .d, .a, 5, S44, 0xfc93a039⟩,
  ⟨.II, .a, .b, .c, .d, 12, S41, 0x655b59c3⟩,
  ⟨.II, .d, .a, .b, .c, 3, S42, 0x8f0ccc92⟩,
  ⟨.II, .c, .d, .a, .b, 10, S43, 0xffeff47d⟩,
  ⟨.II, .b, .c, .d, .a, 1, S44, 0x85845dd1⟩,
  ⟨.II, .a, .b, .c, .d, 8, S41, 0x6fa87e4f⟩,
  ⟨.II, .d, .a, .b, .c, 15, S42, 0xfe2ce6e0⟩,
  ⟨.II, .c, .d, .a, .b, 6, S43, 0xa3014314⟩,
  ⟨.II, .b, .c, .d, .a, 13, S44, 0x4e0811a1⟩,
  ⟨.II, .a, .b, .c, .d, 4, S41, 0xf7537e82⟩,
  ⟨.II, .d, .a, .b, .c, 11, S42, 0xbd3af235⟩,
  ⟨.II, .c, .d, .a, .b, 2, S43, 0x2ad7d2bb⟩,
  ⟨.II, .b, .c, .d, .a, 9, S44, 0xeb86d391⟩]

/-- Bytes `off … off+n-1` of a buffer, an access error if they are not all there (array reads of `src/ofp_md5c.c:163-177,229`). -/
def rd (m : List B) (off n : Nat) : Except Fault (List B) :=
  if off + n ≤ m.length then .ok ((m.drop off).take n) else .error .oob

/-- `memcpy(&buf[off], src, n)` (`src/ofp_md5c.c:163-164,176-177`), an access error if it does not fit the array. -/
def blit (buf : List B) (off : Nat) (src : List B) : Except Fault (List B) :=
  if off + src.length ≤ buf.length then .ok (buf.take off ++ src ++ buf.drop (off + src.length)) else .error .oob

/-- Word `k` of the block (`Decode (x, block, 64)`, `src/ofp_md5c.c:41,69-78,229`; both variants of `Decode` read the bytes
    little endian). -/
def decode (blk : List B) (k : Nat) : W :=
  (blk.getD (4 * k) 0).toUInt32 ||| (blk.getD (4 * k + 1) 0).toUInt32 <<< 8 ||| (blk.getD (4 * k + 2) 0).toUInt32 <<< 16 |||
    (blk.getD (4 * k + 3) 0).toUInt32 <<< 24

/-- The four bytes of a word, low byte first (`Encode`, `src/ofp_md5c.c:40,49-62`). -/
def encode (w : W) : List B := [w.toUInt8, (w >>> 8).toUInt8, (w >>> 16).toUInt8, (w >>> 24).toUInt8]

/-- `MD5Transform` (`src/ofp_md5c.c:223-326`). Not modelled: the wiping of the local array `x`. -/
def transform (st : Regs) (blk : List B) : Regs :=
  let r := prog.foldl (exec (decode blk)) st
  { a := st.a + r.a, b := st.b + r.b, c := st.c + r.c, d := st.d + r.d }

/-- `MD5_CTX` (`include/ofpi_md5.h:36-40`). -/
structure Ctx where
  state : Regs
  c0 : W
  c1 : W
  buffer : List B
deriving DecidableEq, Repr

/-- `ofp_MD5Init` (`src/ofp_md5c.c:123-134`): the buffer keeps whatever the memory held. -/
def md5Init (c : Ctx) : Ctx :=
  { c with c0 := 0, c1 := 0, state := { a := 0x67452301, b := 0xefcdab89, c := 0x98badcfe, d := 0x10325476 } }

/-- `for (i = partLen; i + 63 < inputLen; i += 64) MD5Transform (state, &input[i])` (`src/ofp_md5c.c:167-168`) on 32-bit unsigned
    numbers; the model stops with `fuel` after the given number of rounds. -/
def loop (input : List B) (len : W) : Nat → W → Regs → Except Fault (Regs × W)
  | 0, _, _ => .error .fuel
  | n + 1, i, st =>
    if i + 63 < len then
      match rd input i.toNat 64 with
      | .ok blk => loop input len n (i + 64) (transform st blk)
      | .error e => .error e
    else .ok (st, i)

/-- The part of `ofp_MD5Update` that hashes full blocks: it returns the state, the buffer, and the new `i` and `index`
    (`src/ofp_md5c.c:159-173`). -/
def blocks (c : Ctx) (input : List B) (len index : W) : Except Fault (Regs × List B × W × W) :=
  let partLen := 64 - index
  if partLen ≤ len then
    match rd input 0 partLen.toNat with
    | .error e => .error e
    | .ok p =>
      match blit c.buffer index.toNat p with
      | .error e => .error e
      | .ok buf =>
        match loop input len (input.length / 64 + 2) partLen (transform c.state buf) with
        | .error e => .error e
        | .ok (st, i) => .ok (st, buf, i, 0)
  else .ok (c.state, c.buffer, 0, index)

/-- `count[0] += inputLen << 3; if it is then smaller than inputLen << 3, count[1]++; count[1] += inputLen >> 29`
    (`src/ofp_md5c.c:153-157`). -/
def bump (c : Ctx) (len : W) : W × W :=
  let c0 := c.c0 + (len <<< 3)
  let c1 := if c0 < (len <<< 3) then c.c1 + 1 else c.c1
  (c0, c1 + (len >>> 29))

/-- `ofp_MD5Update` (`src/ofp_md5c.c:142-178`). -/
def update (c : Ctx) (input : List B) : Except Fault Ctx :=
  let len := UInt32.ofNat input.length
  let index := (c.c0 >>> 3) &&& 0x3f
  let cnt := bump c len
  match blocks c input len index with
  | .error e => .error e
  | .ok (st, buf, i, idx) =>
    match rd input i.toNat (len - i).toNat with
    | .error e => .error e
    | .ok rest =>
      match blit buf idx.toNat rest with
      | .error e => .error e
      | .ok buf' => .ok { state := st, c0 := cnt.1, c1 := cnt.2, buffer := buf' }

/-- `PADDING` (`src/ofp_md5c.c:81-85`). -/
def padding : List B := 0x80 :: List.replicate 63 0

/-- `MD5Pad` (`src/ofp_md5c.c:184-200`). -/
def pad (c : Ctx) : Except Fault Ctx :=
  let bits := encode c.c0 ++ encode c.c1
  let index := (c.c0 >>> 3) &&& 0x3f
  let padLen := if index < 56 then 56 - index else 120 - index
  match rd padding 0 padLen.toNat with
  | .error e => .error e
  | .ok p =>
    match update c p with
    | .error e => .error e
    | .ok c => update c bits

/-- `memset (context, 0, sizeof (*context))` (`src/ofp_md5c.c:217-218`). -/
def wiped : Ctx := { state := ⟨0, 0, 0, 0⟩, c0 := 0, c1 := 0, buffer := List.replicate 64 0 }

/-- `ofp_MD5Final` (`src/ofp_md5c.c:207-219`): the digest and the context left behind. -/
def final (c : Ctx) : Except Fault (List B × Ctx) :=
  match pad c with
  | .error e => .error e
  | .ok c => .ok (encode c.state.a ++ encode c.state.b ++ encode c.state.c ++ encode c.state.d, wiped)

/-- Several calls of `ofp_MD5Update` (`src/ofp_tcp_subr.c:1668-1684`, `src/ofp_tcp_syncache.c:1447-1452` are such sequences). -/
def updates (c : Ctx) : List (List B) → Except Fault Ctx
  | [] => .ok c
  | x :: xs =>
    match update c x with
    | .error e => .error e
    | .ok c => updates c xs

/-- `ofp_MD5Init`, some `ofp_MD5Update`s, `ofp_MD5Final` (the use made of them in `src/ofp_tcp_subr.c:1667-1685`). -/
def digest (c : Ctx) (xs : List (List B)) : Except Fault (List B × Ctx) :=
  match updates (md5Init c) xs with
  | .error e => .error e
  | .ok c => final c

end Verif.Md5

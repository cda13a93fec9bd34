import Verif.Model.StringInfo
/-! md5.c. -/
namespace Wizard

/-- md5.c:56-76 `struct _MD5Info`: the accumulator, the bit count, the message buffer and the digest (both
with their slack).  There is no fill count: it is recomputed from `low_order`. -/
structure Md5Info where
  accumulator : List (BitVec 32)
  low : BitVec 32
  high : BitVec 32
  message : List Byte
  digest : List Byte
  deriving DecidableEq, Repr

/-- md5.c:102-122 `AcquireMD5Info`.  The accumulator is not set: it is four words of any value (`junk`). -/
def acquireMd5 (junk : List (BitVec 32)) : Md5Info :=
  ⟨junk, 0, 0, List.replicate (64 + maxCipherBlocksize) 0, List.replicate (16 + maxCipherBlocksize) 0⟩

/-- md5.c:371-386 `InitializeMD5`. -/
def initializeMd5 (s : Md5Info) : Md5Info :=
  { s with accumulator := [0x67452301, 0xefcdab89, 0x98badcfe, 0x10325476], low := 0, high := 0 }

/-- md5.c:412-434 `F`, `G`, `H`, `I`. -/
def md5F (x y z : BitVec 32) : BitVec 32 := (x &&& y) ||| (~~~x &&& z)
def md5G (x y z : BitVec 32) : BitVec 32 := (x &&& z) ||| (y &&& ~~~z)
def md5H (x y z : BitVec 32) : BitVec 32 := x ^^^ y ^^^ z
def md5I (x y z : BitVec 32) : BitVec 32 := y ^^^ (x ||| ~~~z)

/-- md5.c:441-444 `RotateLeft`. -/
def md5RotateLeft (x : BitVec 32) (n : Nat) : BitVec 32 := (x <<< n) ||| (x >>> (32 - n))

/-- md5.c:457-473 `K`. -/
def md5K : List (BitVec 32) :=
  [0xd76aa478, 0xe8c7b756, 0x242070db, 0xc1bdceee, 0xf57c0faf, 0x4787c62a, 0xa8304613, 0xfd469501,
   0x698098d8, 0x8b44f7af, 0xffff5bb1, 0x895cd7be, 0x6b901122, 0xfd987193, 0xa679438e, 0x49b40821,
   0xf61e2562, 0xc040b340, 0x265e5a51, 0xe9b6c7aa, 0xd62f105d, 0x02441453, 0xd8a1e681, 0xe7d3fbc8,
   0x21e1cde6, 0xc33707d6, 0xf4d50d87, 0x455a14ed, 0xa9e3e905, 0xfcefa3f8, 0x676f02d9, 0x8d2a4c8a,
   0xfffa3942, 0x8771f681, 0x6d9d6122, 0xfde5380c, 0xa4beea44, 0x4bdecfa9, 0xf6bb4b60, 0xbebfbc70,
   0x289b7ec6, 0xeaa127fa, 0xd4ef3085, 0x04881d05, 0xd9d4d039, 0xe6db99e5, 0x1fa27cf8, 0xc4ac5665,
   0xf4292244, 0x432aff97, 0xab9423a7, 0xfc93a039, 0x655b59c3, 0x8f0ccc92, 0xffeff47d, 0x85845dd1,
   0x6fa87e4f, 0xfe2ce6e0, 0xa3014314, 0x4e0811a1, 0xf7537e82, 0xbd3af235, 0x2ad7d2bb, 0xeb86d391]

/-- The variables of `TransformMD5` (md5.c:448-479); `p` is the index of the next constant. -/
structure Md5Regs where
  A : BitVec 32
  B : BitVec 32
  C : BitVec 32
  D : BitVec 32
  j : Nat
  p : Nat
  deriving DecidableEq, Repr

/-- One turn of one of the four loops (md5.c:493-507, 512-526, 531-545, 550-564), which differ in the function,
the increment of `j` and the four shifts. -/
def md5Turn (f : BitVec 32 → BitVec 32 → BitVec 32 → BitVec 32) (dj s0 s1 s2 s3 : Nat) (message : List (BitVec 32))
    (r : Md5Regs) : Md5Regs :=
  let A := r.A + (f r.B r.C r.D + message.getD (r.j &&& 0x0f) 0 + md5K.getD r.p 0)
  let A := md5RotateLeft A s0 + r.B
  let j := r.j + dj
  let D := r.D + (f A r.B r.C + message.getD (j &&& 0x0f) 0 + md5K.getD (r.p + 1) 0)
  let D := md5RotateLeft D s1 + A
  let j := j + dj
  let C := r.C + (f D A r.B + message.getD (j &&& 0x0f) 0 + md5K.getD (r.p + 2) 0)
  let C := md5RotateLeft C s2 + D
  let j := j + dj
  let B := r.B + (f C D A + message.getD (j &&& 0x0f) 0 + md5K.getD (r.p + 3) 0)
  let B := md5RotateLeft B s3 + C
  let j := j + dj
  ⟨A, B, C, D, j, r.p + 4⟩

/-- The loops `for (i=0; i < 4; i++)`. -/
def md5Loop (f : BitVec 32 → BitVec 32 → BitVec 32 → BitVec 32) (dj s0 s1 s2 s3 : Nat) (message : List (BitVec 32))
    (r : Md5Regs) : Md5Regs :=
  (List.range 4).foldl (fun r _ => md5Turn f dj s0 s1 s2 s3 message r) r

/-- md5.c:446-579 `TransformMD5`. -/
def transformMd5 (acc : List (BitVec 32)) (message : List (BitVec 32)) : List (BitVec 32) :=
  let r : Md5Regs := ⟨acc.getD 0 0, acc.getD 1 0, acc.getD 2 0, acc.getD 3 0, 0, 0⟩
  let r := md5Loop md5F 1 7 12 17 22 message r
  let r := md5Loop md5G 5 5 9 14 20 message { r with j := 1 }
  let r := md5Loop md5H 3 4 11 16 23 message { r with j := 5 }
  let r := md5Loop md5I 7 6 10 15 21 message { r with j := 0 }
  [acc.getD 0 0 + r.A, acc.getD 1 0 + r.B, acc.getD 2 0 + r.C, acc.getD 3 0 + r.D]

/-- md5.c:643-646 and 234-237: word `i` of a byte buffer. -/
def md5Word (p : List Byte) (i : Nat) : BitVec 32 :=
  (p.getD (4 * i) 0).setWidth 32 ||| (p.getD (4 * i + 1) 0).setWidth 32 <<< 8
    ||| (p.getD (4 * i + 2) 0).setWidth 32 <<< 16 ||| (p.getD (4 * i + 3) 0).setWidth 32 <<< 24

/-- The first `n` words of a byte buffer. -/
def md5Words (n : Nat) (p : List Byte) : List (BitVec 32) := (List.range n).map (md5Word p)

/-- md5.c:635-650: the loop over the bytes of the message, `count` of them left, `i` done, `number_bytes` bytes
in the buffer. -/
def md5Bytes (datum : List Byte) : Nat → Nat → Nat → Md5Info → Res Md5Info
  | 0, _, _, s => .ok s
  | count + 1, i, number_bytes, s => do
    let b ← rd datum i
    let m ← wr s.message number_bytes b
    if number_bytes + 1 ≠ 0x40 then
      md5Bytes datum count (i + 1) (number_bytes + 1) ⟨s.accumulator, s.low, s.high, m, s.digest⟩
    else
      md5Bytes datum count (i + 1) 0
        ⟨transformMd5 s.accumulator (md5Words 16 m), s.low, s.high, m, s.digest⟩

/-- md5.c:604-658 `UpdateMD5`. -/
def updateMd5 (s : Md5Info) (d : StringInfo) : Res Md5Info :=
  let number_bytes := ((s.low >>> 3) &&& 0x3F).toNat
  let number_bits := s.low + BitVec.ofNat 32 (d.length <<< 3)
  let high := if number_bits < s.low then s.high + 1 else s.high
  let s := { s with low := s.low + BitVec.ofNat 32 (d.length <<< 3), high := high + BitVec.ofNat 32 (d.length >>> 29) }
  md5Bytes d.datum d.length 0 number_bytes s

/-- md5.c:246-249: the bytes of a word, least significant first. -/
def md5WordBytes (x : BitVec 32) : List Byte :=
  (List.range 4).map fun i => (x >>> (8 * i)).setWidth 8

/-- md5.c:185-257 `FinalizeMD5`. -/
def finalizeMd5 (s : Md5Info) : Res Md5Info := do
  let m14 := s.low
  let m15 := s.high
  let number_bytes := ((s.low >>> 3) &&& 0x3F).toNat
  let pad ← acquireStringInfo (if number_bytes < 56 then 56 - number_bytes else 120 - number_bytes)
  let datum ← wrN pad.datum 0 (0x80 :: List.replicate (pad.length - 1) 0)
  let s ← updateMd5 s { pad with datum := datum }
  let message := md5Words 14 s.message ++ [m14, m15]
  let s := { s with accumulator := transformMd5 s.accumulator message }
  let g ← wrN s.digest 0 ((s.accumulator.take 4).flatMap md5WordBytes)
  .ok { s with digest := g }

/-- `GetMD5Digest`: the bytes of the digest. -/
def md5Digest (s : Md5Info) : List Byte := s.digest.take 16

end Wizard

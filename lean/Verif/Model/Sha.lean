import Verif.Model.StringInfo
/-! sha1.c, sha2224.c, sha2256.c, sha2384.c and sha2512.c.  The buffering (Update) and padding (Finalize)
functions of the five files are the same text up to the word type, so they are modelled once, over a record
of what differs.  Assertions on the signature always hold of an acquired object and are not modelled. -/
namespace Wizard

/-- What differs between the five files: block size (also `GetStringInfoLength(sha_info->message)`), bytes of
the length field, words of the digest, the constants of Initialize, Transform on the accumulator and the first
`block` bytes of the message buffer, and what Update adds to `high_order` for a message of `n` bytes. -/
structure ShaAlg (w : Nat) where
  block : Nat
  lenBytes : Nat
  digestWords : Nat
  init : List (BitVec w)
  transform : List (BitVec w) → List Byte → List (BitVec w)
  highOf : Nat → BitVec w

/-- sha1.c:55-82, sha2224.c, sha2256.c:56-83, sha2384.c, sha2512.c `struct _SHA..Info`: the accumulator, the
two halves of the bit count, the fill of the message buffer, the buffer with its slack, and the digest. -/
structure ShaInfo (w : Nat) where
  accumulator : List (BitVec w)
  low : BitVec w
  high : BitVec w
  offset : Nat
  message : List Byte
  digest : List Byte
  deriving DecidableEq, Repr

variable {w : Nat}

/-- sha1.c:382-397, sha2224.c:381-398, sha2256.c:381-398, sha2384.c and sha2512.c:393-410 `InitializeSHA..`. -/
def initializeSha (A : ShaAlg w) (s : ShaInfo w) : ShaInfo w :=
  { s with accumulator := A.init, low := 0, high := 0, offset := 0 }

/-- `TransformSHA..(sha_info)`. -/
def transformSha (A : ShaAlg w) (s : ShaInfo w) : ShaInfo w :=
  { s with accumulator := A.transform s.accumulator (s.message.take A.block) }

/-- sha1.c:633-641, sha2256.c:654-662, sha2512.c:716-724: the loop over whole blocks starting at `p` with `n`
bytes left, and the copy of the rest.  `fuel` bounds the number of turns. -/
def shaBlocks (A : ShaAlg w) (datum : List Byte) : Nat → ShaInfo w → Nat → Nat → Res (ShaInfo w)
  | 0, _, _, _ => .fatal
  | fuel + 1, s, p, n =>
    if n ≥ A.block then do
      let b ← rdN datum p A.block
      let m ← wrN s.message 0 b
      shaBlocks A datum fuel (transformSha A { s with message := m }) (p + A.block) (n - A.block)
    else do
      let b ← rdN datum p n
      let m ← wrN s.message 0 b
      .ok { s with message := m, offset := n }

/-- sha1.c:592-649, sha2224.c:612-669, sha2256.c:613-670, sha2384.c and sha2512.c:675-732 `UpdateSHA..`. -/
def updateSha (A : ShaAlg w) (s : ShaInfo w) (d : StringInfo) : Res (ShaInfo w) :=
  let n := d.length
  let length := s.low + BitVec.ofNat w (n <<< 3)
  let high := if length < s.low then s.high + 1 else s.high
  let s := { s with low := length, high := high + A.highOf n }
  if s.offset ≠ 0 then do
    let i := if A.block - s.offset > n then n else A.block - s.offset
    let b ← rdN d.datum 0 i
    let m ← wrN s.message s.offset b
    let s := { s with message := m, offset := s.offset + i }
    if s.offset ≠ A.block then .ok s
    else shaBlocks A d.datum (n + 1) (transformSha A s) i (n - i)
  else shaBlocks A d.datum (n + 1) s 0 n

/-- Bytes of a word, most significant first: sha1.c:242-249, 255-258 and the like in the other files. -/
def shaWordBytes (x : BitVec w) : List Byte :=
  (List.range (w / 8)).map fun i => (x >>> (8 * (w / 8 - 1 - i))).setWidth 8

/-- sha1.c:199-268, sha2224.c:198-267, sha2256.c:198-267, sha2384.c:198-279, sha2512.c:198-279
`FinalizeSHA..`. -/
def finalizeSha (A : ShaAlg w) (s : ShaInfo w) : Res (ShaInfo w) := do
  let count := ((s.low >>> 3) &&& BitVec.ofNat w (A.block - 1)).toNat
  let m ← wr s.message count 0x80
  let count := count + 1
  let s ← if count ≤ A.block - A.lenBytes then do
      let m ← wrN m count (List.replicate (A.block - A.lenBytes - count) 0)
      .ok { s with message := m }
    else do
      let m ← wrN m count (List.replicate (A.block - count) 0)
      let s := transformSha A { s with message := m }
      let m ← wrN s.message 0 (List.replicate (A.block - A.lenBytes) 0)
      .ok { s with message := m }
  let m ← wrN s.message (A.block - A.lenBytes) (shaWordBytes s.high ++ shaWordBytes s.low)
  let s := transformSha A { s with message := m }
  let g ← wrN s.digest 0 ((s.accumulator.take A.digestWords).flatMap shaWordBytes)
  .ok { s with digest := g }

/-! ### The compression functions -/

/-- sha1.c:454-491, sha2256.c:496-533, sha2512.c:574-595: the sixteen words of the buffer.  `lsb` is
`lsb_first`; the memory read is in the byte order of the host, least significant byte first when `lsb`, and
the words are then swapped. -/
def shaHostRead (w : Nat) (lsb : Bool) (b : List Byte) (i : Nat) : BitVec w :=
  let c := (b.drop (w / 8 * i)).take (w / 8)
  BitVec.ofNat w ((if lsb then c.reverse else c).foldl (fun v x => 256 * v + x.toNat) 0)

/-- sha1.c:478-479: the bytes of a 32-bit word swapped. -/
def shaSwap32 (T : BitVec 32) : BitVec 32 :=
  ((T <<< 24) &&& 0xff000000#32) ||| ((T <<< 8) &&& 0x00ff0000#32) ||| ((T >>> 8) &&& 0x0000ff00#32)
    ||| ((T >>> 24) &&& 0x000000ff#32)

/-- sha2512.c:586-594. -/
def shaSwap64 (T : BitVec 64) : BitVec 64 :=
  ((T <<< 56) &&& 0xff00000000000000#64) ||| ((T <<< 40) &&& 0x00ff000000000000#64)
    ||| ((T <<< 24) &&& 0x0000ff0000000000#64) ||| ((T <<< 8) &&& 0x000000ff00000000#64)
    ||| ((T >>> 8) &&& 0x00000000ff000000#64) ||| ((T >>> 24) &&& 0x0000000000ff0000#64)
    ||| ((T >>> 40) &&& 0x000000000000ff00#64) ||| ((T >>> 56) &&& 0x00000000000000ff#64)

/-- W[0] to W[15], 32-bit (sha1.c:454-491). -/
def shaLoad32 (lsb : Bool) (b : List Byte) : List (BitVec 32) :=
  (List.range 16).map fun i => if lsb then shaSwap32 (shaHostRead 32 lsb b i) else shaHostRead 32 lsb b i

/-- W[0] to W[15], 64-bit (sha2512.c:574-595). -/
def shaLoad64 (lsb : Bool) (b : List Byte) : List (BitVec 64) :=
  (List.range 16).map fun i => if lsb then shaSwap64 (shaHostRead 64 lsb b i) else shaHostRead 64 lsb b i

/-- sha1.c:426-429 `RotateLeft`. -/
def shaRotateLeft (x : BitVec 32) (n : Nat) : BitVec 32 := (x <<< n) ||| (x >>> (32 - n))
/-- sha2256.c:440-443, sha2512.c:452-456 `RotateRight`. -/
def shaRotateRight (x : BitVec w) (n : Nat) : BitVec w := (x >>> n) ||| (x <<< (w - n))

/-- The registers of `TransformSHA1`. -/
structure Sha1Regs where
  A : BitVec 32
  B : BitVec 32
  C : BitVec 32
  D : BitVec 32
  E : BitVec 32
  deriving DecidableEq, Repr

/-- sha1.c:500-504 the schedule: W[16] to W[79]. -/
def sha1Schedule (W : List (BitVec 32)) : List (BitVec 32) :=
  (List.range 64).foldl (fun W j =>
    let i := j + 16
    W ++ [shaRotateLeft (W.getD (i - 3) 0 ^^^ W.getD (i - 8) 0 ^^^ W.getD (i - 14) 0 ^^^ W.getD (i - 16) 0) 1]) W

/-- sha1.c:506-546 one turn of the four loops, number `i`. -/
def sha1Turn (W : List (BitVec 32)) (r : Sha1Regs) (i : Nat) : Sha1Regs :=
  let T :=
    if i < 20 then
      shaRotateLeft r.A 5 + ((r.B &&& r.C) ||| (~~~r.B &&& r.D)) + r.E + W.getD i 0 + 0x5a827999
    else if i < 40 then
      shaRotateLeft r.A 5 + (r.B ^^^ r.C ^^^ r.D) + r.E + W.getD i 0 + 0x6ed9eba1
    else if i < 60 then
      shaRotateLeft r.A 5 + ((r.B &&& r.C) ||| (r.B &&& r.D) ||| (r.C &&& r.D)) + r.E + W.getD i 0 + 0x8F1bbcdc
    else
      shaRotateLeft r.A 5 + (r.B ^^^ r.C ^^^ r.D) + r.E + W.getD i 0 + 0xca62c1d6
  ⟨T, r.A, shaRotateLeft r.B 30, r.C, r.D⟩

/-- sha1.c:431-565 `TransformSHA1`. -/
def transformSha1 (lsb : Bool) (acc : List (BitVec 32)) (b : List Byte) : List (BitVec 32) :=
  let W := sha1Schedule (shaLoad32 lsb b)
  let r := (List.range 80).foldl (sha1Turn W)
    ⟨acc.getD 0 0, acc.getD 1 0, acc.getD 2 0, acc.getD 3 0, acc.getD 4 0⟩
  [acc.getD 0 0 + r.A, acc.getD 1 0 + r.B, acc.getD 2 0 + r.C, acc.getD 3 0 + r.D, acc.getD 4 0 + r.E]

/-- The registers of `TransformSHA2..`. -/
structure Sha2Regs (w : Nat) where
  A : BitVec w
  B : BitVec w
  C : BitVec w
  D : BitVec w
  E : BitVec w
  F : BitVec w
  G : BitVec w
  H : BitVec w
  deriving DecidableEq, Repr

/-- sha2224.c and sha2256.c:423-433, sha2384.c and sha2512.c:435-445 `Ch`, `Maj`. -/
def shaCh (x y z : BitVec w) : BitVec w := (x &&& y) ^^^ (~~~x &&& z)
def shaMaj (x y z : BitVec w) : BitVec w := (x &&& y) ^^^ (x &&& z) ^^^ (y &&& z)

/-- sha2256.c:447-450 `Sigma0`, `Sigma1`, `Suma0`, `Suma1` on 32-bit words (the same in sha2224.c). -/
def sigma0_32 (x : BitVec 32) : BitVec 32 := shaRotateRight x 7 ^^^ shaRotateRight x 18 ^^^ (x >>> 3)
def sigma1_32 (x : BitVec 32) : BitVec 32 := shaRotateRight x 17 ^^^ shaRotateRight x 19 ^^^ (x >>> 10)
def suma0_32 (x : BitVec 32) : BitVec 32 := shaRotateRight x 2 ^^^ shaRotateRight x 13 ^^^ shaRotateRight x 22
def suma1_32 (x : BitVec 32) : BitVec 32 := shaRotateRight x 6 ^^^ shaRotateRight x 11 ^^^ shaRotateRight x 25
/-- sha2512.c:460-463 on 64-bit words (the same in sha2384.c). -/
def sigma0_64 (x : BitVec 64) : BitVec 64 := shaRotateRight x 1 ^^^ shaRotateRight x 8 ^^^ (x >>> 7)
def sigma1_64 (x : BitVec 64) : BitVec 64 := shaRotateRight x 19 ^^^ shaRotateRight x 61 ^^^ (x >>> 6)
def suma0_64 (x : BitVec 64) : BitVec 64 := shaRotateRight x 28 ^^^ shaRotateRight x 34 ^^^ shaRotateRight x 39
def suma1_64 (x : BitVec 64) : BitVec 64 := shaRotateRight x 14 ^^^ shaRotateRight x 18 ^^^ shaRotateRight x 41

/-- sha2256.c:545-546, sha2512.c:607-608: the schedule, `n` words after the first sixteen. -/
def sha2Schedule (s0 s1 : BitVec w → BitVec w) (n : Nat) (W : List (BitVec w)) : List (BitVec w) :=
  (List.range n).foldl (fun W j =>
    let i := j + 16
    W ++ [s1 (W.getD (i - 2) 0) + W.getD (i - 7) 0 + s0 (W.getD (i - 15) 0) + W.getD (i - 16) 0]) W

/-- sha2256.c:547-559, sha2512.c:609-621: one turn, number `j`. -/
def sha2Turn (S0 S1 : BitVec w → BitVec w) (K W : List (BitVec w)) (r : Sha2Regs w) (j : Nat) : Sha2Regs w :=
  let T1 := r.H + S1 r.E + shaCh r.E r.F r.G + K.getD j 0 + W.getD j 0
  let T2 := S0 r.A + shaMaj r.A r.B r.C
  ⟨T1 + T2, r.A, r.B, r.C, r.D + T1, r.E, r.F, r.G⟩

/-- The registers loaded from the accumulator (sha2256.c:537-544). -/
def sha2Regs (acc : List (BitVec w)) : Sha2Regs w :=
  ⟨acc.getD 0 0, acc.getD 1 0, acc.getD 2 0, acc.getD 3 0, acc.getD 4 0, acc.getD 5 0, acc.getD 6 0, acc.getD 7 0⟩

/-- sha2256.c:461-477 `K` (the same table in sha2224.c). -/
def sha2K32 : List (BitVec 32) :=
  [0x428a2f98, 0x71374491, 0xb5c0fbcf, 0xe9b5dba5, 0x3956c25b, 0x59f111f1, 0x923f82a4, 0xab1c5ed5,
   0xd807aa98, 0x12835b01, 0x243185be, 0x550c7dc3, 0x72be5d74, 0x80deb1fe, 0x9bdc06a7, 0xc19bf174,
   0xe49b69c1, 0xefbe4786, 0x0fc19dc6, 0x240ca1cc, 0x2de92c6f, 0x4a7484aa, 0x5cb0a9dc, 0x76f988da,
   0x983e5152, 0xa831c66d, 0xb00327c8, 0xbf597fc7, 0xc6e00bf3, 0xd5a79147, 0x06ca6351, 0x14292967,
   0x27b70a85, 0x2e1b2138, 0x4d2c6dfc, 0x53380d13, 0x650a7354, 0x766a0abb, 0x81c2c92e, 0x92722c85,
   0xa2bfe8a1, 0xa81a664b, 0xc24b8b70, 0xc76c51a3, 0xd192e819, 0xd6990624, 0xf40e3585, 0x106aa070,
   0x19a4c116, 0x1e376c08, 0x2748774c, 0x34b0bcb5, 0x391c0cb3, 0x4ed8aa4a, 0x5b9cca4f, 0x682e6ff3,
   0x748f82ee, 0x78a5636f, 0x84c87814, 0x8cc70208, 0x90befffa, 0xa4506ceb, 0xbef9a3f7, 0xc67178f2]

/-- sha2512.c:475-557 `K` (the same table in sha2384.c). -/
def sha2K64 : List (BitVec 64) :=
  [0x428a2f98d728ae22, 0x7137449123ef65cd, 0xb5c0fbcfec4d3b2f, 0xe9b5dba58189dbbc,
   0x3956c25bf348b538, 0x59f111f1b605d019, 0x923f82a4af194f9b, 0xab1c5ed5da6d8118,
   0xd807aa98a3030242, 0x12835b0145706fbe, 0x243185be4ee4b28c, 0x550c7dc3d5ffb4e2,
   0x72be5d74f27b896f, 0x80deb1fe3b1696b1, 0x9bdc06a725c71235, 0xc19bf174cf692694,
   0xe49b69c19ef14ad2, 0xefbe4786384f25e3, 0x0fc19dc68b8cd5b5, 0x240ca1cc77ac9c65,
   0x2de92c6f592b0275, 0x4a7484aa6ea6e483, 0x5cb0a9dcbd41fbd4, 0x76f988da831153b5,
   0x983e5152ee66dfab, 0xa831c66d2db43210, 0xb00327c898fb213f, 0xbf597fc7beef0ee4,
   0xc6e00bf33da88fc2, 0xd5a79147930aa725, 0x06ca6351e003826f, 0x142929670a0e6e70,
   0x27b70a8546d22ffc, 0x2e1b21385c26c926, 0x4d2c6dfc5ac42aed, 0x53380d139d95b3df,
   0x650a73548baf63de, 0x766a0abb3c77b2a8, 0x81c2c92e47edaee6, 0x92722c851482353b,
   0xa2bfe8a14cf10364, 0xa81a664bbc423001, 0xc24b8b70d0f89791, 0xc76c51a30654be30,
   0xd192e819d6ef5218, 0xd69906245565a910, 0xf40e35855771202a, 0x106aa07032bbd1b8,
   0x19a4c116b8d2d0c8, 0x1e376c085141ab53, 0x2748774cdf8eeb99, 0x34b0bcb5e19b48a8,
   0x391c0cb3c5c95a63, 0x4ed8aa4ae3418acb, 0x5b9cca4f7763e373, 0x682e6ff3d6b2b8a3,
   0x748f82ee5defb2fc, 0x78a5636f43172f60, 0x84c87814a1f0ab72, 0x8cc702081a6439ec,
   0x90befffa23631e28, 0xa4506cebde82bde9, 0xbef9a3f7b2c67915, 0xc67178f2e372532b,
   0xca273eceea26619c, 0xd186b8c721c0c207, 0xeada7dd6cde0eb1e, 0xf57d4f7fee6ed178,
   0x06f067aa72176fba, 0x0a637dc5a2c898a6, 0x113f9804bef90dae, 0x1b710b35131c471b,
   0x28db77f523047d84, 0x32caab7b40c72493, 0x3c9ebe0a15c9bebc, 0x431d67c49c100d4c,
   0x4cc5d4becb3e42b6, 0x597f299cfc657e2a, 0x5fcb6fab3ad6faec, 0x6c44198c4a475817]

/-- The loops of `TransformSHA2256` (sha2256.c:545-559), the same as in sha2224.c. -/
def sha2Loop32 (lsb : Bool) (acc : List (BitVec 32)) (b : List Byte) : Sha2Regs 32 :=
  (List.range 64).foldl (sha2Turn suma0_32 suma1_32 sha2K32
    (sha2Schedule sigma0_32 sigma1_32 48 (shaLoad32 lsb b))) (sha2Regs acc)

/-- sha2256.c:445-586 `TransformSHA2256`. -/
def transformSha256 (lsb : Bool) (acc : List (BitVec 32)) (b : List Byte) : List (BitVec 32) :=
  let r := sha2Loop32 lsb acc b
  [acc.getD 0 0 + r.A, acc.getD 1 0 + r.B, acc.getD 2 0 + r.C, acc.getD 3 0 + r.D, acc.getD 4 0 + r.E,
   acc.getD 5 0 + r.F, acc.getD 6 0 + r.G, acc.getD 7 0 + r.H]

/-- sha2224.c:444-584 `TransformSHA2224`; lines 562-568 update seven of the eight words only. -/
def transformSha224 (lsb : Bool) (acc : List (BitVec 32)) (b : List Byte) : List (BitVec 32) :=
  let r := sha2Loop32 lsb acc b
  [acc.getD 0 0 + r.A, acc.getD 1 0 + r.B, acc.getD 2 0 + r.C, acc.getD 3 0 + r.D, acc.getD 4 0 + r.E,
   acc.getD 5 0 + r.F, acc.getD 6 0 + r.G, acc.getD 7 0]

/-- sha2512.c:458-648 `TransformSHA2512`, sha2384.c `TransformSHA2384`. -/
def transformSha512 (lsb : Bool) (acc : List (BitVec 64)) (b : List Byte) : List (BitVec 64) :=
  let r := (List.range 80).foldl (sha2Turn suma0_64 suma1_64 sha2K64
    (sha2Schedule sigma0_64 sigma1_64 64 (shaLoad64 lsb b))) (sha2Regs acc)
  [acc.getD 0 0 + r.A, acc.getD 1 0 + r.B, acc.getD 2 0 + r.C, acc.getD 3 0 + r.D, acc.getD 4 0 + r.E,
   acc.getD 5 0 + r.F, acc.getD 6 0 + r.G, acc.getD 7 0 + r.H]

/-! ### The five algorithms -/

/-- sha1.c:617, sha2224.c:636, sha2256.c:638 `(unsigned int) n >> 29`: the cast comes first. -/
def shaHigh32 (n : Nat) : BitVec 32 := (BitVec.ofNat 32 n) >>> 29
/-- sha2384.c and sha2512.c:700 `(WizardSizeType) n >> 61`. -/
def shaHigh64 (n : Nat) : BitVec 64 := (BitVec.ofNat 64 n) >>> 61

/-- sha1.c:50-51, 387-391. -/
def sha1Alg (lsb : Bool) : ShaAlg 32 :=
  ⟨64, 8, 5, [0x67452301, 0xefcdab89, 0x98badcfe, 0x10325476, 0xc3d2e1f0], transformSha1 lsb, shaHigh32⟩

/-- sha2224.c:50-51, 385-392. -/
def sha224Alg (lsb : Bool) : ShaAlg 32 :=
  ⟨64, 8, 7, [0xc1059ed8, 0x367cd507, 0x3070dd17, 0xf70e5939, 0xffc00b31, 0x68581511, 0x64f98fa7, 0xbefa4fa4],
   transformSha224 lsb, shaHigh32⟩

/-- sha2256.c:50-51, 386-393. -/
def sha256Alg (lsb : Bool) : ShaAlg 32 :=
  ⟨64, 8, 8, [0x6a09e667, 0xbb67ae85, 0x3c6ef372, 0xa54ff53a, 0x510e527f, 0x9b05688c, 0x1f83d9ab, 0x5be0cd19],
   transformSha256 lsb, shaHigh32⟩

/-- sha2384.c:50-51, 398-405. -/
def sha384Alg (lsb : Bool) : ShaAlg 64 :=
  ⟨128, 16, 6, [0xcbbb9d5dc1059ed8, 0x629a292a367cd507, 0x9159015a3070dd17, 0x152fecd8f70e5939, 0x67332667ffc00b31,
    0x8eb44a8768581511, 0xdb0c2e0d64f98fa7, 0x47b5481dbefa4fa4], transformSha512 lsb, shaHigh64⟩

/-- sha2512.c:50-51, 398-405. -/
def sha512Alg (lsb : Bool) : ShaAlg 64 :=
  ⟨128, 16, 8, [0x6a09e667f3bcc908, 0xbb67ae8584caa73b, 0x3c6ef372fe94f82b, 0xa54ff53a5f1d36f1, 0x510e527fade682d1,
    0x9b05688c2b3e6c1f, 0x1f83d9abfb41bd6b, 0x5be0cd19137e2179], transformSha512 lsb, shaHigh64⟩

/-- sha1.c:103-135, sha2256.c:106-137, sha2512.c:106-137 `AcquireSHA..Info`: buffer and digest are zeroed byte
strings with their slack; the accumulator is set by Initialize. -/
def acquireSha (A : ShaAlg w) : ShaInfo w :=
  ⟨A.init, 0, 0, 0, List.replicate (A.block + maxCipherBlocksize) 0,
   List.replicate (A.digestWords * (w / 8) + maxCipherBlocksize) 0⟩

/-- `GetSHA..Digest`: the bytes of the digest. -/
def shaDigest (A : ShaAlg w) (s : ShaInfo w) : List Byte := s.digest.take (A.digestWords * (w / 8))

end Wizard

import Verif.Model.Basic
/-! The Merkle–Damgård hash functions as published: MD5 (RFC 1321), SHA-1 and SHA-2 (FIPS 180-4).  The
constants are not copied: they are the leading bits of roots of primes and of sines, computed exactly. -/
namespace Wizard.Spec.Hash

/-! ### Blocks and padding -/

/-- The message cut into blocks of `n` bytes; an incomplete last block is dropped. -/
def blocks (n : Nat) (m : List Byte) : List (List Byte) :=
  (List.range (m.length / n)).map fun i => (m.drop (n * i)).take n

/-- The compression function `f` iterated over the blocks. -/
def md {σ : Type} (n : Nat) (f : σ → List Byte → σ) (s : σ) (m : List Byte) : σ := (blocks n m).foldl f s

/-- `v` as `k` bytes, most significant first. -/
def be (k v : Nat) : List Byte := (List.range k).map fun i => BitVec.ofNat 8 (v / 256 ^ (k - 1 - i))

/-- `v` as `k` bytes, least significant first. -/
def le (k v : Nat) : List Byte := (List.range k).map fun i => BitVec.ofNat 8 (v / 256 ^ i)

/-- The padded message: a byte 0x80, the least number of zeros that leaves a multiple of `n` bytes once the
`l` bytes `len` of the length are appended. -/
def pad (n l : Nat) (m len : List Byte) : List Byte :=
  m ++ 0x80 :: List.replicate ((2 * n - 1 - l - m.length % n) % n) 0 ++ len

/-! ### Roots -/

/-- The largest `r < 2^k` with `r^e ≤ x`, bit by bit. -/
def root (e x : Nat) : Nat → Nat
  | 0 => 0
  | k + 1 =>
    let r := 2 * root e (x / 2 ^ e) k
    if (r + 1) ^ e ≤ x then r + 1 else r

/-- The first `b` bits of the fractional part of the `e`-th root of `p` (of an integral part below 32). -/
def fracRoot (e b p : Nat) : Nat := root e (p * 2 ^ (e * b)) (b + 5) % 2 ^ b

/-- The `i`-th prime number (for the first 80). -/
def prime (i : Nat) : Nat :=
  ((List.range 420).filter fun p => 2 ≤ p && (List.range 20).all fun d => d < 2 || p ≤ d || p % d ≠ 0
    || d * d > p).getD i 0

/-! ### SHA-1 -/

/-- The 32-bit word of four bytes, most significant first. -/
def word32 (b : List Byte) (t : Nat) : BitVec 32 :=
  b.getD (4 * t) 0 ++ b.getD (4 * t + 1) 0 ++ b.getD (4 * t + 2) 0 ++ b.getD (4 * t + 3) 0

namespace SHA1

/-- The message schedule of a block. -/
def W (b : List Byte) : Nat → BitVec 32
  | 0 => word32 b 0 | 1 => word32 b 1 | 2 => word32 b 2 | 3 => word32 b 3
  | 4 => word32 b 4 | 5 => word32 b 5 | 6 => word32 b 6 | 7 => word32 b 7
  | 8 => word32 b 8 | 9 => word32 b 9 | 10 => word32 b 10 | 11 => word32 b 11
  | 12 => word32 b 12 | 13 => word32 b 13 | 14 => word32 b 14 | 15 => word32 b 15
  | t + 16 => (W b (t + 13) ^^^ W b (t + 8) ^^^ W b (t + 2) ^^^ W b t).rotateLeft 1

/-- The functions Ch, Parity, Maj, Parity. -/
def f (t : Nat) (x y z : BitVec 32) : BitVec 32 :=
  if t < 20 then (x &&& y) ^^^ (~~~x &&& z)
  else if t < 40 then x ^^^ y ^^^ z
  else if t < 60 then (x &&& y) ^^^ (x &&& z) ^^^ (y &&& z)
  else x ^^^ y ^^^ z

/-- The constants: the first 32 bits of sqrt(2)/4, sqrt(3)/4, sqrt(5)/4, sqrt(10)/4. -/
def K (t : Nat) : BitVec 32 :=
  BitVec.ofNat 32 (root 2 ((if t < 20 then 2 else if t < 40 then 3 else if t < 60 then 5 else 10) * 2 ^ 60) 40)

/-- The five working variables. -/
structure V where
  a : BitVec 32
  b : BitVec 32
  c : BitVec 32
  d : BitVec 32
  e : BitVec 32
  deriving DecidableEq, Repr

/-- Steps 0, ..., n-1. -/
def steps (blk : List Byte) : Nat → V → V
  | 0, v => v
  | t + 1, v =>
    let v := steps blk t v
    ⟨v.a.rotateLeft 5 + f t v.b v.c v.d + v.e + K t + W blk t, v.a, v.b.rotateLeft 30, v.c, v.d⟩

/-- The compression function. -/
def compress (h : V) (blk : List Byte) : V :=
  let v := steps blk 80 h
  ⟨v.a + h.a, v.b + h.b, v.c + h.c, v.d + h.d, v.e + h.e⟩

/-- The initial value. -/
def init : V := ⟨0x67452301, 0xefcdab89, 0x98badcfe, 0x10325476, 0xc3d2e1f0⟩

/-- SHA-1. -/
def hash (m : List Byte) : List Byte :=
  let h := md 64 compress init (pad 64 8 m (be 8 (8 * m.length)))
  be 4 h.a.toNat ++ be 4 h.b.toNat ++ be 4 h.c.toNat ++ be 4 h.d.toNat ++ be 4 h.e.toNat

end SHA1

/-! ### SHA-2 -/

namespace SHA2

/-- The `w`-bit word number `t` of a byte string, most significant byte first. -/
def word (w : Nat) (b : List Byte) (t : Nat) : BitVec w :=
  BitVec.ofNat w (((b.drop (w / 8 * t)).take (w / 8)).foldl (fun v x => 256 * v + x.toNat) 0)

/-- What distinguishes the 32-bit and the 64-bit variant: number of rounds and rotation amounts. -/
structure Params where
  rounds : Nat
  S0 : Nat × Nat × Nat
  S1 : Nat × Nat × Nat
  s0 : Nat × Nat × Nat
  s1 : Nat × Nat × Nat

/-- FIPS 180-4 section 4.1.2. -/
def p32 : Params := ⟨64, (2, 13, 22), (6, 11, 25), (7, 18, 3), (17, 19, 10)⟩
/-- FIPS 180-4 section 4.1.3. -/
def p64 : Params := ⟨80, (28, 34, 39), (14, 18, 41), (1, 8, 7), (19, 61, 6)⟩

variable {w : Nat}

/-- Ch. -/
def Ch (x y z : BitVec w) : BitVec w := (x &&& y) ^^^ (~~~x &&& z)
/-- Maj. -/
def Maj (x y z : BitVec w) : BitVec w := (x &&& y) ^^^ (x &&& z) ^^^ (y &&& z)
/-- The functions written with a capital sigma: three rotations. -/
def Sum (r : Nat × Nat × Nat) (x : BitVec w) : BitVec w :=
  x.rotateRight r.1 ^^^ x.rotateRight r.2.1 ^^^ x.rotateRight r.2.2
/-- The functions written with a small sigma: two rotations and a shift. -/
def sig (r : Nat × Nat × Nat) (x : BitVec w) : BitVec w :=
  x.rotateRight r.1 ^^^ x.rotateRight r.2.1 ^^^ x >>> r.2.2

/-- The constants: the first `w` bits of the fractional parts of the cube roots of the primes. -/
def K (t : Nat) : BitVec w := BitVec.ofNat w (fracRoot 3 w (prime t))

/-- The message schedule of a block. -/
def W (p : Params) (b : List Byte) : Nat → BitVec w
  | 0 => word w b 0 | 1 => word w b 1 | 2 => word w b 2 | 3 => word w b 3
  | 4 => word w b 4 | 5 => word w b 5 | 6 => word w b 6 | 7 => word w b 7
  | 8 => word w b 8 | 9 => word w b 9 | 10 => word w b 10 | 11 => word w b 11
  | 12 => word w b 12 | 13 => word w b 13 | 14 => word w b 14 | 15 => word w b 15
  | t + 16 => sig p.s1 (W p b (t + 14)) + W p b (t + 9) + sig p.s0 (W p b (t + 1)) + W p b t

/-- The eight working variables. -/
structure V (w : Nat) where
  a : BitVec w
  b : BitVec w
  c : BitVec w
  d : BitVec w
  e : BitVec w
  f : BitVec w
  g : BitVec w
  h : BitVec w
  deriving DecidableEq, Repr

/-- Steps 0, ..., n-1. -/
def steps (p : Params) (blk : List Byte) : Nat → V w → V w
  | 0, v => v
  | t + 1, v =>
    let v := steps p blk t v
    let T1 := v.h + Sum p.S1 v.e + Ch v.e v.f v.g + K t + W p blk t
    let T2 := Sum p.S0 v.a + Maj v.a v.b v.c
    ⟨T1 + T2, v.a, v.b, v.c, v.d + T1, v.e, v.f, v.g⟩

/-- The compression function. -/
def compress (p : Params) (h : V w) (blk : List Byte) : V w :=
  let v := steps p blk p.rounds h
  ⟨v.a + h.a, v.b + h.b, v.c + h.c, v.d + h.d, v.e + h.e, v.f + h.f, v.g + h.g, v.h + h.h⟩

/-- The words of a value. -/
def V.words (v : V w) : List (BitVec w) := [v.a, v.b, v.c, v.d, v.e, v.f, v.g, v.h]

/-- The value with the given words. -/
def ofFn (f : Nat → Nat) : V w :=
  ⟨BitVec.ofNat w (f 0), BitVec.ofNat w (f 1), BitVec.ofNat w (f 2), BitVec.ofNat w (f 3),
   BitVec.ofNat w (f 4), BitVec.ofNat w (f 5), BitVec.ofNat w (f 6), BitVec.ofNat w (f 7)⟩

/-- Initial values: square roots of the first eight primes (SHA-256, SHA-512), of the ninth to sixteenth
(SHA-384); SHA-224 takes the second 32 bits of the latter. -/
def init256 : V 32 := ofFn fun i => fracRoot 2 32 (prime i)
def init224 : V 32 := ofFn fun i => fracRoot 2 64 (prime (i + 8)) % 2 ^ 32
def init512 : V 64 := ofFn fun i => fracRoot 2 64 (prime i)
def init384 : V 64 := ofFn fun i => fracRoot 2 64 (prime (i + 8))

/-- The final value of the whole message, and the digest of `k` bytes. -/
def hash32 (init : V 32) (k : Nat) (m : List Byte) : List Byte :=
  ((md 64 (compress p32) init (pad 64 8 m (be 8 (8 * m.length)))).words.flatMap fun x => be 4 x.toNat).take k
def hash64 (init : V 64) (k : Nat) (m : List Byte) : List Byte :=
  ((md 128 (compress p64) init (pad 128 16 m (be 16 (8 * m.length)))).words.flatMap fun x => be 8 x.toNat).take k

def sha224 := hash32 init224 28
def sha256 := hash32 init256 32
def sha384 := hash64 init384 48
def sha512 := hash64 init512 64

end SHA2

/-! ### MD5 -/

namespace MD5

/-- The 32-bit word of four bytes, least significant first. -/
def word (b : List Byte) (t : Nat) : BitVec 32 :=
  b.getD (4 * t + 3) 0 ++ b.getD (4 * t + 2) 0 ++ b.getD (4 * t + 1) 0 ++ b.getD (4 * t) 0

/-- The tail `1 - x²/(2j(2j+1)) (1 - x²/((2j+2)(2j+3)) (...))` of the sine series over `x`, for j = 121 - k,
cut off after the term of degree 241: numerator and denominator. -/
def sinTail (x : Nat) : Nat → Int × Nat
  | 0 => (1, 1)
  | k + 1 =>
    let q := (240 - 2 * k) * (241 - 2 * k) * (sinTail x k).2
    (q - (x * x) * (sinTail x k).1, q)

/-- T[i+1]: the integer part of 4294967296 times abs(sin(i+1)); the series is x times the tail for j = 1, and
its remainder is far below 2^-32 for x ≤ 64. -/
def T (i : Nat) : BitVec 32 :=
  BitVec.ofNat 32 (((i + 1) * (sinTail (i + 1) 120).1.natAbs) * 2 ^ 32 / (sinTail (i + 1) 120).2)

/-- The auxiliary functions F, G, H, I of the four rounds. -/
def aux (i : Nat) (x y z : BitVec 32) : BitVec 32 :=
  if i < 16 then (x &&& y) ||| (~~~x &&& z)
  else if i < 32 then (x &&& z) ||| (y &&& ~~~z)
  else if i < 48 then x ^^^ y ^^^ z
  else y ^^^ (x ||| ~~~z)

/-- The message word used in operation `i`. -/
def k (i : Nat) : Nat :=
  if i < 16 then i else if i < 32 then (5 * i + 1) % 16 else if i < 48 then (3 * i + 5) % 16 else 7 * i % 16

/-- The shift amounts. -/
def s (i : Nat) : Nat :=
  (if i < 16 then [7, 12, 17, 22] else if i < 32 then [5, 9, 14, 20] else if i < 48 then [4, 11, 16, 23]
   else [6, 10, 15, 21]).getD (i % 4) 0

/-- The registers A, B, C, D. -/
structure V where
  a : BitVec 32
  b : BitVec 32
  c : BitVec 32
  d : BitVec 32
  deriving DecidableEq, Repr

/-- Operations 0, ..., n-1: `a = b + ((a + f(b,c,d) + X[k] + T[i+1]) <<< s)`, with the roles of the registers
turning after each. -/
def steps (blk : List Byte) : Nat → V → V
  | 0, v => v
  | i + 1, v =>
    let v := steps blk i v
    ⟨v.d, v.b + (v.a + aux i v.b v.c v.d + word blk (k i) + T i).rotateLeft (s i), v.b, v.c⟩

/-- The compression function. -/
def compress (h : V) (blk : List Byte) : V :=
  let v := steps blk 64 h
  ⟨h.a + v.a, h.b + v.b, h.c + v.c, h.d + v.d⟩

/-- The initial value: the bytes 01 23 .. ef fe dc .. 10, read with the low byte first. -/
def init : V := ⟨0x67452301, 0xefcdab89, 0x98badcfe, 0x10325476⟩

/-- MD5. -/
def hash (m : List Byte) : List Byte :=
  let h := md 64 compress init (pad 64 8 m (le 8 (8 * m.length)))
  le 4 h.a.toNat ++ le 4 h.b.toNat ++ le 4 h.c.toNat ++ le 4 h.d.toNat

end MD5

end Wizard.Spec.Hash

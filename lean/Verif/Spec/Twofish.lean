import Verif.Spec.Serpent
/-! The Twofish block cipher as published (Schneier, Kelsey, Whiting, Wagner, Hall and Ferguson, "Twofish: A
128-Bit Block Cipher"), sections 4.1 to 4.3.  Blocks are four little-endian words, as in Spec/Serpent. -/
namespace Wizard.Spec.Twofish
open Spec.Serpent (Quad ofBytes toBytes)

/-! ### Fields GF(2^8) -/

/-- Multiplication by x, modulo x^8 plus the polynomial with bits `red`. -/
def xtimes (red a : Byte) : Byte := (a <<< 1) ^^^ (if a.msb then red else 0)

/-- `n` times multiplied by x. -/
def xpow (red : Byte) : Nat → Byte → Byte
  | 0, a => a
  | n + 1, a => xtimes red (xpow red n a)

/-- The product in GF(2^8). -/
def mul (red a b : Byte) : Byte :=
  (List.range 8).foldl (fun s i => if b.getLsbD i then s ^^^ xpow red i a else s) 0

/-- The sum of products of a row and a column. -/
def dot (red : Byte) (row col : List Byte) : Byte :=
  (List.zipWith (mul red) row col).foldl (· ^^^ ·) 0

/-! ### The permutations q0 and q1 -/

/-- Rotation of a 4-bit value by one to the right. -/
def ror4 (x : Nat) : Nat := x / 2 + 8 * (x % 2)

/-- Section 4.3.5, from the four 4-bit tables. -/
def q (t0 t1 t2 t3 : List Nat) (x : Byte) : Byte :=
  let a0 := x.toNat / 16
  let b0 := x.toNat % 16
  let a1 := a0 ^^^ b0
  let b1 := a0 ^^^ ror4 b0 ^^^ (8 * a0 % 16)
  let a2 := t0.getD a1 0
  let b2 := t1.getD b1 0
  let a3 := a2 ^^^ b2
  let b3 := a2 ^^^ ror4 b2 ^^^ (8 * a2 % 16)
  BitVec.ofNat 8 (16 * t3.getD b3 0 + t2.getD a3 0)

/-- q0. -/
def q0 : Byte → Byte := q
  [0x8, 0x1, 0x7, 0xD, 0x6, 0xF, 0x3, 0x2, 0x0, 0xB, 0x5, 0x9, 0xE, 0xC, 0xA, 0x4]
  [0xE, 0xC, 0xB, 0x8, 0x1, 0x2, 0x3, 0x5, 0xF, 0x4, 0xA, 0x6, 0x7, 0x0, 0x9, 0xD]
  [0xB, 0xA, 0x5, 0xE, 0x6, 0xD, 0x9, 0x0, 0xC, 0x8, 0xF, 0x3, 0x2, 0x4, 0x7, 0x1]
  [0xD, 0x7, 0xF, 0x4, 0x1, 0x2, 0x6, 0xE, 0x9, 0xB, 0x3, 0x0, 0x8, 0x5, 0xC, 0xA]

/-- q1. -/
def q1 : Byte → Byte := q
  [0x2, 0x8, 0xB, 0xD, 0xF, 0x7, 0x6, 0xE, 0x3, 0x1, 0x9, 0x4, 0x0, 0xA, 0xC, 0x5]
  [0x1, 0xE, 0x2, 0xB, 0x4, 0xC, 0x3, 0x7, 0x6, 0xD, 0xA, 0x5, 0xF, 0x9, 0x0, 0x8]
  [0x4, 0xC, 0x7, 0x5, 0x1, 0x6, 0x9, 0xA, 0x0, 0xE, 0xD, 0x8, 0x2, 0xB, 0x3, 0xF]
  [0xB, 0x9, 0x5, 0x1, 0xC, 0x3, 0xD, 0xE, 0x6, 0x4, 0x7, 0xF, 0x2, 0x0, 0x8, 0xA]

/-! ### The function h -/

/-- A vector of four bytes. -/
structure Vec where
  b0 : Byte
  b1 : Byte
  b2 : Byte
  b3 : Byte
  deriving DecidableEq, Repr

/-- The word of a vector, least significant byte first. -/
def Vec.word (v : Vec) : BitVec 32 := v.b3 ++ v.b2 ++ v.b1 ++ v.b0

/-- The vector of a word. -/
def vec (w : BitVec 32) : Vec :=
  ⟨w.extractLsb' 0 8, w.extractLsb' 8 8, w.extractLsb' 16 8, w.extractLsb' 24 8⟩

/-- The MDS matrix, over GF(2^8) modulo x^8+x^6+x^5+x^3+1. -/
def mds (v : Vec) : Vec :=
  let c := [v.b0, v.b1, v.b2, v.b3]
  ⟨dot 0x69 [0x01, 0xEF, 0x5B, 0x5B] c, dot 0x69 [0x5B, 0xEF, 0xEF, 0x01] c,
   dot 0x69 [0xEF, 0x5B, 0x01, 0xEF] c, dot 0x69 [0xEF, 0x01, 0xEF, 0x5B] c⟩

/-- Sum of vectors. -/
def Vec.add (v u : Vec) : Vec := ⟨v.b0 ^^^ u.b0, v.b1 ^^^ u.b1, v.b2 ^^^ u.b2, v.b3 ^^^ u.b3⟩

/-- Section 4.3.2: `h(X, L)` for `L = (L0, ..., L(k-1))`, k = 2, 3 or 4. -/
def h (k : Nat) (x : Vec) (L : Nat → Vec) : BitVec 32 :=
  let y : Vec := if k = 4 then Vec.add ⟨q1 x.b0, q0 x.b1, q0 x.b2, q1 x.b3⟩ (L 3) else x
  let y : Vec := if k ≥ 3 then Vec.add ⟨q1 y.b0, q1 y.b1, q0 y.b2, q0 y.b3⟩ (L 2) else y
  let y : Vec := Vec.add ⟨q0 y.b0, q1 y.b1, q0 y.b2, q1 y.b3⟩ (L 1)
  let y : Vec := Vec.add ⟨q0 y.b0, q0 y.b1, q1 y.b2, q1 y.b3⟩ (L 0)
  (mds ⟨q1 y.b0, q0 y.b1, q1 y.b2, q0 y.b3⟩).word

/-! ### The key schedule, for a key of 8k bytes -/

/-- Bytes `4i` to `4i+3` of the key: the word M_i. -/
def M (key : List Byte) (i : Nat) : Vec :=
  ⟨key.getD (4 * i) 0, key.getD (4 * i + 1) 0, key.getD (4 * i + 2) 0, key.getD (4 * i + 3) 0⟩

/-- The vector S_i: the Reed-Solomon matrix, over GF(2^8) modulo x^8+x^6+x^3+x^2+1, applied to eight bytes
of the key. -/
def S (key : List Byte) (i : Nat) : Vec :=
  let m := (List.range 8).map fun j => key.getD (8 * i + j) 0
  ⟨dot 0x4D [0x01, 0xA4, 0x55, 0x87, 0x5A, 0x58, 0xDB, 0x9E] m,
   dot 0x4D [0xA4, 0x56, 0x82, 0xF3, 0x1E, 0xC6, 0x68, 0xE5] m,
   dot 0x4D [0x02, 0xA1, 0xFC, 0xC1, 0x47, 0xAE, 0x3D, 0x19] m,
   dot 0x4D [0xA4, 0x55, 0x87, 0x5A, 0x58, 0xDB, 0x9E, 0x03] m⟩

/-- The word with all four bytes `i`. -/
def rep (i : Nat) : Vec := ⟨BitVec.ofNat 8 i, BitVec.ofNat 8 i, BitVec.ofNat 8 i, BitVec.ofNat 8 i⟩

/-- A_i = h(2i rho, Me). -/
def A (key : List Byte) (i : Nat) : BitVec 32 :=
  h (key.length / 8) (rep (2 * i)) fun j => M key (2 * j)

/-- B_i = ROL(h((2i+1) rho, Mo), 8). -/
def B (key : List Byte) (i : Nat) : BitVec 32 :=
  (h (key.length / 8) (rep (2 * i + 1)) fun j => M key (2 * j + 1)).rotateLeft 8

/-- The expanded key words: K_2i = A_i + B_i, K_2i+1 = ROL(A_i + 2 B_i, 9). -/
def K (key : List Byte) (j : Nat) : BitVec 32 :=
  if j % 2 = 0 then A key (j / 2) + B key (j / 2)
  else (A key (j / 2) + 2 * B key (j / 2)).rotateLeft 9

/-- g(X) = h(X, S), with S = (S_(k-1), ..., S_0). -/
def g (key : List Byte) (x : BitVec 32) : BitVec 32 :=
  h (key.length / 8) (vec x) fun j => S key (key.length / 8 - 1 - j)

/-! ### The cipher -/

/-- The function F, whose results are F0 and F1. -/
def F (key : List Byte) (r0 r1 : BitVec 32) (r : Nat) : BitVec 32 × BitVec 32 :=
  let t0 := g key r0
  let t1 := g key (r1.rotateLeft 8)
  (t0 + t1 + K key (2 * r + 8), t0 + 2 * t1 + K key (2 * r + 9))

/-- Round `r`. -/
def round (key : List Byte) (r : Nat) (R : Quad) : Quad :=
  let f := F key R.x0 R.x1 r
  ⟨(R.x2 ^^^ f.1).rotateRight 1, R.x3.rotateLeft 1 ^^^ f.2, R.x0, R.x1⟩

/-- Rounds 0, ..., n-1. -/
def rounds (key : List Byte) : Nat → Quad → Quad
  | 0, R => R
  | n + 1, R => round key n (rounds key n R)

/-- Twofish: input whitening, 16 rounds, undoing the last swap, output whitening. -/
def encrypt (key : List Byte) (P : Quad) : Quad :=
  let R := rounds key 16 ⟨P.x0 ^^^ K key 0, P.x1 ^^^ K key 1, P.x2 ^^^ K key 2, P.x3 ^^^ K key 3⟩
  ⟨R.x2 ^^^ K key 4, R.x3 ^^^ K key 5, R.x0 ^^^ K key 6, R.x1 ^^^ K key 7⟩

/-- Twofish on bytes, for a key of 16, 24 or 32 bytes. -/
def encipher (key block : List Byte) : List Byte := toBytes (encrypt key (ofBytes block))

end Wizard.Spec.Twofish

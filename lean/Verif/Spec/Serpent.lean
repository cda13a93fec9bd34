import Verif.Model.Basic
/-! The Serpent block cipher as published (Anderson, Biham and Knudsen, "Serpent: A Proposal for the
Advanced Encryption Standard"), in its bit-slice description: a block is four 32-bit words, the
first the least significant; S-box `i` maps the four bits in position `j` of the words, the first
word supplying the least significant bit. -/
namespace Wizard.Spec.Serpent

/-- Four 32-bit words. -/
structure Quad where
  x0 : BitVec 32
  x1 : BitVec 32
  x2 : BitVec 32
  x3 : BitVec 32
  deriving DecidableEq, Repr

/-- The S-boxes S0 to S7. -/
def S : Nat → List Nat
  | 0 => [3, 8, 15, 1, 10, 6, 5, 11, 14, 13, 4, 2, 7, 0, 9, 12]
  | 1 => [15, 12, 2, 7, 9, 0, 5, 10, 1, 11, 14, 8, 6, 13, 3, 4]
  | 2 => [8, 6, 7, 9, 3, 12, 10, 15, 13, 1, 14, 4, 0, 11, 5, 2]
  | 3 => [0, 15, 11, 8, 12, 9, 6, 3, 13, 1, 2, 4, 10, 7, 5, 14]
  | 4 => [1, 15, 8, 3, 12, 0, 11, 6, 2, 5, 4, 10, 9, 14, 7, 13]
  | 5 => [15, 5, 2, 11, 4, 10, 9, 12, 0, 3, 14, 8, 13, 6, 7, 1]
  | 6 => [7, 2, 12, 5, 8, 4, 6, 11, 14, 9, 1, 15, 13, 3, 10, 0]
  | _ => [1, 13, 15, 0, 14, 8, 2, 11, 7, 4, 12, 10, 9, 3, 5, 6]

/-- The word with bit `j` equal to `f j`. -/
def ofBits (f : Nat → Bool) : BitVec 32 :=
  (BitVec.ofBoolListLE ((List.range 32).map f)).setWidth 32

/-- The four bits in position `j`, as a number. -/
def nibble (q : Quad) (j : Nat) : Nat :=
  (q.x0.getLsbD j).toNat + 2 * (q.x1.getLsbD j).toNat
    + 4 * (q.x2.getLsbD j).toNat + 8 * (q.x3.getLsbD j).toNat

/-- 32 copies of the 4-bit substitution `f` side by side. -/
def slice (f : Nat → Nat) (q : Quad) : Quad :=
  ⟨ofBits fun j => (f (nibble q j)).testBit 0, ofBits fun j => (f (nibble q j)).testBit 1,
   ofBits fun j => (f (nibble q j)).testBit 2, ofBits fun j => (f (nibble q j)).testBit 3⟩

/-- The substitution layer with S-box `n`. -/
def sub (n : Nat) : Quad → Quad := slice fun x => (S n).getD x 0

/-- The inverse substitution layer: `v` goes to its position in the table. -/
def subInv (n : Nat) : Quad → Quad := slice fun v => (S n).idxOf v

/-- The linear transformation. -/
def lt (q : Quad) : Quad :=
  let x0 := q.x0.rotateLeft 13
  let x2 := q.x2.rotateLeft 3
  let x1 := q.x1 ^^^ x0 ^^^ x2
  let x3 := q.x3 ^^^ x2 ^^^ (x0 <<< 3)
  let x1 := x1.rotateLeft 1
  let x3 := x3.rotateLeft 7
  let x0 := x0 ^^^ x1 ^^^ x3
  let x2 := x2 ^^^ x3 ^^^ (x1 <<< 7)
  ⟨x0.rotateLeft 5, x1, x2.rotateLeft 22, x3⟩

/-- The inverse linear transformation. -/
def ltInv (q : Quad) : Quad :=
  let x2 := q.x2.rotateRight 22
  let x0 := q.x0.rotateRight 5
  let x2 := x2 ^^^ q.x3 ^^^ (q.x1 <<< 7)
  let x0 := x0 ^^^ q.x1 ^^^ q.x3
  let x3 := q.x3.rotateRight 7
  let x1 := q.x1.rotateRight 1
  let x3 := x3 ^^^ x2 ^^^ (x0 <<< 3)
  let x1 := x1 ^^^ x0 ^^^ x2
  ⟨x0.rotateRight 13, x1, x2.rotateRight 3, x3⟩

/-- Key mixing. -/
def mix (k q : Quad) : Quad := ⟨q.x0 ^^^ k.x0, q.x1 ^^^ k.x1, q.x2 ^^^ k.x2, q.x3 ^^^ k.x3⟩

/-- Rounds 0, ..., n-1: mix, substitute, transform. -/
def rounds (K : Nat → Quad) : Nat → Quad → Quad
  | 0, q => q
  | n + 1, q => lt (sub (n % 8) (mix (K n) (rounds K n q)))

/-- The 32 rounds; the last replaces the transformation by a second key mixing. -/
def encrypt (K : Nat → Quad) (q : Quad) : Quad :=
  mix (K 32) (sub 7 (mix (K 31) (rounds K 31 q)))

/-- Rounds n-1, ..., 0 undone. -/
def roundsInv (K : Nat → Quad) : Nat → Quad → Quad
  | 0, q => q
  | n + 1, q => roundsInv K n (mix (K n) (subInv (n % 8) (ltInv q)))

/-- Decryption. -/
def decrypt (K : Nat → Quad) (q : Quad) : Quad :=
  roundsInv K 31 (mix (K 31) (subInv 7 (mix (K 32) q)))

/-- Little-endian word `i` of a byte string. -/
def word (b : List Byte) (i : Nat) : BitVec 32 :=
  b.getD (4 * i + 3) 0 ++ b.getD (4 * i + 2) 0 ++ b.getD (4 * i + 1) 0 ++ b.getD (4 * i) 0

/-- The block held in 16 bytes. -/
def ofBytes (b : List Byte) : Quad := ⟨word b 0, word b 1, word b 2, word b 3⟩

/-- The four bytes of a word, least significant first. -/
def wordBytes (w : BitVec 32) : List Byte :=
  [w.extractLsb' 0 8, w.extractLsb' 8 8, w.extractLsb' 16 8, w.extractLsb' 24 8]

/-- The 16 bytes of a block. -/
def toBytes (q : Quad) : List Byte :=
  wordBytes q.x0 ++ wordBytes q.x1 ++ wordBytes q.x2 ++ wordBytes q.x3

/-- A key of at most 32 bytes, lengthened to 256 bits by one 1 bit and then 0 bits. -/
def padKey (key : List Byte) : List Byte :=
  if key.length < 32 then key ++ 1 :: List.replicate (31 - key.length) 0 else key

/-- The prekeys; index 8 is the published w0, indices 0 to 7 the key words w(-8) to w(-1). -/
def prekey (key : List Byte) : Nat → BitVec 32
  | 0 => word key 0
  | 1 => word key 1
  | 2 => word key 2
  | 3 => word key 3
  | 4 => word key 4
  | 5 => word key 5
  | 6 => word key 6
  | 7 => word key 7
  | i + 8 => (prekey key i ^^^ prekey key (i + 3) ^^^ prekey key (i + 5) ^^^ prekey key (i + 7)
      ^^^ 0x9e3779b9#32 ^^^ BitVec.ofNat 32 i).rotateLeft 11

/-- Round key `i`: S-box 3 - i (mod 8) of prekeys w(4i) to w(4i+3). -/
def roundKey (key : List Byte) (i : Nat) : Quad :=
  sub ((35 - i) % 8) ⟨prekey key (4 * i + 8), prekey key (4 * i + 9), prekey key (4 * i + 10),
    prekey key (4 * i + 11)⟩

/-- Serpent on 16-byte blocks, for a key of at most 32 bytes. -/
def encipher (key block : List Byte) : List Byte :=
  toBytes (encrypt (roundKey (padKey key)) (ofBytes block))

/-- Serpent decryption. -/
def decipher (key block : List Byte) : List Byte :=
  toBytes (decrypt (roundKey (padKey key)) (ofBytes block))

end Wizard.Spec.Serpent

import Verif.Spec.Hash
/-! FIPS 202: the permutation Keccak-f[1600], the sponge construction over whole bytes, and the padding; the
suffix byte is 0x01 for the Keccak submission (`pad10*1` alone) and 0x06 for the SHA-3 functions (the two bits 01
come before `pad10*1`). -/
namespace Wizard.Spec.Keccak
open Hash

/-- A state array: the lane at column `x`, row `y` (both below 5). -/
abbrev State := Nat → Nat → BitVec 64

/-- Section 3.2.1. -/
def theta (A : State) : State := fun x y =>
  let C := fun x => A x 0 ^^^ A x 1 ^^^ A x 2 ^^^ A x 3 ^^^ A x 4
  A x y ^^^ C ((x + 4) % 5) ^^^ (C ((x + 1) % 5)).rotateLeft 1

/-- Section 3.2.2: the lane visited at step `t`. -/
def walk : Nat → Nat × Nat
  | 0 => (1, 0)
  | t + 1 => ((walk t).2, (2 * (walk t).1 + 3 * (walk t).2) % 5)

/-- The rotation of the lane (x,y): (t+1)(t+2)/2 if it is visited at step t < 24; lane (0,0) stays. -/
def offset (x y : Nat) : Nat :=
  match (List.range 24).find? (fun t => walk t = (x, y)) with
  | some t => (t + 1) * (t + 2) / 2 % 64
  | none => 0

def rho (A : State) : State := fun x y => (A x y).rotateLeft (offset x y)

/-- Section 3.2.3. -/
def pi (A : State) : State := fun x y => A ((x + 3 * y) % 5) x

/-- Section 3.2.4. -/
def chi (A : State) : State := fun x y => A x y ^^^ (~~~A ((x + 1) % 5) y &&& A ((x + 2) % 5) y)

/-- Section 3.2.5, algorithm 5: the register R (bit 0 first) after `t` steps. -/
def lfsr : Nat → List Bool
  | 0 => [true, false, false, false, false, false, false, false]
  | t + 1 =>
    match lfsr t with
    | [r0, r1, r2, r3, r4, r5, r6, r7] => [r7, r0, r1, r2, Bool.xor r3 r7, Bool.xor r4 r7, Bool.xor r5 r7, r6]
    | l => l

/-- rc(t). -/
def rc (t : Nat) : Bool := (lfsr (t % 255)).headD false

/-- The round constant: bit 2^j - 1 is rc(j + 7 ir). -/
def RC (ir : Nat) : BitVec 64 :=
  ((List.range 7).map fun j => if rc (j + 7 * ir) then BitVec.twoPow 64 (2 ^ j - 1) else 0).foldl (· ^^^ ·) 0

def iota (ir : Nat) (A : State) : State := fun x y => if x = 0 ∧ y = 0 then A 0 0 ^^^ RC ir else A x y

/-- Rounds 0, ..., n-1 of Keccak-f[1600]. -/
def rounds : Nat → State → State
  | 0, A => A
  | n + 1, A => iota n (chi (pi (rho (theta (rounds n A)))))

/-- Section 3.1: the lanes of a string of 200 bytes, low byte first. -/
def lanes (b : List Byte) : State := fun x y =>
  BitVec.ofNat 64 (((b.drop (8 * (5 * y + x))).take 8).reverse.foldl (fun v c => 256 * v + c.toNat) 0)

/-- The bytes of a state. -/
def bytes (A : State) : List Byte := (List.range 25).flatMap fun i => le 8 (A (i % 5) (i / 5)).toNat

/-- Keccak-f[1600] on bytes. -/
def f (b : List Byte) : List Byte := bytes (rounds 24 (lanes b))

/-- The message followed by the suffix and padded to a multiple of `r` bytes: the last bit is one. -/
def pad (r : Nat) (suffix : Byte) (m : List Byte) : List Byte :=
  let q := r - m.length % r
  m ++ if q = 1 then [suffix ||| 0x80] else suffix :: List.replicate (q - 2) 0 ++ [0x80]

/-- One block absorbed. -/
def absorb (s b : List Byte) : List Byte := f (List.zipWith (· ^^^ ·) s (b ++ List.replicate (200 - b.length) 0))

/-- The sponge with rate `r` bytes and output of at most one block. -/
def sponge (r : Nat) (suffix : Byte) (n : Nat) (m : List Byte) : List Byte :=
  (md r absorb (List.replicate 200 0) (pad r suffix m)).take n

/-- Keccak[c] with capacity 16 n bits and output of n bytes, for n < 67, as submitted to the SHA-3 competition. -/
def keccak (n : Nat) : List Byte → List Byte := sponge (200 - 2 * n) 0x01 n

/-- SHA3-224, SHA3-256, SHA3-384 and SHA3-512 of FIPS 202 section 6.1, for n = 28, 32, 48 and 64. -/
def sha3 (n : Nat) : List Byte → List Byte := sponge (200 - 2 * n) 0x06 n

end Wizard.Spec.Keccak

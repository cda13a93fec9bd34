import Verif.Model.Basic
/-!
FIPS 197, the Advanced Encryption Standard, transcribed: the field GF(2^8), the state transformations,
the key expansion, the cipher (section 5.1) and the inverse cipher (section 5.3).
-/
namespace Wizard.Spec.AES
open Wizard (Byte)

/-- FIPS 197, 4.2.1: multiplication by x modulo x^8 + x^4 + x^3 + x + 1. -/
def xtime (b : Byte) : Byte := if b.getLsbD 7 then (b <<< 1) ^^^ 0x1b else b <<< 1

/-- `x^i a`. -/
def xpow (a : Byte) : Nat → Byte
  | 0 => a
  | i + 1 => xtime (xpow a i)

/-- Multiplication in GF(2^8): the sum of `x^i a` over the bits `i` of `b`. -/
def gmul (a b : Byte) : Byte :=
  (List.range 8).foldl (fun s i => s ^^^ (if b.getLsbD i then xpow a i else 0)) 0

/-- `a^n`. -/
def gpow (a : Byte) : Nat → Byte
  | 0 => 1
  | n + 1 => gmul a (gpow a n)

/-- The multiplicative inverse, with 0 for 0: `a^254`. -/
def inverse (a : Byte) : Byte :=
  let a2 := gmul a a
  let a4 := gmul a2 a2
  let a8 := gmul a4 a4
  let a16 := gmul a8 a8
  let a32 := gmul a16 a16
  let a64 := gmul a32 a32
  let a128 := gmul a64 a64
  gmul a2 (gmul a4 (gmul a8 (gmul a16 (gmul a32 (gmul a64 a128)))))

/-- 5.1.1, equation 5.1: bit `i` is `b_i + b_(i+4) + b_(i+5) + b_(i+6) + b_(i+7) + c_i`. -/
def affine (b : Byte) : Byte :=
  b ^^^ b.rotateLeft 1 ^^^ b.rotateLeft 2 ^^^ b.rotateLeft 3 ^^^ b.rotateLeft 4 ^^^ 0x63

/-- The S-box. -/
def sbox (b : Byte) : Byte := affine (inverse b)

/-- The inverse S-box: the preimage under the S-box. -/
def invSbox (b : Byte) : Byte :=
  inverse (b.rotateLeft 1 ^^^ b.rotateLeft 3 ^^^ b.rotateLeft 6 ^^^ 0x05)

/-- The state: row, column. -/
abbrev State := Fin 4 → Fin 4 → Byte

/-- The expanded key: word index, byte of the word. -/
abbrev Schedule := Nat → Fin 4 → Byte

def subBytes (s : State) : State := fun r c => sbox (s r c)
def shiftRows (s : State) : State := fun r c => s r (c + r)
def mixColumns (s : State) : State := fun r c =>
  gmul 0x02 (s r c) ^^^ gmul 0x03 (s (r + 1) c) ^^^ s (r + 2) c ^^^ s (r + 3) c
def addRoundKey (w : Schedule) (round : Nat) (s : State) : State := fun r c =>
  s r c ^^^ w (4 * round + c) r

def invSubBytes (s : State) : State := fun r c => invSbox (s r c)
def invShiftRows (s : State) : State := fun r c => s r (c - r)
def invMixColumns (s : State) : State := fun r c =>
  gmul 0x0e (s r c) ^^^ gmul 0x0b (s (r + 1) c) ^^^ gmul 0x0d (s (r + 2) c) ^^^
    gmul 0x09 (s (r + 3) c)

/-- 5.1: rounds 1 .. n. -/
def rounds (w : Schedule) (s : State) : Nat → State
  | 0 => s
  | n + 1 => addRoundKey w (n + 1) (mixColumns (shiftRows (subBytes (rounds w s n))))

/-- 5.1 `Cipher`. -/
def cipher (nr : Nat) (w : Schedule) (s : State) : State :=
  addRoundKey w nr (shiftRows (subBytes (rounds w (addRoundKey w 0 s) (nr - 1))))

/-- 5.3: rounds n, n-1, .. 1 of the inverse cipher. -/
def invRounds (w : Schedule) : Nat → State → State
  | 0, s => s
  | n + 1, s => invRounds w n
      (invMixColumns (addRoundKey w (n + 1) (invSubBytes (invShiftRows s))))

/-- 5.3 `InvCipher`. -/
def invCipher (nr : Nat) (w : Schedule) (s : State) : State :=
  addRoundKey w 0 (invSubBytes (invShiftRows (invRounds w (nr - 1) (addRoundKey w nr s))))

/-- 5.2 `KeyExpansion` for a key of `nk` words. -/
def keyWord (nk : Nat) (key : Nat → Fin 4 → Byte) (i : Nat) (r : Fin 4) : Byte :=
  if h : i < nk ∨ nk = 0 then key i r
  else
    let temp := keyWord nk key (i - 1)
    let temp' : Fin 4 → Byte :=
      if i % nk = 0 then fun r =>  -- SubWord(RotWord(temp)) xor Rcon[i/nk]
        sbox (temp (r + 1)) ^^^ (if r = 0 then xpow 1 (i / nk - 1) else 0)
      else if nk > 6 ∧ i % nk = 4 then fun r => sbox (temp r)
      else temp
    keyWord nk key (i - nk) r ^^^ temp' r
termination_by i
decreasing_by all_goals omega

/-- 3.4: the bytes of a block fill the state column by column. -/
def toState (block : List Byte) : State := fun r c => block.getD (r + 4 * c) 0

/-- 3.4: and are taken from it in the same order. -/
def ofState (s : State) : List Byte :=
  [s 0 0, s 1 0, s 2 0, s 3 0, s 0 1, s 1 1, s 2 1, s 3 1,
   s 0 2, s 1 2, s 2 2, s 3 2, s 0 3, s 1 3, s 2 3, s 3 3]

/-- The standard's key sizes: words and rounds (figure 4). -/
def nr (nk : Nat) : Nat := nk + 6

/-- The key words of a key given as bytes. -/
def keyWords (key : List Byte) : Nat → Fin 4 → Byte := fun i r => key.getD (4 * i + r) 0

/-- Encryption of a block under a key of `nk` words. -/
def encrypt (nk : Nat) (key block : List Byte) : List Byte :=
  ofState (cipher (nr nk) (keyWord nk (keyWords key)) (toState block))

/-- Decryption of a block under a key of `nk` words. -/
def decrypt (nk : Nat) (key block : List Byte) : List Byte :=
  ofState (invCipher (nr nk) (keyWord nk (keyWords key)) (toState block))

end Wizard.Spec.AES

import Verif.Model.Cipher
/-! Vocabulary of the statements about cipher modes (C27-C31). -/
namespace Wizard

/-- Both block functions map blocks to blocks. -/
def BlockCipher.Sized (c : BlockCipher) : Prop :=
  ∀ b, b.length = c.blocksize →
    (c.encipher b).length = c.blocksize ∧ (c.decipher b).length = c.blocksize

/-- Decipherment of a block inverts encipherment. -/
def BlockCipher.Invertible (c : BlockCipher) : Prop :=
  ∀ b, b.length = c.blocksize → c.decipher (c.encipher b) = b

/-- A cipher of a block size up to the documented maximum, with a nonce made by the library. -/
structure CipherInfo.Ready (c : CipherInfo) : Prop where
  pos : 0 < c.cipher.blocksize
  le : c.cipher.blocksize ≤ maxCipherBlocksize
  nonce : c.nonce.WF
  nonceLength : c.nonce.length = c.cipher.blocksize
  sized : c.cipher.Sized

namespace Spec

/-- Bytes in the whole blocks that cover a message (CFB works on single bytes). -/
def covered (mode : CipherMode) (blocksize length : Nat) : Nat :=
  if mode = .cfb then length else (length + blocksize - 1) / blocksize * blocksize

/-- A byte string as a big-endian number. -/
def beNat (b : List Byte) : Nat := b.foldl (fun n x => 256 * n + x.toNat) 0

/-- The library's padding of `n` bytes: random bytes, then their number. -/
def padding (random : Nat → Byte) (n : Nat) : List Byte :=
  (List.range (n - 1)).map random ++ [BitVec.ofNat 8 (n - 1)]

/-! NIST SP 800-38A on lists of blocks, for a block function `E`. -/
namespace Modes

def xor (a b : List Byte) : List Byte := List.zipWith (· ^^^ ·) a b

/-- 6.1: `C_j = E(P_j)`. -/
def ecb (E : List Byte → List Byte) (ps : List (List Byte)) : List (List Byte) := ps.map E

/-- 6.2: `C_j = E(P_j xor C_{j-1})`, where `C_0` is the initialization vector. -/
def cbc (E : List Byte → List Byte) : List Byte → List (List Byte) → List (List Byte)
  | _, [] => []
  | iv, p :: ps => E (xor p iv) :: cbc E (E (xor p iv)) ps

/-- 6.3 with segments of 8 bits: `C_j = P_j xor MSB_8(E(I_j))`, `I_{j+1} = LSB(I_j) | C_j`. -/
def cfb8 (E : List Byte → List Byte) : List Byte → List Byte → List Byte
  | _, [] => []
  | iv, p :: ps => (p ^^^ (E iv).headD 0) :: cfb8 E (iv.tail ++ [p ^^^ (E iv).headD 0]) ps

/-- 6.4: `O_j = E(O_{j-1})`, `C_j = P_j xor O_j`. -/
def ofb (E : List Byte → List Byte) : List Byte → List (List Byte) → List (List Byte)
  | _, [] => []
  | iv, p :: ps => xor p (E iv) :: ofb E (E iv) ps

/-- The block of `size` bytes that is the big-endian representation of `n`. -/
def counterBlock (size n : Nat) : List Byte :=
  (List.range size).map fun i => BitVec.ofNat 8 (n / 256 ^ (size - 1 - i))

/-- 6.5: `C_j = P_j xor E(T_j)`, where the counter block `T_j` is the number `t + j - 1`. -/
def ctr (E : List Byte → List Byte) (size t : Nat) (ps : List (List Byte)) : List (List Byte) :=
  ps.mapIdx fun j p => xor p (E (counterBlock size (t + j)))

/-- Cut a byte string into blocks. -/
def blocks (size : Nat) : Nat → List Byte → List (List Byte)
  | 0, _ => []
  | n + 1, b => b.take size :: blocks size n (b.drop size)

/-- The encipherment of the byte string `m`, cut into `m.length / size` blocks of `size` bytes. -/
def encipher (mode : CipherMode) (E : List Byte → List Byte) (size : Nat) (iv m : List Byte) : List Byte :=
  match mode with
  | .ecb => (ecb E (blocks size (m.length / size) m)).flatten
  | .cbc => (cbc E iv (blocks size (m.length / size) m)).flatten
  | .cfb => cfb8 E iv m
  | .ofb => (ofb E iv (blocks size (m.length / size) m)).flatten
  | .ctr => (ctr E size (beNat iv) (blocks size (m.length / size) m)).flatten

/-- 6.2: `P_j = D(C_j) xor C_{j-1}`. -/
def cbcInv (D : List Byte → List Byte) : List Byte → List (List Byte) → List (List Byte)
  | _, [] => []
  | iv, c :: cs => xor (D c) iv :: cbcInv D c cs

/-- 6.3: `P_j = C_j xor MSB_8(E(I_j))`. -/
def cfb8Inv (E : List Byte → List Byte) : List Byte → List Byte → List Byte
  | _, [] => []
  | iv, c :: cs => (c ^^^ (E iv).headD 0) :: cfb8Inv E (iv.tail ++ [c]) cs

/-- The decipherment of the byte string `m`, a whole number of blocks. -/
def decipher (mode : CipherMode) (E D : List Byte → List Byte) (size : Nat) (iv m : List Byte) : List Byte :=
  match mode with
  | .ecb => (ecb D (blocks size (m.length / size) m)).flatten
  | .cbc => (cbcInv D iv (blocks size (m.length / size) m)).flatten
  | .cfb => cfb8Inv E iv m
  | .ofb => (ofb E iv (blocks size (m.length / size) m)).flatten
  | .ctr => (ctr E size (beNat iv) (blocks size (m.length / size) m)).flatten

end Modes
end Spec
end Wizard

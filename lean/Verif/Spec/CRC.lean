import Verif.Spec.Hash
/-! The 64-bit cyclic redundancy check of ISO 3309 (HDLC): the remainder of the message polynomial times x^64 modulo
x^64 + x^4 + x^3 + x + 1, the low bit of each byte first, with neither preset nor final complement. -/
namespace Wizard.Spec.CRC
open Hash

/-- The bits of a message in the order in which they are sent: the low bit of each byte first. -/
def bits (m : List Byte) : List Bool := m.flatMap fun b => (List.range 8).map fun i => b.getLsbD i

/-- From the remainder of M x^64 to that of (M x + b) x^64; bit `i` is the coefficient of x^i, and x^64 is congruent
to x^4 + x^3 + x + 1. -/
def step (r : BitVec 64) (b : Bool) : BitVec 64 := (r <<< 1) ^^^ (if r.msb != b then 0x1b#64 else 0#64)

/-- The remainder of the message. -/
def remainder (m : List Byte) : BitVec 64 := (bits m).foldl step 0

/-- The checksum, sent with the coefficient of x^63 as the low bit, as eight bytes with the most significant first. -/
def crc64 (m : List Byte) : List Byte := be 8 (remainder m).reverse.toNat

/-- The bits in which two messages differ lie within `n` consecutive bits. -/
def Burst (n : Nat) (a b : List Byte) : Prop :=
  a.length = b.length ∧ ∃ k, ∀ i, (bits a)[i]? ≠ (bits b)[i]? → k ≤ i ∧ i < k + n

end Wizard.Spec.CRC

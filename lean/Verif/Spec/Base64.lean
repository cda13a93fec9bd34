import Verif.Model.Basic
/-! Specification of base-64 (RFC 4648), in arithmetic. -/
namespace Wizard.Spec
open Wizard

/-- The value of an alphabet character: A-Z, a-z, 0-9, +, /. -/
def sextet (c : Byte) : Option Nat :=
  let n := c.toNat
  if 65 ≤ n ∧ n ≤ 90 then some (n - 65)
  else if 97 ≤ n ∧ n ≤ 122 then some (n - 97 + 26)
  else if 48 ≤ n ∧ n ≤ 57 then some (n - 48 + 52)
  else if n = 43 then some 62
  else if n = 47 then some 63
  else none

/-- The byte with value `n` (`n < 256` in all uses). -/
def byteOf (n : Nat) : Byte := BitVec.ofNat 8 n

/-- `B64 text bytes`: `text` (without white space) is complete 4-character groups, each carrying the
24 bits of three bytes, the last one possibly padded with one or two `=` and zero unused bits. -/
inductive B64 : List Byte → List Byte → Prop
  | nil : B64 [] []
  | full {a b c d x y z w r bs} : sextet a = some x → sextet b = some y → sextet c = some z →
      sextet d = some w → B64 r bs →
      B64 (a :: b :: c :: d :: r)
        (byteOf (x * 4 + y / 16) :: byteOf (y % 16 * 16 + z / 4) :: byteOf (z % 4 * 64 + w) :: bs)
  | pad1 {a b c x y z} : sextet a = some x → sextet b = some y → sextet c = some z →
      z % 4 = 0 →
      B64 [a, b, c, asc '='] [byteOf (x * 4 + y / 16), byteOf (y % 16 * 16 + z / 4)]
  | pad2 {a b x y} : sextet a = some x → sextet b = some y → y % 16 = 0 →
      B64 [a, b, asc '=', asc '='] [byteOf (x * 4 + y / 16)]

/-- White space of the "C" locale. -/
def IsBlank (c : Byte) : Prop := c.toNat = 32 ∨ (9 ≤ c.toNat ∧ c.toNat ≤ 13)

instance (c : Byte) : Decidable (IsBlank c) := by unfold IsBlank; infer_instance

/-- The text with its white space removed. -/
def unblank (s : List Byte) : List Byte := s.filter (fun c => ¬ IsBlank c)

end Wizard.Spec

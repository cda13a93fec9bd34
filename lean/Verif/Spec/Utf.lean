import Verif.Model.Basic
/-! UTF-16 and UTF-8 (RFC 2781, RFC 3629). -/
namespace Wizard.Spec.Utf
open Wizard

/-- A Unicode scalar value. -/
def Scalar (c : Nat) : Prop := c < 0xD800 ∨ (0xDFFF < c ∧ c < 0x110000)

instance (c : Nat) : Decidable (Scalar c) := by unfold Scalar; infer_instance

/-- The UTF-16 code units of a scalar value. -/
def units (c : Nat) : List Nat := if c < 0x10000 then [c] else [0xD800 + (c - 0x10000) / 1024, 0xDC00 + (c - 0x10000) % 1024]

/-- A code unit as two bytes, big- or little-endian. -/
def unitBytes (big : Bool) (u : Nat) : List Byte :=
  if big then [BitVec.ofNat 8 (u / 256), BitVec.ofNat 8 (u % 256)] else [BitVec.ofNat 8 (u % 256), BitVec.ofNat 8 (u / 256)]

/-- A text in UTF-16, without the byte order mark. -/
def utf16 (big : Bool) (text : List Nat) : List Byte := text.flatMap (fun c => (units c).flatMap (unitBytes big))

/-- The byte order mark. -/
def bom (big : Bool) : List Byte := if big then [0xFE, 0xFF] else [0xFF, 0xFE]

/-- A scalar value in UTF-8. -/
def utf8Char (c : Nat) : List Byte :=
  if c < 0x80 then [BitVec.ofNat 8 c]
  else if c < 0x800 then [BitVec.ofNat 8 (0xC0 + c / 64), BitVec.ofNat 8 (0x80 + c % 64)]
  else if c < 0x10000 then [BitVec.ofNat 8 (0xE0 + c / 4096), BitVec.ofNat 8 (0x80 + c / 64 % 64), BitVec.ofNat 8 (0x80 + c % 64)]
  else [BitVec.ofNat 8 (0xF0 + c / 262144), BitVec.ofNat 8 (0x80 + c / 4096 % 64), BitVec.ofNat 8 (0x80 + c / 64 % 64), BitVec.ofNat 8 (0x80 + c % 64)]

/-- A text in UTF-8. -/
def utf8 (text : List Nat) : List Byte := text.flatMap utf8Char

end Wizard.Spec.Utf

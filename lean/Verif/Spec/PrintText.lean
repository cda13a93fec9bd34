import Verif.Model.PrintText
/-! What is printed of a string. -/
namespace Wizard.Spec.PrintText
open Wizard

/-- Text: tabs, line ends and the like, and the bytes from 32 to 127. -/
def IsText (datum : List Byte) : Prop := ∀ b ∈ datum, (9 ≤ b.toNat ∧ b.toNat ≤ 13) ∨ (32 ≤ b.toNat ∧ b.toNat ≤ 127)

/-- The two digits of a byte. -/
def digits : List Char := ['0', '1', '2', '3', '4', '5', '6', '7', '8', '9', 'a', 'b', 'c', 'd', 'e', 'f']

def twoDigits (b : Byte) : List Byte := [asc (digits.getD (b.toNat / 16) ' '), asc (digits.getD (b.toNat % 16) ' ')]

/-- What is to be printed: the name, the length, and the bytes. -/
inductive Shows (id datum : List Byte) : List Byte → Prop
  | text : IsText datum → Shows id datum (id ++ [asc '('] ++ decText datum.length ++ [asc ')', asc ':', 10] ++ datum ++ [10])
  | bytes : ¬IsText datum → Shows id datum (id ++ [asc '('] ++ decText datum.length ++ [asc ')', asc ':', 10] ++ datum.flatMap twoDigits ++ [10])

end Wizard.Spec.PrintText

import Verif.Model.Basic
/-! Hexadecimal conversion of byte strings (string.c). -/
namespace Wizard

/-- string.c:2003-2018, the table `hex_digits` of `StringInfoToHexString`. -/
def hexDigitsOut : List Byte :=
  [asc '0', asc '1', asc '2', asc '3', asc '4', asc '5', asc '6', asc '7',
   asc '8', asc '9', asc 'a', asc 'b', asc 'c', asc 'd', asc 'e', asc 'f']

/-- string.c:2023-2024, one lookup. The index is masked to 0..15, so the default is never used. -/
def hexDigitOut (i : Byte) : Byte := hexDigitsOut.getD i.toNat 0

/-- string.c:1977-2029 `StringInfoToHexString`, on the `length` bytes of the string; the
terminating NUL (line 2027) is implicit. -/
def stringInfoToHexString : List Byte → List Byte
  | [] => []
  | b :: bs =>
    hexDigitOut ((b >>> 4) &&& 0x0f) :: hexDigitOut (b &&& 0x0f) :: stringInfoToHexString bs

/-- string.c:1356-1378, the table `hex_digits` of `HexStringToStringInfo`: zero except for the
assigned digits. -/
def hexDigitIn (c : Byte) : Byte :=
  if asc '0' ≤ c ∧ c ≤ asc '9' then c - asc '0'
  else if asc 'a' ≤ c ∧ c ≤ asc 'f' then c - asc 'a' + 10
  else if asc 'A' ≤ c ∧ c ≤ asc 'F' then c - asc 'A' + 10
  else 0

/-- string.c:1338-1389 `HexStringToStringInfo`: `strlen/2` bytes, two digits each; an odd last
digit is ignored. -/
def hexStringToStringInfo : List Byte → List Byte
  | a :: b :: rest => ((hexDigitIn a <<< 4) ||| hexDigitIn b) :: hexStringToStringInfo rest
  | _ => []

end Wizard

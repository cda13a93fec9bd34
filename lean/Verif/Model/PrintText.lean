import Verif.Model.Packet

/-! Printing strings (string.c). -/
namespace Wizard

/-- string.c:1668-1685 `PrintWizardString`: the formatted text goes to an array of `WizardPathExtent` bytes (C library `vsnprintf`: all of it that fits, and a NUL), then as many bytes of the
array are written as the text has, not as the array has.  `junk` is what is in the array before; the text is given, writing succeeds. -/
def printWizardString (junk text : List Byte) : Res (List Byte) :=
  let kept := text.take (wizardPathExtent - 1)
  let array := kept ++ [0] ++ junk.drop (kept.length + 1)
  rdN array 0 text.length

/-- A digit of `%02lx`. -/
def lowHex (n : Nat) : Byte := BitVec.ofNat 8 (if n < 10 then 48 + n else 87 + n)

/-- `%02lx` of a byte. -/
def hexPair (b : Byte) : List Byte := [lowHex (b.toNat / 16), lowHex (b.toNat % 16)]

/-- string.c:1724-1727: a byte that is text; `isspace` in the C locale. -/
def textByte (b : Byte) : Bool := !(decide (b.toNat < 32) && !isSpaceC b) && decide (b.toNat < 128)

/-- string.c:1731-1735: the bytes one by one. -/
def printBytes (junk : List Byte) (form : Byte → List Byte) : List Byte → Res (List Byte)
  | [] => .ok []
  | b :: t => do
    let a ← printWizardString junk (form b)
    let r ← printBytes junk form t
    .ok (a ++ r)

/-- string.c:1712-1737 `PrintStringInfo`; what `id` points to is `id` before its NUL.  The length is a `double`, so this is for lengths below 2^53. -/
def printStringInfo (junk id datum : List Byte) : Res (List Byte) := do
  let head ← printWizardString junk (id ++ [asc '('] ++ decText datum.length ++ [asc ')', asc ':', 10])
  let body ← printBytes junk (if datum.all textByte then fun b => [b] else hexPair) datum
  let last ← printWizardString junk [10]
  .ok (head ++ body ++ last)

end Wizard

import Verif.Model.Basic
/-! What stripping a text means (C12), independent of the model. -/
namespace Wizard.Spec.Strip

/-- White space: blank, tab, line feed, vertical tab, form feed, carriage return. -/
def blank (c : Byte) : Bool := [0x20, 0x09, 0x0a, 0x0b, 0x0c, 0x0d].contains c

/-- A single or double quotation mark. -/
def quote (c : Byte) : Bool := [0x27, 0x22].contains c

/-- Line feeds become blanks, other characters stay. -/
def unline (c : Byte) : Byte := if c = 0x0a then 0x20 else c

/-- Trailing white space removed. -/
def rstrip (s : List Byte) : List Byte := (s.reverse.dropWhile blank).reverse

/-- A closing quotation mark removed. -/
def unclose (s : List Byte) : List Byte :=
  match s.getLast? with
  | some d => if quote d then s.dropLast else s
  | none => s

/-- An opening quotation mark removed. -/
def unopen : List Byte → List Byte
  | [] => []
  | c :: r => if quote c then r else c :: r

/-- What `StripString` does to a text: leading white space goes, then one opening quote; then, never
touching the first remaining character, trailing white space and one closing quote. -/
def strip (s : List Byte) : List Byte :=
  match unopen (s.dropWhile blank) with
  | [] => []
  | c :: r => (c :: unclose (rstrip r)).map unline

end Wizard.Spec.Strip

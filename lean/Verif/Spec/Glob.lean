import Verif.Model.Basic
/-! Specification of glob patterns: abstract patterns, their text, and what they match. -/
namespace Wizard.Spec
open Wizard

/-- An item of a character class: one character, or a range. -/
inductive Item where
  | chr (c : Byte)
  | rng (lo hi : Byte)

/-- An element of a pattern. -/
inductive Elem where
  /-- an ordinary character -/
  | lit (c : Byte)
  /-- backslash and a character, which stands for itself -/
  | esc (c : Byte)
  /-- `?` -/
  | any
  /-- `*` -/
  | star
  /-- `[...]` -/
  | cls (items : List Item)

/-- The text of an item / element / pattern. -/
def Item.text : Item → List Byte
  | .chr c => [c]
  | .rng lo hi => [lo, asc '-', hi]

def Elem.text : Elem → List Byte
  | .lit c => [c]
  | .esc c => [asc '\\', c]
  | .any => [asc '?']
  | .star => [asc '*']
  | .cls items => asc '[' :: (items.flatMap Item.text ++ [asc ']'])

def patternText (ps : List Elem) : List Byte := ps.flatMap Elem.text

/-- Well-formed: ordinary characters are not special, class characters are not `]`, `\`, `-`, and
nothing is NUL. -/
def ClassChar (c : Byte) : Prop := c ≠ 0 ∧ c ≠ asc ']' ∧ c ≠ asc '\\' ∧ c ≠ asc '-'

def Item.WF : Item → Prop
  | .chr c => ClassChar c
  | .rng lo hi => ClassChar lo ∧ ClassChar hi

def Elem.WF : Elem → Prop
  | .lit c => c ≠ 0 ∧ c ≠ asc '*' ∧ c ≠ asc '?' ∧ c ≠ asc '[' ∧ c ≠ asc '{' ∧ c ≠ asc '\\'
  | .esc c => c ≠ 0
  | .any => True
  | .star => True
  | .cls items => ∀ i ∈ items, i.WF

/-- A character is in an item; ranges compare as (signed) `char`. -/
def Item.Has (x : Byte) : Item → Prop
  | .chr c => x = c
  | .rng lo hi => lo.toInt ≤ x.toInt ∧ x.toInt ≤ hi.toInt

/-- ASCII case folding. -/
def foldAscii (c : Byte) : Byte := if 65 ≤ c.toNat ∧ c.toNat ≤ 90 then c + 32 else c

/-- Same character, up to ASCII case if `ci`. -/
def Same (ci : Bool) (x c : Byte) : Prop := if ci then foldAscii x = foldAscii c else x = c

/-- The text `t` matches the pattern. -/
inductive Matches (ci : Bool) : List Elem → List Byte → Prop
  | nil : Matches ci [] []
  | lit {c x ps t} : Same ci x c → Matches ci ps t → Matches ci (.lit c :: ps) (x :: t)
  | esc {c x ps t} : Same ci x c → Matches ci ps t → Matches ci (.esc c :: ps) (x :: t)
  | any {x ps t} : Matches ci ps t → Matches ci (.any :: ps) (x :: t)
  | cls {items x ps t} : (∃ i ∈ items, i.Has x) → Matches ci ps t →
      Matches ci (.cls items :: ps) (x :: t)
  | star {u ps t} : Matches ci ps t → Matches ci (.star :: ps) (u ++ t)

end Wizard.Spec

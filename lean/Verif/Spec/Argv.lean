import Verif.Model.StringOps
/-! How arguments are written in a text. -/
namespace Wizard.Spec.Argv
open Wizard

/-- White space. -/
def Blank (s : List Byte) : Prop := ∀ c ∈ s, isSpace c = true

/-- An argument and how it is written: as it is, if it is not empty, has no white space and does not begin with a quote; or in quotes it does not have. -/
inductive Word : List Byte → List Byte → Prop
  | bare {c w} : (∀ x ∈ c :: w, isSpace x = false) → c ≠ 34 → c ≠ 39 → Word (c :: w) (c :: w)
  | double {w} : (34 : Byte) ∉ w → Word (34 :: (w ++ [34])) w
  | single {w} : (39 : Byte) ∉ w → Word (39 :: (w ++ [39])) w

/-- A text and its arguments: words with white space between them, and perhaps before and behind them. -/
inductive Written : List Byte → List (List Byte) → Prop
  | none {s} : Blank s → Written s []
  | word {s t w r ws} : Blank s → Word t w → (r = [] ∨ ∃ c r', r = c :: r' ∧ isSpace c = true) → Written r ws → Written (s ++ t ++ r) (w :: ws)

end Wizard.Spec.Argv

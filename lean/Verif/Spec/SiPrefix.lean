import Verif.Model.SiPrefix
/-! What numbers with units mean. -/
namespace Wizard.Spec.SiPrefix
open Wizard

/-- Decimal digits, the first one first. -/
abbrev Digits := List (Fin 10)

/-- How digits are written. -/
def written (ds : Digits) : List Byte := ds.map fun d => BitVec.ofNat 8 (48 + d.val)

/-- The number that they stand for. -/
def number (ds : Digits) : Nat := ds.foldl (fun n d => 10 * n + d.val) 0

/-- The prefixes and what they multiply with, by the International System of Units and by IEC 80000-13. -/
def factor : List (List Char × Nat) :=
  [([], 1), (['h'], 10 ^ 2), (['k'], 10 ^ 3), (['K'], 10 ^ 3), (['M'], 10 ^ 6), (['G'], 10 ^ 9), (['T'], 10 ^ 12), (['P'], 10 ^ 15), (['E'], 10 ^ 18), (['Z'], 10 ^ 21), (['Y'], 10 ^ 24),
   (['k', 'i'], 1024), (['K', 'i'], 1024), (['M', 'i'], 1024 ^ 2), (['G', 'i'], 1024 ^ 3), (['T', 'i'], 1024 ^ 4), (['P', 'i'], 1024 ^ 5), (['E', 'i'], 1024 ^ 6), (['Z', 'i'], 1024 ^ 7),
   (['Y', 'i'], 1024 ^ 8)]

/-- The prefixes that divide, with what they divide by. -/
def divisor : List (Char × Nat) :=
  [('d', 10), ('c', 10 ^ 2), ('m', 10 ^ 3), ('u', 10 ^ 6), ('n', 10 ^ 9), ('p', 10 ^ 12), ('f', 10 ^ 15), ('a', 10 ^ 18), ('z', 10 ^ 21), ('y', 10 ^ 24)]

/-- A value is the fraction `p / q`. -/
def Is (v : SiNum) (p : Int) (q : Nat) : Prop :=
  v.thirds % 3 = 0 ∧ (if v.neg then -1 else 1) * (v.mant : Int) * 2 ^ (v.thirds / 3) * 10 ^ v.ten.toNat * q = p * 10 ^ (-v.ten).toNat

/-- What follows a number and its unit: nothing, a space or one of the bytes before `+`, such as `%`. -/
def Ends (rest : List Byte) : Prop := ∀ b, rest.head? = some b → b.toNat < 43

end Wizard.Spec.SiPrefix

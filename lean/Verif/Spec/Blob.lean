import Verif.Model.Basic
/-! Reading and writing a stream in pieces. -/
namespace Wizard.Spec.Blob
open Wizard

/-- Requests for so many bytes are served from the front of what is left. -/
def served : List Byte → List Nat → List (List Byte)
  | _, [] => []
  | rest, n :: ns => rest.take n :: served (rest.drop n) ns

/-- Whether one of the requests could not be satisfied in full. -/
def denied : List Byte → List Nat → Prop
  | _, [] => False
  | rest, n :: ns => rest.length < n ∨ denied (rest.drop n) ns

end Wizard.Spec.Blob

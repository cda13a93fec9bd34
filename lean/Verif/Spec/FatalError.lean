import Verif.Model.FatalError
import Verif.Spec.Report
/-! What is to be seen of fatal errors. -/
namespace Wizard.Spec.FatalError
open Wizard Wizard.Spec.Report

/-- The handler of a kind that was set last. -/
def lastHandler (k : Handler) : List (Handler × Installed) → Installed
  | cs => match (cs.filter fun c => c.1 = k).getLast? with
    | none => .standard
    | some c => c.2

/-- The client's name: the last that is not empty, `Wizard` before. -/
def clientName (names : List (Option (List Byte))) : List Byte :=
  match (names.filter fun n => n ≠ none ∧ n ≠ some []).getLast? with
  | some (some n) => n.take 4095
  | _ => ascText "Wizard"

/-- The line that tells a fatal error. -/
def line (client : List Byte) (r : Report) : List Byte := client ++ ascText ": " ++ told r ++ ascText ".\n"

/-- The severities of fatal errors (exception.h:102-121): 700, 705, … 795. -/
def IsFatal (severity : Nat) : Prop := 700 ≤ severity ∧ severity ≤ 795 ∧ severity % 5 = 0

/-- A status that tells the domain and the error. -/
def Tells (status domain error : Nat) : Prop := status / 8 = domain ∧ status % 8 = error

end Wizard.Spec.FatalError

import Verif.Model.Report
import Verif.Spec.Exception
/-! What a reported exception should say, and how it should be logged. -/
namespace Wizard.Spec.Report
open Wizard Wizard.Spec.Exc

/-- The reason, and where it was found. -/
def told (r : Report) : List Byte := r.reason ++ ascText " @ " ++ r.file ++ ascText "/" ++ r.function ++ ascText "/" ++ decText r.line

/-- Without NUL, and short enough for the buffer of 4096 bytes. -/
def Short (r : Report) : Prop := (0 : Byte) ∉ told r ∧ (told r).length < 4096

/-- What should be recorded. -/
def elem (r : Report) : ExcElem := ⟨r.severity, some (told r), none⟩

/-- The kind of event that belongs to a severity: errors (400 and above) are exceptions. -/
def kindOf (severity : Nat) : LogKind := if 400 ≤ severity then .exception else .warning

/-- How a report should be logged. -/
def logged (r : Report) : LoggedEvent := ⟨kindOf r.severity, r.file, r.function, r.line, r.reason⟩

/-- A place that can be read back: neither the file nor the function has a slash, and the file no blank. -/
def Place (r : Report) : Prop := asc '/' ∉ r.file ∧ asc '/' ∉ r.function ∧ asc ' ' ∉ r.file

end Wizard.Spec.Report

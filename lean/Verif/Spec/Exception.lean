import Verif.Model.Exception
/-! What a program expects of exception logs. -/
namespace Wizard.Spec.Exc
open Wizard

/-- Equal but for letter case. -/
def same (fold : Byte → Byte) (a b : ExcElem) : Prop :=
  a.severity = b.severity ∧ a.reason.map (·.map fold) = b.reason.map (·.map fold) ∧
    a.description.map (·.map fold) = b.description.map (·.map fold)

instance (fold : Byte → Byte) (a b : ExcElem) : Decidable (same fold a b) := by unfold same; infer_instance

/-- An exception is recorded unless it is the last one again. -/
def record (fold : Byte → Byte) (l : List ExcElem) (e : ExcElem) : List ExcElem :=
  match l.getLast? with
  | some p => if same fold p e then l else l ++ [e]
  | none => [e]

/-- The severity to report: that of the most recent exception. -/
def reported (l : List ExcElem) : Nat :=
  match l.getLast? with
  | some p => p.severity
  | none => 0

/-- Where an exception belongs. -/
def deliver (p : ExcElem) : List (Handler × ExcElem) :=
  if p.severity < 300 then [] else if p.severity < 400 then [(.warning, p)] else if p.severity < 700 then [(.error, p)] else [(.fatal, p)]

/-- The logs of all exceptions and the deliveries so far. -/
structure Logs where
  log : Nat → List ExcElem
  calls : List (Handler × ExcElem)

/-- Each call, on logs. -/
def step (fold : Byte → Byte) (s : Logs) : ExcOp → Logs
  | .throw k e => { s with log := fun i => if i = k then record fold (s.log k) e else s.log i }
  | .clear k => { s with log := fun i => if i = k then [] else s.log i }
  | .caught k => { log := fun i => if i = k then [] else s.log i, calls := s.calls ++ (s.log k).flatMap deliver }
  | .inherit k j => { s with log := fun i => if i = k then (s.log j).foldl (record fold) (s.log k) else s.log i }

end Wizard.Spec.Exc

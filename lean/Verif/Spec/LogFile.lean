import Verif.Spec.Xml
import Verif.Model.LogFile
/-! What log files contain. -/
namespace Wizard.Spec.Log
open Wizard

/-- From opening a log file to closing it. -/
structure Session where
  name : List Byte
  /-- The file is new. -/
  fresh : Bool
  events : List (List Byte)
  closed : Bool

/-- The line of an event. -/
def line (t : List Byte) : List Byte := ascText "  <event>" ++ t ++ ascText "</event>\n"

/-- What a session writes. -/
def Session.text (s : Session) : List Byte :=
  (if s.fresh then ascText "<?xml version=\"1.0\" encoding=\"UTF-8\" standalone=\"yes\"?>\n" else []) ++ ascText "<log>\n" ++ s.events.flatMap line ++
    (if s.closed then ascText "</log>\n" else [])

/-- What sessions add to the file `n`. -/
def written (n : List Byte) (ss : List Session) : List Byte := (ss.filter (fun s => s.name == n)).flatMap Session.text

/-- The files tell the events `logged`: there is a series of sessions, one generation each, of all these events in their order, each but
the last ended, of at least one event each; every file is what it was before, followed by its sessions; the head of a document is written
when the file is new; and each new file is within the limit but for its last entry and its end. -/
def Tells (names : Nat → List Byte) (limit : Nat) (before after : LogSink) (logged : List (List Byte)) : Prop :=
  ∃ ss : List Session,
    ss.flatMap Session.events = logged ∧
    ss.map Session.name = (List.range ss.length).map (fun i => names (before.generation + i)) ∧
    (∀ a s b, ss = a ++ s :: b → s.events ≠ [] ∧ (b ≠ [] → s.closed = true) ∧
      (s.fresh = true ↔ before.disk s.name = none ∧ ∀ x ∈ a, x.name ≠ s.name) ∧
      (s.fresh = true → 2 ≤ s.events.length → ({ s with events := s.events.dropLast, closed := false } : Session).text.length ≤ 1024 * 1024 * limit)) ∧
    ∀ n, after.disk n = if ss.any (fun s => s.name == n) then some ((before.disk n).getD [] ++ written n ss) else before.disk n

end Wizard.Spec.Log

import Verif.Model.Exception
import Verif.Model.Packet

/-! exception.c:997-1044 `ThrowWizardException`: an exception is logged and recorded.  What `vsnprintf` makes of the format and its
operands is given; lines are below 2^53, so that `%.20g` of a `double` is their decimal text. -/
namespace Wizard

/-- What is reported: the severity, the formatted reason, and the place in the source. -/
structure Report where
  severity : Nat
  reason : List Byte
  file : List Byte
  function : List Byte
  line : Nat
  deriving DecidableEq

/-- log.h:50, 62: the two kinds of event that are used. -/
inductive LogKind where
  | warning
  | exception
  deriving DecidableEq

/-- A call of `LogWizardEvent`. -/
structure LoggedEvent where
  kind : LogKind
  file : List Byte
  function : List Byte
  line : Nat
  text : List Byte
  deriving DecidableEq

/-- exception.c:1023-1024: the message that is recorded. -/
def reportMessage (reason : List Byte) (r : Report) : List Byte :=
  inMessage (reason ++ ascText " @ " ++ r.file ++ ascText "/" ++ r.function ++ ascText "/" ++ decText r.line)

/-- exception.c:997-1027 `ThrowWizardExceptionList`: the exception afterwards and what was given to the log.  The kind of event
depends on the severity the exception has before (line 1021). -/
def reportException (fold : Byte → Byte) (x : ExcInfo) (r : Report) : Res (ExcInfo × LoggedEvent) := do
  let reason := inMessage r.reason
  let kind := if x.severity ≥ errorException then LogKind.exception else LogKind.warning
  let y ← throwException fold x ⟨r.severity, some (reportMessage reason r), none⟩
  .ok (y, ⟨kind, r.file, r.function, r.line, reason⟩)

/-- Reports one after the other. -/
def reportAll (fold : Byte → Byte) : ExcInfo → List Report → Res (ExcInfo × List LoggedEvent)
  | x, [] => .ok (x, [])
  | x, r :: rs => do
    let a ← reportException fold x r
    let b ← reportAll fold a.1 rs
    .ok (b.1, a.2 :: b.2)

end Wizard

import Verif.Model.StringOps
/-!
The exception log of wizard/exception.c.  The linked list of exceptions is the list of its elements (`C13`: the linked list behaves
like one); allocations succeed; the semaphores are not modelled (a call is atomic).  `exceptions` is not NULL, as after
`AcquireExceptionInfo` and until `DestroyExceptionInfo`.
-/
namespace Wizard

/-- exception.c:56-77, as used for an element of the list: severity (exception.h:59-122), reason and description (`none` is NULL). -/
structure ExcElem where
  severity : Nat
  reason : Option (List Byte)
  description : Option (List Byte)
deriving DecidableEq

/-- exception.c:56-77 `struct _ExceptionInfo`. -/
structure ExcInfo where
  severity : Nat
  reason : Option (List Byte)
  description : Option (List Byte)
  log : List ExcElem

/-- exception.h:61-62, 82, 102. -/
def warningException : Nat := 300
def errorException : Nat := 400
def fatalErrorException : Nat := 700

/-- exception.c:125-138 `AcquireExceptionInfo` and 438-446 `GetExceptionInfo`. -/
def acquireExceptionInfo : ExcInfo := ⟨0, none, none, []⟩

/-- exception.c:940-956: append the element and report it. -/
def ExcInfo.push (x : ExcInfo) (e : ExcElem) : ExcInfo :=
  { severity := e.severity, reason := e.reason, description := e.description, log := x.log ++ [e] }

/-- exception.c:920-959 `ThrowException`. -/
def throwException (fold : Byte → Byte) (x : ExcInfo) (e : ExcElem) : Res ExcInfo :=
  match x.log.getLast? with
  | none => .ok (x.push e)
  | some p =>
    if p.severity = e.severity then do
      let r ← localeCompare fold x.reason e.reason
      if r = 0 then do
        let d ← localeCompare fold x.description e.description
        if d = 0 then .ok x else .ok (x.push e)
      else .ok (x.push e)
    else .ok (x.push e)

/-- exception.c:178-201 `ClearWizardException`. -/
def clearException (_ : ExcInfo) : ExcInfo := ⟨0, none, none, []⟩

/-- exception.c:659-682 `InheritException`: the loop over the other log (of another exception: the loop would follow a list that grows
if it were the same one, and the lock would be taken twice). -/
def inheritException (fold : Byte → Byte) (x : ExcInfo) : List ExcElem → Res ExcInfo
  | [] => .ok x
  | p :: ps => do
    let x ← throwException fold x p
    inheritException fold x ps

/-- The three handlers (exception.c:98-105). -/
inductive Handler where
  | warning
  | error
  | fatal
deriving DecidableEq

/-- exception.c:239-249: the calls of the handlers, and whether one of them ended the process.  `severity` is that of the exception
(line 245), `exits` says for which exceptions the fatal handler does not return (323-335: for those with a reason, by default). -/
def catchLoop (exits : ExcElem → Bool) (severity : Nat) : List ExcElem → List (Handler × ExcElem) × Bool
  | [] => ([], false)
  | p :: ps =>
    let w := if p.severity ≥ warningException ∧ p.severity < errorException then [(Handler.warning, p)] else []
    let e := if p.severity ≥ errorException ∧ p.severity < fatalErrorException then [(Handler.error, p)] else []
    if severity ≥ fatalErrorException then
      if exits p then (w ++ e ++ [(Handler.fatal, p)], true)
      else
        let r := catchLoop exits severity ps
        (w ++ e ++ [(Handler.fatal, p)] ++ r.1, r.2)
    else
      let r := catchLoop exits severity ps
      (w ++ e ++ r.1, r.2)

/-- exception.c:226-252 `CatchException`: the calls, and the exception afterwards (`none`: the process has ended). -/
def catchException (exits : ExcElem → Bool) (x : ExcInfo) : List (Handler × ExcElem) × Option ExcInfo :=
  let r := catchLoop exits x.severity x.log
  (r.1, if r.2 then none else some (clearException x))

/-- The calls a program can make, with any number of exceptions. -/
inductive ExcOp where
  | throw (k : Nat) (e : ExcElem)
  | clear (k : Nat)
  | caught (k : Nat)
  | inherit (k j : Nat)

/-- All exceptions of a program, and the calls of handlers so far. -/
structure ExcWorld where
  info : Nat → ExcInfo
  calls : List (Handler × ExcElem)

/-- One call; `.fatal` is the end of the process. -/
def excStep (fold : Byte → Byte) (exits : ExcElem → Bool) (w : ExcWorld) : ExcOp → Res ExcWorld
  | .throw k e => do
    let x ← throwException fold (w.info k) e
    .ok { w with info := fun i => if i = k then x else w.info i }
  | .clear k => .ok { w with info := fun i => if i = k then clearException (w.info k) else w.info i }
  | .caught k =>
    let r := catchException exits (w.info k)
    match r.2 with
    | none => .fatal
    | some x => .ok { info := fun i => if i = k then x else w.info i, calls := w.calls ++ r.1 }
  | .inherit k j => do
    let x ← inheritException fold (w.info k) (w.info j).log
    .ok { w with info := fun i => if i = k then x else w.info i }

/-- A history. -/
def excRun (fold : Byte → Byte) (exits : ExcElem → Bool) (w : ExcWorld) : List ExcOp → Res ExcWorld
  | [] => .ok w
  | op :: ops => do
    let w ← excStep fold exits w op
    excRun fold exits w ops

end Wizard

import Verif.Model.Report

/-! How fatal errors end a program: the handlers of exception.c and the macros of exception-private.h. -/
namespace Wizard

/-- exception.c:98-105: what a handler is: the standard one, a function of the program, or NULL. -/
inductive Installed where
  | standard
  | own (n : Nat)
  | null
  deriving DecidableEq

/-- exception.c:98-105: the three handlers. -/
structure Handlers where
  warning : Installed
  error : Installed
  fatal : Installed
  deriving DecidableEq

/-- exception.c:98-105: as programs start. -/
def firstHandlers : Handlers := ⟨.standard, .standard, .standard⟩

/-- The handler of a kind. -/
def Handlers.get (hs : Handlers) : Handler → Installed
  | .warning => hs.warning
  | .error => hs.error
  | .fatal => hs.fatal

/-- exception.c:813-821 `SetErrorHandler`, 846-854 `SetFatalErrorHandler`, 879-887 `SetWarningHandler`: what is returned, and the handlers afterwards. -/
def setHandler (k : Handler) (handler : Installed) (hs : Handlers) : Installed × Handlers :=
  match k with
  | .warning => (hs.warning, { hs with warning := handler })
  | .error => (hs.error, { hs with error := handler })
  | .fatal => (hs.fatal, { hs with fatal := handler })

/-- Calls of these, one after the other: what each returned, and the handlers afterwards. -/
def setHandlers : List (Handler × Installed) → Handlers → List Installed × Handlers
  | [], hs => ([], hs)
  | c :: cs, hs =>
    let r := setHandler c.1 c.2 hs
    let q := setHandlers cs r.2
    (r.1 :: q.1, q.2)

/-- client.c:114-122 `SetClientName`: NULL and the empty name change nothing (`CopyWizardString`: what fits). -/
def setClientName (name : Option (List Byte)) (current : List Byte) : List Byte :=
  match name with
  | none => current
  | some n => if n = [] then current else n.take (wizardPathExtent - 1)

/-- Calls of it. -/
def setClientNames : List (Option (List Byte)) → List Byte → List Byte
  | [], c => c
  | n :: ns, c => setClientNames ns (setClientName n c)

/-- What is outside the toolkit: the C library's folding of letters, the name of the client, and which functions of the program end the process, with which status. -/
structure FatalEnv where
  fold : Byte → Byte
  client : List Byte
  ends : Nat → ExcElem → Option Nat

/-- What is seen: lines at the standard error output, and calls of the program's functions. -/
inductive HandlerEvent where
  | printed (text : List Byte)
  | called (kind : Handler) (n : Nat) (e : ExcElem)
  deriving DecidableEq

/-- exception.c:287-290, 328-331, 370-373. -/
def handlerText (client reason : List Byte) (description : Option (List Byte)) : List Byte :=
  client ++ ascText ": " ++ reason ++ (match description with
    | none => []
    | some d => ascText " (" ++ d ++ ascText ")") ++ [asc '.', 10]

/-- exception.c:713-718 `WizardError`, 749-754 `WizardFatalError`, 783-788 `WizardWarning`, with the standard handlers (282-292, 323-335, 365-375): what is seen, and the status if the process
ends.  `exit` keeps the low eight bits. -/
def callHandler (env : FatalEnv) (hs : Handlers) (k : Handler) (e : ExcElem) : List HandlerEvent × Option Nat :=
  match hs.get k with
  | .null => ([], none)
  | .own n => ([.called k n e], (env.ends n e).map (· % 256))
  | .standard => match e.reason with
    | none => ([], none)
    | some reason => ([.printed (handlerText env.client reason e.description)], if k = .fatal then some (e.severity % 256) else none)

/-- Calls one after the other, until one ends the process. -/
def callAll (env : FatalEnv) (hs : Handlers) : List (Handler × ExcElem) → List HandlerEvent × Option Nat
  | [] => ([], none)
  | c :: cs =>
    let r := callHandler env hs c.1 c.2
    match r.2 with
    | some status => (r.1, some status)
    | none => let q := callAll env hs cs; (r.1 ++ q.1, q.2)

/-- exception-private.h:29-38 `CatchWizardException`: a new exception is reported and caught.  The calls are those of `CatchException` (exception.c:239-249) if none ends the process;
`callAll` stops at the one that does. -/
def catchWizardException (env : FatalEnv) (hs : Handlers) (r : Report) : Res (List HandlerEvent × Option Nat) := do
  let x ← reportException env.fold acquireExceptionInfo r
  .ok (callAll env hs (catchLoop (fun _ => false) x.1.severity x.1.log).1)

/-- exception-private.h:64-75 `ThrowWizardFatalError`: what is seen, and the status of the process; `WizardsToolkitTerminus` (C169) shows nothing.  The severity is `UndefinedException`, 0. -/
def throwWizardFatalError (env : FatalEnv) (hs : Handlers) (domain error : Nat) (file function : List Byte) (line : Nat) : Res (List HandlerEvent × Nat) := do
  let r ← catchWizardException env hs ⟨0, decText domain ++ [10], file, function, line⟩
  .ok (r.1, r.2.getD ((domain <<< 3 ||| error) % 256))

/-- exception-private.h:77-87 `ThrowFatalException`; `r` has the severity and the formatted message. -/
def throwFatalException (env : FatalEnv) (hs : Handlers) (r : Report) : Res (List HandlerEvent × Nat) := do
  let q ← catchWizardException env hs r
  .ok (q.1, q.2.getD 127)

/-- What the source gives to `ThrowWizardFatalError`: domain and error (exception.h:27-57).  The last three are severities (exception.h:85, 87, 89) in the place of domains: sha2224.c:118, 127,
sha2256.c:118, 127, sha2384.c:118, 127, sha2512.c:118, 127 (`HashError`), lzma.c:103, zip.c:100 (`EntropyError`), serpent.c:107 (`CipherError`). -/
def fatalPlaces : List (Nat × Nat) :=
  [(1, 0), (1, 1), (1, 4), (2, 0), (2, 1), (2, 7), (4, 0), (5, 0), (5, 1), (6, 0), (6, 3), (7, 0), (7, 1), (8, 0), (11, 0)] ++
  -- `WizardAssert` (exception-private.h:46-50): the domains it is used with, and `AssertError`
  [(1, 7), (2, 7), (4, 7), (5, 7), (6, 7), (7, 7), (8, 7), (13, 7), (14, 7)] ++
  [(415, 0), (425, 0), (435, 0)]

end Wizard

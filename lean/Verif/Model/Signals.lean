import Verif.Model.TempFile

/-! Signals: which handlers starting the toolkit sets (wizard.c:117-305), and what its handler does (wizard.c:154-189, resource.c:511-530).
The system has `sigaction`, `raise` and `_exit`.  Blocking a signal keeps it pending; unblocking it delivers it.  Threads other than
the one that starts the toolkit, queues of more than one signal of a number, what programs do in `atexit`, and what happens after the
program has ended or its handler is stuck are not modelled. -/
namespace Wizard

/-- What happens when a signal is delivered: the default (for the signals here: the program ends), nothing, `WizardSignalHandler`, or a
function of the program.  `dfl` is also the null pointer, and `err` is `SIG_ERR`. -/
inductive SigHandler where
  | dfl
  | ign
  | wizard
  | user (f : Nat)
  | err
  deriving DecidableEq

/-- `sa_flags`. -/
structure SigFlags where
  siginfo : Bool := false
  restart : Bool := false
  nodefer : Bool := false
  resethand : Bool := false
  onstack : Bool := false
  interrupt : Bool := false
  deriving DecidableEq

/-- `struct sigaction`. -/
structure SigAction where
  handler : SigHandler
  mask : List Nat
  flags : SigFlags
  deriving DecidableEq

/-- How a program ended: `exit` (with `atexit`), `_exit`, by the default action of a signal; or its handler is stuck. -/
inductive SigEnd where
  | exit (n : Nat)
  | quit (n : Nat)
  | killed (n : Nat)
  | hung (n : Nat)
  deriving DecidableEq

/-- The state: what the system knows about signals, `signal_handlers`, `wizard_signal_in_progress`, the temporary files, whether the
semaphore of their tree is held by the code that the signal interrupts, the functions of the program that ran, and how it ended. -/
structure SigWorld where
  action : Nat → SigAction
  blocked : Nat → Bool
  pending : Nat → Bool
  recorded : Nat → SigHandler
  inProgress : Bool
  temp : TmpState
  locked : Bool
  ran : List (Nat × Nat)
  ended : Option SigEnd

/-- SIGABRT, SIGFPE, SIGHUP, SIGINT, SIGQUIT, SIGTERM, SIGSEGV, SIGXCPU and SIGXFSZ, in the order of wizard.c:266-305, with their numbers
of Linux; SIGBREAK is of Windows. -/
def wizardSignals : List Nat := [6, 8, 1, 2, 3, 15, 11, 24, 25]

/-- wizard.c:163-182: SIGHUP, SIGINT, SIGTERM and SIGSEGV end the program by `exit`. -/
def exitSignals : List Nat := [1, 2, 15, 11]

/-- wizard.c:134-142: the mask has the signal, the flags are SA_INTERRUPT and SA_ONSTACK. -/
def wizardAction (n : Nat) (h : SigHandler) : SigAction := ⟨h, [n], { onstack := true, interrupt := true }⟩

/-- A signal of a number is blocked or not. -/
def SigWorld.block (w : SigWorld) (n : Nat) (b : Bool) : SigWorld := { w with blocked := fun m => if m = n then b else w.blocked m }

/-- `sigaction` of a signal. -/
def SigWorld.act (w : SigWorld) (n : Nat) (a : SigAction) : SigWorld := { w with action := fun m => if m = n then a else w.action m }

/-- A signal is pending or not. -/
def SigWorld.pend (w : SigWorld) (n : Nat) (b : Bool) : SigWorld := { w with pending := fun m => if m = n then b else w.pending m }

/-- wizard.c:159 and resource.c:511-530 `AsynchronousResourceComponentTerminus`: the tree of temporary files is walked with its semaphore
(splay-tree.c: `GetNextKeyInSplayTree`), which is not recursive (semaphore.c:176-199). -/
def asyncTerminus (w : SigWorld) (n : Nat) : SigWorld :=
  if w.locked then { w with ended := some (.hung n) } else { w with temp := tmpAsyncTerminus w.temp }

/-- wizard.c:160-188: the end of the handler, if it is not stuck.  `raise` of a signal that is blocked does nothing before `_exit`. -/
def handlerEnds (w : SigWorld) (n : Nat) : SigWorld :=
  match w.ended with
  | some _ => w
  | none =>
    if n ∈ exitSignals then { w with ended := some (.exit n) }
    else if w.recorded n ≠ .wizard ∧ w.blocked n = false ∧ (w.action n).handler = .dfl then { w with ended := some (.killed n) }
    else { w with ended := some (.quit n) }

/-- wizard.c:154-189 `WizardSignalHandler`; while it runs its signal is blocked, unless it is the second one: then the handler is set to
the one that was recorded, and the signal is unblocked (156-157). -/
def wizardSignalHandler (w : SigWorld) (n : Nat) : SigWorld :=
  let w := w.block n true
  let w := if w.inProgress then (w.act n (wizardAction n (w.recorded n))).block n false else w
  handlerEnds (asyncTerminus { w with inProgress := true } n) n

/-- The system delivers a signal that is not blocked. -/
def deliver (w : SigWorld) (n : Nat) : SigWorld :=
  match (w.action n).handler with
  | .ign => w
  | .wizard => wizardSignalHandler w n
  | .user f => { w with ran := (f, n) :: w.ran }
  | _ => { w with ended := some (.killed n) }

/-- A signal is sent to the program: nothing happens if it has ended; it stays pending if it is blocked. -/
def sigArrive (w : SigWorld) (n : Nat) : SigWorld :=
  if w.ended ≠ none then w
  else if w.blocked n then w.pend n true else deliver w n

/-- `sigprocmask(SIG_UNBLOCK)`: a pending signal is delivered. -/
def unblock (w : SigWorld) (n : Nat) : SigWorld :=
  let w := w.block n false
  if w.pending n then deliver (w.pend n false) n else w

/-- wizard.c:117-152 `SetWizardSignalHandler`: the handler before, or `SIG_ERR` if `sigaction` fails. -/
def setWizardSignalHandler (fails : Nat → Bool) (n : Nat) (h : SigHandler) (w : SigWorld) : SigHandler × SigWorld :=
  let w := w.block n true
  if fails n then (.err, w)
  else ((w.action n).handler, unblock (w.act n (wizardAction n h)) n)

/-- wizard.c:191-205 `RegisterWizardSignalHandler`.  `mid` says whether the signal arrives between the two settings of its handler. -/
def registerWizardSignalHandler (fails mid : Nat → Bool) (n : Nat) (w : SigWorld) : SigHandler × SigWorld :=
  let r := setWizardSignalHandler fails n .wizard w
  if r.1 = .err then r
  else if r.1 = .dfl then r
  else
    let w := if mid n then sigArrive r.2 n else r.2
    if w.ended ≠ none then (r.1, w) else setWizardSignalHandler fails n r.1 w

/-- wizard.c:266-305: one of the statements. -/
def genesisSignal (fails mid : Nat → Bool) (w : SigWorld) (n : Nat) : SigWorld :=
  if w.ended ≠ none then w
  else if w.recorded n = .dfl then
    let r := registerWizardSignalHandler fails mid n w
    { r.2 with recorded := fun m => if m = n then r.1 else r.2.recorded m }
  else w

/-- wizard.c:263-305: what `WizardsToolkitGenesis` does to signals. -/
def genesisSignals (fails mid : Nat → Bool) (w : SigWorld) : SigWorld := wizardSignals.foldl (genesisSignal fails mid) w

end Wizard

import Verif.Model.Shared
/-! wizard.c: threads that start and end the toolkit.  Steps of threads are interleaved in any way, and each thread sees the others'
writes in their order (the code has no barriers for the tests of `active_mutex`).

`semaphore_mutex` and `active_mutex` are static variables of a header (semaphore-private.h:28-42), so there are two of each that matter
here: those of wizard.c (`W`), which `WizardsToolkitGenesis` and `WizardsToolkitTerminus` hold, and those of semaphore.c (`S`), which
`ActivateSemaphoreInfo` and `RelinquishSemaphoreInfo` take.

Left out: what the components do besides (limits, the log event that a signal handler was registered, the client name), the signal
handlers, and that `AcquireSemaphoreInfo` ends the process when there is no memory. -/
namespace Wizard

/-- The components that `WizardsToolkitGenesis` starts, each with a semaphore. -/
inductive Component where
  | log | random | configure | resource | mime
  deriving DecidableEq, Repr

/-- wizard.c:227-228, 309-311: the order in which they are started. -/
def genesisOrder : List Component := [.log, .random, .configure, .resource, .mime]

/-- wizard.c:343-346: the order in which they are ended. -/
def terminusOrder : List Component := [.mime, .resource, .random, .log]

/-- The two functions. -/
inductive LifeCall where
  | genesis | terminus
  deriving DecidableEq, Repr

/-- Why a thread calls `InitializeWizardMutex` in semaphore.c: in `SemaphoreComponentGenesis` (386-390), in `ActivateSemaphoreInfo` (252)
or in `RelinquishSemaphoreInfo` (343), with the components that come after this one. -/
inductive MutexUse where
  | begin
  | activate (c : Component) (rest : List Component)
  | relinquish (c : Component) (rest : List Component)
  deriving DecidableEq, Repr

/-- Where a thread is. -/
inductive LifePc where
  | idle
  | testW (f : LifeCall) | initW (f : LifeCall) | markW (f : LifeCall) | lockW (f : LifeCall) | look (f : LifeCall)
  | testS (u : MutexUse) | initS (u : MutexUse) | markS (u : MutexUse) | lockS (u : MutexUse) | work (u : MutexUse) | unlockS (u : MutexUse)
  | start (rest : List Component) | setOn
  | finish (rest : List Component) | clear (c : Component) (rest : List Component) | setOff
  | leave (f : LifeCall) (more : Bool)
  | testDown | destroyDown | markDown
  deriving DecidableEq, Repr

/-- What the threads share.  `lockW`, `lockS`: who has the mutex; `liveW`, `liveS`: it is initialised; `activeW`, `activeS`: the flag
`active_mutex`; `on`: `instantiate_wizardstoolkit`; `sem`: the semaphores of the components, numbered in the order of
`AcquireSemaphoreInfo`; `made`: how many there were; `gone`: those that were given back; `cache`: the log list; `order`: the calls,
in the order in which they released `W`; `pc`, `todo`: where each thread is, and the calls it has still to make. -/
structure LifeWorld where
  lockW : Option Nat
  liveW : Bool
  activeW : Bool
  lockS : Option Nat
  liveS : Bool
  activeS : Bool
  on : Bool
  sem : Component → Option Nat
  made : Nat
  gone : List Nat
  cache : Bool
  order : List (Nat × LifeCall)
  pc : Nat → LifePc
  todo : Nat → List LifeCall

/-- A process before the first call: mutexes of pthreads are initialised (PTHREAD_MUTEX_INITIALIZER, semaphore-private.h:32), those of
OpenMP are not (29). -/
def LifeWorld.begin (openmp : Bool) (prog : Nat → List LifeCall) : LifeWorld :=
  ⟨none, !openmp, false, none, !openmp, false, false, fun _ => none, 0, [], false, [], fun _ => .idle, prog⟩

/-- The thread goes on. -/
def LifeWorld.goto (w : LifeWorld) (t : Nat) (p : LifePc) : LifeWorld := { w with pc := putAt w.pc t p }

/-- The semaphore of a component. -/
def LifeWorld.setSem (w : LifeWorld) (c : Component) (s : Option Nat) : LifeWorld :=
  { w with sem := fun d => if d = c then s else w.sem d }

/-- semaphore.c:156-222 `AcquireSemaphoreInfo`. -/
def LifeWorld.acquire (w : LifeWorld) (c : Component) : LifeWorld :=
  { w.setSem c (some w.made) with made := w.made + 1 }

/-- log.c:832: the log list is loaded when the log component starts. -/
def LifeWorld.load (w : LifeWorld) (c : Component) : LifeWorld := if c = .log then { w with cache := true } else w

/-- log.c:887-888: and given back when it ends. -/
def LifeWorld.unload (w : LifeWorld) (c : Component) : LifeWorld := if c = .log then { w with cache := false } else w

/-- Where `InitializeWizardMutex` in semaphore.c returns to. -/
def MutexUse.next : MutexUse → LifePc
  | .begin => .start genesisOrder
  | u => .lockS u

/-- One step of a thread.  `openmp`: locks are those of OpenMP (WIZARDSTOOLKIT_OPENMP_SUPPORT), otherwise those of pthreads.  It is
undefined to initialise a lock that is initialised, and to take or destroy one that is not, or to destroy one that is held. -/
def toolkitStep (openmp : Bool) (w : LifeWorld) (t : Nat) : Res LifeWorld :=
  match w.pc t with
  | .idle =>
    match w.todo t with
    | [] => .ok w
    | f :: fs => .ok ({ w with todo := putAt w.todo t fs }.goto t (.testW f))
  | .testW f => .ok (w.goto t (if openmp = true ∧ w.activeW = false then .initW f else .markW f))   -- semaphore-private.h:56
  | .initW f =>                                                                                     -- semaphore-private.h:57
    if w.liveW = true then .ub else .ok ({ w with liveW := true, lockW := none }.goto t (.markW f))
  | .markW f => .ok ({ w with activeW := true }.goto t (.lockW f))                                  -- semaphore-private.h:59
  | .lockW f =>                                                                                     -- wizard.c:218, 337
    if w.liveW = false then .ub else
    match w.lockW with
    | some _ => .ok w
    | none => .ok ({ w with lockW := some t }.goto t (.look f))
  | .look .genesis => .ok (w.goto t (if w.on = true then .leave .genesis false else .testS .begin)) -- wizard.c:219
  | .look .terminus => .ok (w.goto t (if w.on = false then .leave .terminus false else .finish terminusOrder)) -- wizard.c:338
  | .testS u => .ok (w.goto t (if openmp = true ∧ w.activeS = false then .initS u else .markS u))   -- semaphore-private.h:56
  | .initS u => if w.liveS = true then .ub else .ok ({ w with liveS := true, lockS := none }.goto t (.markS u))
  | .markS u => .ok ({ w with activeS := true }.goto t u.next)
  | .lockS u =>                                                                                     -- semaphore.c:253, 344
    if w.liveS = false then .ub else
    match w.lockS with
    | some _ => .ok w
    | none => .ok ({ w with lockS := some t }.goto t (.work u))
  | .work .begin => .ok (w.goto t (.unlockS .begin))                                                -- not reached
  | .work (.activate c rest) =>                                                                     -- semaphore.c:254-255
    .ok ((if w.sem c = none then w.acquire c else w).goto t (.unlockS (.activate c rest)))
  | .work (.relinquish c rest) =>                                                                   -- semaphore.c:345-364
    match w.sem c with
    | none => .ub
    | some s => if s ∈ w.gone then .ub else .ok ({ w.setSem c none with gone := s :: w.gone }.goto t (.unlockS (.relinquish c rest)))
  | .unlockS .begin => .ok ({ w with lockS := none }.goto t .idle)                                  -- not reached
  | .unlockS (.activate c rest) => .ok ({ w with lockS := none }.goto t (.clear c rest))            -- semaphore.c:256
  | .unlockS (.relinquish _ rest) => .ok ({ w with lockS := none }.goto t (.finish rest))           -- semaphore.c:365
  | .start [] => .ok (w.goto t .setOn)
  | .start (c :: rest) =>                                              -- log.c:829-832, random.c:912-913, configure.c:213-214, resource.c:903-904, mime.c:993-994
    .ok (((if w.sem c = none then w.acquire c else w).load c).goto t (.start rest))
  | .setOn => .ok ({ w with on := true }.goto t (.leave .genesis false))                            -- wizard.c:312
  | .finish [] => .ok (w.goto t .setOff)
  | .finish (c :: rest) =>                                             -- mime.c:1039-1040, resource.c:985-986, random.c:937-938, log.c:884-885
    .ok (w.goto t (if w.sem c = none then .testS (.activate c rest) else .clear c rest))
  | .clear c rest =>                                                   -- mime.c:1041-1045, resource.c:987-991, random.c:939, log.c:886-890
    match w.sem c with
    | none => .fatal
    | some s => if s ∈ w.gone then .ub else .ok ((w.unload c).goto t (.testS (.relinquish c rest)))
  | .setOff => .ok ({ w with on := false }.goto t (.leave .terminus true))                          -- wizard.c:347
  | .leave f more => .ok ({ w with lockW := none, order := w.order ++ [(t, f)] }.goto t (if more = true then .testDown else .idle)) -- wizard.c:221, 313, 340, 348
  | .testDown => .ok (w.goto t (if openmp = true ∧ w.activeS = true then .destroyDown else .markDown)) -- semaphore-private.h:47
  | .destroyDown =>                                                                                 -- semaphore-private.h:48
    if w.liveS = false ∨ w.lockS ≠ none then .ub else .ok ({ w with liveS := false }.goto t .markDown)
  | .markDown => .ok ({ w with activeS := false }.goto t .idle)                                     -- semaphore-private.h:50

/-- A schedule: which thread takes a step. -/
def toolkitRun (openmp : Bool) (w : LifeWorld) : List Nat → Res LifeWorld
  | [] => .ok w
  | t :: ts => do
    let w ← toolkitStep openmp w t
    toolkitRun openmp w ts

end Wizard

import Verif.Model.Shared
/-! semaphore.c, log.c: several threads that use a component for the first time.  Steps of threads are interleaved in any way, and
each thread sees the others' writes in their order (the code has no barriers for the tests before the mutex). -/
namespace Wizard

/-- Where a thread is in `IsLogCacheInstantiated` (log.c:655-667; locale.c:903-915, configure.c:938-950 and mime.c:662-674 are the
same) with `ActivateSemaphoreInfo` (semaphore.c:247-258) and `InitializeWizardMutex` (semaphore-private.h:53-60). -/
inductive LazyPc where
  | cacheNull | semNull | activateNull | mutexActive | mutexInit | setActive | mutexLock | semNullAgain | semAcquire | mutexUnlock
  | semLock | cacheNullAgain | cacheLoad | cacheStore | semUnlock | done
  deriving DecidableEq, Repr

/-- What the threads share.  `mutex`: who has `semaphore_mutex`; `active`: `active_mutex`; `sem`: the semaphore pointer, numbered in the
order of `AcquireSemaphoreInfo`; `made`: how often that was called; `held`: who has which semaphore; `cache`: the cache pointer, numbered
likewise; `loads`: how often the cache was loaded. -/
structure LazyWorld where
  mutex : Option Nat
  active : Bool
  sem : Option Nat
  made : Nat
  held : Nat → Option Nat
  cache : Option Nat
  loads : Nat
  pc : Nat → LazyPc

/-- A process whose threads are about to begin. -/
def LazyWorld.start (active : Bool) : LazyWorld := ⟨none, active, none, 0, fun _ => none, none, 0, fun _ => .cacheNull⟩

/-- The thread goes on. -/
def LazyWorld.goto (w : LazyWorld) (t : Nat) (p : LazyPc) : LazyWorld := { w with pc := putAt w.pc t p }

/-- One step of a thread.  `openmp`: locks are those of OpenMP (WIZARDSTOOLKIT_OPENMP_SUPPORT), and `semaphore_mutex` is initialised by
`omp_init_lock`; otherwise by PTHREAD_MUTEX_INITIALIZER. -/
def lazyStep (openmp : Bool) (w : LazyWorld) (t : Nat) : Res LazyWorld :=
  match w.pc t with
  | .cacheNull => .ok (w.goto t (if w.cache = none then .semNull else .done))               -- log.c:657
  | .semNull => .ok (w.goto t (if w.sem = none then .activateNull else .semLock))             -- log.c:659
  | .activateNull => .ok (w.goto t (if w.sem = none then .mutexActive else .semLock))         -- semaphore.c:250
  | .mutexActive => .ok (w.goto t (if openmp = true ∧ w.active = false then .mutexInit else .setActive))
  | .mutexInit => .ok ({ w with mutex := none }.goto t .setActive)                             -- omp_init_lock
  | .setActive => .ok ({ w with active := true }.goto t .mutexLock)
  | .mutexLock =>                                                                              -- semaphore.c:253
    match w.mutex with
    | some _ => .ok w
    | none => .ok ({ w with mutex := some t }.goto t .semNullAgain)
  | .semNullAgain => .ok (w.goto t (if w.sem = none then .semAcquire else .mutexUnlock))      -- semaphore.c:254
  | .semAcquire => .ok ({ w with sem := some w.made, made := w.made + 1 }.goto t .mutexUnlock) -- semaphore.c:255
  | .mutexUnlock => .ok ({ w with mutex := none }.goto t .semLock)                             -- semaphore.c:256
  | .semLock =>                                                                                -- log.c:661
    match w.sem with
    | none => .ub
    | some s =>
      match w.held s with
      | some _ => .ok w
      | none => .ok ({ w with held := putAt w.held s (some t) }.goto t .cacheNullAgain)
  | .cacheNullAgain => .ok (w.goto t (if w.cache = none then .cacheLoad else .semUnlock))     -- log.c:662
  | .cacheLoad => .ok ({ w with loads := w.loads + 1 }.goto t .cacheStore)                     -- log.c:663
  | .cacheStore => .ok ({ w with cache := some (w.loads - 1) }.goto t .semUnlock)              -- log.c:663
  | .semUnlock =>                                                                              -- log.c:664
    match w.sem with
    | none => .ub
    | some s => .ok ({ w with held := putAt w.held s none }.goto t .done)
  | .done => .ok w

/-- A schedule: which thread takes a step. -/
def lazyRun (openmp : Bool) (w : LazyWorld) : List Nat → Res LazyWorld
  | [] => .ok w
  | t :: ts => do
    let w ← lazyStep openmp w t
    lazyRun openmp w ts

end Wizard

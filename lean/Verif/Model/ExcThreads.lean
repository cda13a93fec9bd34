import Verif.Model.Exception
import Verif.Model.Shared
/-! exception.c: threads that share exceptions.  Each exception has its semaphore (exception.c:72-73, 444); a thread that finds it taken
waits, also when it has it itself (semaphore.c:182-189: mutexes without attributes are not recursive; 173: neither are OpenMP locks).
Handlers return. -/
namespace Wizard

/-- Where a thread is in a call. -/
inductive ExcPhase where
  | rest
  /-- exception.c:930, before the lock; 957, before the unlock. -/
  | throw (k : Nat) (e : ExcElem)
  | thrown (k : Nat) (e : ExcElem)
  /-- exception.c:187, 199 (`op` is the call that returns then: `ClearWizardException` or `CatchException`). -/
  | clear (k : Nat) (op : ExcOp)
  | cleared (k : Nat) (op : ExcOp)
  /-- exception.c:235, 250. -/
  | caught (k : Nat)
  | delivered (k : Nat)
  /-- exception.c:671; 675-680, with the elements still to come; 957 in that loop. -/
  | inherit (k j : Nat)
  | loop (k j : Nat) (ps : List ExcElem)
  | loopThrown (k j : Nat) (ps : List ExcElem)

/-- The exceptions, who has the semaphore of each, where every thread is and the calls it still has to make, the calls of handlers, and
the calls that have returned. -/
structure ExcThreads where
  info : Nat → ExcInfo
  holder : Nat → Option Nat
  phase : Nat → ExcPhase
  todo : Nat → List ExcOp
  calls : List (Nat × Handler × ExcElem)
  returned : List (Nat × ExcOp)

/-- Threads with their calls before them, and exceptions as `AcquireExceptionInfo` makes them. -/
def ExcThreads.start (prog : Nat → List ExcOp) : ExcThreads :=
  ⟨fun _ => acquireExceptionInfo, fun _ => none, fun _ => .rest, prog, [], []⟩

/-- Where a call begins. -/
def excBegin : ExcOp → ExcPhase
  | .throw k e => .throw k e
  | .clear k => .clear k (.clear k)
  | .caught k => .caught k
  | .inherit k j => .inherit k j

/-- The next step of thread `t`: up to, and with, a lock and what follows it, or an unlock. -/
def excThreadStep (fold : Byte → Byte) (w : ExcThreads) (t : Nat) : Res ExcThreads :=
  match w.phase t with
  | .rest =>
    match w.todo t with
    | [] => .ok w
    | op :: ops => .ok { w with todo := putAt w.todo t ops, phase := putAt w.phase t (excBegin op) }
  | .throw k e =>                                                                             -- exception.c:930-956
    match w.holder k with
    | some _ => .ok w
    | none => do
      let x ← throwException fold (w.info k) e
      .ok { w with info := putAt w.info k x, holder := putAt w.holder k (some t), phase := putAt w.phase t (.thrown k e) }
  | .thrown k e =>                                                                            -- exception.c:957
    .ok { w with holder := putAt w.holder k none, phase := putAt w.phase t .rest, returned := w.returned ++ [(t, .throw k e)] }
  | .clear k op =>                                                                            -- exception.c:187-198
    match w.holder k with
    | some _ => .ok w
    | none =>
      .ok { w with info := putAt w.info k (clearException (w.info k)), holder := putAt w.holder k (some t), phase := putAt w.phase t (.cleared k op) }
  | .cleared k op =>                                                                          -- exception.c:199
    .ok { w with holder := putAt w.holder k none, phase := putAt w.phase t .rest, returned := w.returned ++ [(t, op)] }
  | .caught k =>                                                                              -- exception.c:235-249
    match w.holder k with
    | some _ => .ok w
    | none =>
      .ok { w with holder := putAt w.holder k (some t), phase := putAt w.phase t (.delivered k),
                   calls := w.calls ++ (catchLoop (fun _ => false) (w.info k).severity (w.info k).log).1.map (fun c => (k, c)) }
  | .delivered k =>                                                                           -- exception.c:250-251
    .ok { w with holder := putAt w.holder k none, phase := putAt w.phase t (.clear k (.caught k)) }
  | .inherit k j =>                                                                           -- exception.c:671-674
    match w.holder j with
    | some _ => .ok w
    | none => .ok { w with holder := putAt w.holder j (some t), phase := putAt w.phase t (.loop k j (w.info j).log) }
  | .loop k j [] =>                                                                           -- exception.c:681
    .ok { w with holder := putAt w.holder j none, phase := putAt w.phase t .rest, returned := w.returned ++ [(t, .inherit k j)] }
  | .loop k j (p :: ps) =>                                                                    -- exception.c:677, 930-956
    match w.holder k with
    | some _ => .ok w
    | none => do
      let x ← throwException fold (w.info k) p
      .ok { w with info := putAt w.info k x, holder := putAt w.holder k (some t), phase := putAt w.phase t (.loopThrown k j ps) }
  | .loopThrown k j ps =>                                                                     -- exception.c:957, 678
    .ok { w with holder := putAt w.holder k none, phase := putAt w.phase t (.loop k j ps) }

/-- A schedule. -/
def excThreadRun (fold : Byte → Byte) (w : ExcThreads) : List Nat → Res ExcThreads
  | [] => .ok w
  | t :: ts => do
    let w ← excThreadStep fold w t
    excThreadRun fold w ts

end Wizard

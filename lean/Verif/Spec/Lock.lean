import Verif.Model.Lock
/-! What mutual exclusion of open files means. -/
namespace Wizard.Spec.Lock
open Wizard

/-- The thread lives and has a file open that `AcquireFileInfo` gave it. -/
def Holds (s : LockState) (a : Agent) : Prop := s.alive a.pid = true ∧ 0 < s.held a

/-- At most one live thread has the file open. -/
def Exclusive (s : LockState) : Prop := ∀ a b, Holds s a → Holds s b → a = b

/-- The states that arise in an interleaving. -/
def Reachable (s : LockState) : Prop := ∃ xs, lockRun .start xs = some s

/-- An interleaving in which no thread acquires the file while it has it open, no acquire of the lock fails and no lock of a
dead process is taken over.  (The file itself may fail to open.) -/
inductive Careful : LockState → Prop
  | start : Careful .start
  | step {s s' : LockState} {a : Agent} {act : LockAct} : Careful s → lockStep s a act = some s' →
      (act = .begin → s.held a = 0) → s'.pc a ≠ .failing → s'.pc a ≠ .takeover → Careful s'

end Wizard.Spec.Lock

/-! file.c: the lock file of `AcquireFileInfo`, with any number of processes and threads whose system calls interleave. -/
namespace Wizard

/-- A thread of a process: file.c:177, 211, 213 (`getpid`, `GetWizardThreadId`). -/
structure Agent where
  pid : Nat
  tid : Nat
  deriving DecidableEq, Repr

/-- Where a thread is.  `i` is the loop variable of `AcquireFileLock`, `ino` the file an open descriptor refers to (it may have
been unlinked since). -/
inductive LockPC where
  /-- not in an acquire -/
  | idle
  /-- file.c:154-156: about to create the lock file -/
  | trying (i : Nat)
  /-- file.c:161: it exists; about to open it -/
  | present (i : Nat)
  /-- file.c:166-167: about to read it -/
  | reading (i : Nat) (ino : Nat)
  /-- file.c:211-214: created; about to write it -/
  | created (i : Nat) (ino : Nat)
  /-- file.c:198-201: the owner is dead; about to remove it -/
  | takeover
  /-- file.c:223-225, 326-329: the lock was not acquired; `DestroyFileInfo` is about to remove the lock file -/
  | failing
  /-- file.c:181, 334-346: the lock was acquired; about to open the file itself -/
  | locked
  /-- file.c:355-359: the file could not be opened; `DestroyFileInfo` is about to remove the lock file -/
  | closing
  deriving DecidableEq, Repr

/-- The lock file: the inode its name refers to, the owner in each inode (`none` while incomplete: then the two
`ReadFileChunk` of lines 166-167 do not both succeed), the next free inode.  The processes that run, and for each thread where
it is and how many open `FileInfo` it has.  One path, so one lock file.  Simplifications: the two writes of lines 212 and 214
are one step; process ids are not reused; `kill` is permitted (line 194). -/
structure LockState where
  lock : Option Nat
  owner : Nat → Option Agent
  next : Nat
  alive : Nat → Bool
  pc : Agent → LockPC
  held : Agent → Nat

/-- No lock file, no open files, everybody runs. -/
def LockState.start : LockState :=
  ⟨none, fun _ => none, 0, fun _ => true, fun _ => .idle, fun _ => 0⟩

/-- What a thread does next. -/
inductive LockAct where
  /-- calls `AcquireFileInfo` -/
  | begin
  /-- the next system call of the acquire, as it goes if nothing is wrong -/
  | next
  /-- the next system call of the acquire fails: the lock file cannot be created or written, the file cannot be opened -/
  | denied
  /-- `DestroyFileInfo` of an open file: file.c:443, 813 -/
  | release
  /-- its process dies -/
  | die
  deriving DecidableEq, Repr

/-- Thread `a` is now at `p`. -/
def LockState.go (s : LockState) (a : Agent) (p : LockPC) : LockState := { s with pc := fun x => if x = a then p else s.pc x }

/-- file.c:154-222, 326-359: the next system call of an acquire. -/
def lockNext (s : LockState) (a : Agent) : Option LockState :=
  match s.pc a with
  | .idle => none
  | .trying i =>
    if i < 10 then
      match s.lock with
      | none => some ({ s with lock := some s.next, owner := fun n => if n = s.next then none else s.owner n, next := s.next + 1 }.go a
          (.created i s.next))
      | some _ => some (s.go a (.present i))
    else some (s.go a .failing)
  | .present i =>
    match s.lock with
    | none => some (s.go a .failing)
    | some ino => some (s.go a (.reading i ino))
  | .reading i ino =>
    match s.owner ino with
    | none => some (s.go a (.trying (i + 1)))
    | some b =>
      if b = a then some (s.go a .locked)
      else if s.alive b.pid then some (s.go a (.trying (i + 1)))
      else some (s.go a .takeover)
  | .created i ino => some ({ s with owner := fun n => if n = ino then some a else s.owner n }.go a (.trying i))
  | .takeover => some ({ s with lock := none }.go a .failing)
  | .failing => some ({ s with lock := none }.go a .idle)
  | .locked => some ({ s with held := fun x => if x = a then s.held a + 1 else s.held x }.go a .idle)
  | .closing => some ({ s with lock := none }.go a .idle)

/-- file.c:159-160, 219-220, 355: a system call of an acquire fails. -/
def lockDenied (s : LockState) (a : Agent) : Option LockState :=
  match s.pc a with
  | .trying i => if i < 10 then some (s.go a .failing) else none
  | .created _ _ => some (s.go a .failing)
  | .locked => some (s.go a .closing)
  | _ => none

/-- One step of thread `a`; `none` if it cannot take it. -/
def lockStep (s : LockState) (a : Agent) (act : LockAct) : Option LockState :=
  if s.alive a.pid then
    match act with
    | .begin => if s.pc a = .idle then some (s.go a (.trying 0)) else none
    | .next => lockNext s a
    | .denied => lockDenied s a
    | .release =>
      if s.pc a = .idle ∧ 0 < s.held a then
        some { s with lock := none, held := fun x => if x = a then s.held a - 1 else s.held x }
      else none
    | .die => some { s with alive := fun p => if p = a.pid then false else s.alive p }
  else none

/-- An interleaving. -/
def lockRun : LockState → List (Agent × LockAct) → Option LockState
  | s, [] => some s
  | s, x :: xs => (lockStep s x.1 x.2).bind (fun s' => lockRun s' xs)

end Wizard

import Verif.Model.Basic
/-! Threads that call the functions of one shared object (a list, a map, a tree), with any interleaving of their steps.

semaphore.c:282-314 `LockSemaphoreInfo` and `UnlockSemaphoreInfo` (a mutex): one thread at a time is past the lock; a thread
that finds it taken waits.  Memory is sequentially consistent (a simplification: C allows the unlocked reads below to do
anything at all). -/
namespace Wizard

/-- The functions of an object, by the shape all of them have: what the call reads of the object before it takes the semaphore
(`check`: the answer, if this settles it), what it does between taking the semaphore and a point at which an unlocked reader
can tell that it is half way (`enter`), and what it does from there until it releases the semaphore (`leave`). -/
structure Shared (σ ω κ ρ : Type) where
  check : ω → σ → Option ρ
  enter : ω → σ → Res (σ × κ)
  leave : ω → κ → σ → Res (ρ × σ)

/-- Where a thread is: between two calls; in a call, before `LockSemaphoreInfo`; in a call, half way, with the semaphore. -/
inductive CallPhase (ω κ : Type) where
  | rest
  | wait (op : ω)
  | hold (op : ω) (k : κ)

/-- The object, the thread that has the semaphore, where each thread is, the calls it still has to make, and the calls that
have returned, in the order of returning, with the thread and the answer. -/
structure World (σ ω κ ρ : Type) where
  obj : σ
  holder : Option Nat
  phase : Nat → CallPhase ω κ
  todo : Nat → List ω
  log : List (Nat × ω × ρ)

/-- Every thread `t` has the calls `prog t` before it. -/
def World.start {σ ω κ ρ : Type} (s : σ) (prog : Nat → List ω) : World σ ω κ ρ := ⟨s, none, fun _ => .rest, prog, []⟩

/-- `f` with the value at `t` replaced. -/
def putAt {α : Type} (f : Nat → α) (t : Nat) (x : α) : Nat → α := fun u => if u = t then x else f u

/-- The next step of thread `t`.  A thread that has nothing to do, or that waits for the semaphore while another has it, stays
where it is. -/
def Shared.step {σ ω κ ρ : Type} (o : Shared σ ω κ ρ) (w : World σ ω κ ρ) (t : Nat) : Res (World σ ω κ ρ) :=
  match w.phase t with
  | .rest =>
    match w.todo t with
    | [] => .ok w
    | op :: ops =>
      match o.check op w.obj with
      | some r => .ok { w with todo := putAt w.todo t ops, log := w.log ++ [(t, op, r)] }
      | none => .ok { w with todo := putAt w.todo t ops, phase := putAt w.phase t (.wait op) }
  | .wait op =>
    match w.holder with
    | some _ => .ok w
    | none => do
      let (s, k) ← o.enter op w.obj
      .ok { w with obj := s, holder := some t, phase := putAt w.phase t (.hold op k) }
  | .hold op k => do
    let (r, s) ← o.leave op k w.obj
    .ok { w with obj := s, holder := none, phase := putAt w.phase t .rest, log := w.log ++ [(t, op, r)] }

/-- A schedule: the threads in the order in which they take their steps. -/
def Shared.run {σ ω κ ρ : Type} (o : Shared σ ω κ ρ) (w : World σ ω κ ρ) : List Nat → Res (World σ ω κ ρ)
  | [] => .ok w
  | t :: ts => do
    let w ← o.step w t
    o.run w ts

end Wizard

import Verif.Model.Shared
/-! What it means that calls of several threads go one after the other. -/
namespace Wizard.Spec.Shared
open Wizard

variable {σ ω κ ρ : Type}

/-- The calls of a thread that have returned. -/
def returned (log : List (Nat × ω × ρ)) (t : Nat) : List ω := (log.filter (fun x => x.1 == t)).map (fun x => x.2.1)

/-- The call a thread is in. -/
def pending : CallPhase ω κ → List ω
  | .rest => []
  | .wait op => [op]
  | .hold op _ => [op]

/-- The calls that have returned give the answers they give when one thread makes them in the order of returning, with nobody
else about (`alone`); and every thread has made its calls in the order of its program, each once. -/
structure OneByOne (alone : List ω → List ρ) (prog : Nat → List ω) (w : World σ ω κ ρ) : Prop where
  answers : w.log.map (fun x => x.2.2) = alone (w.log.map (fun x => x.2.1))
  order : ∀ t, returned w.log t ++ (pending (w.phase t) ++ w.todo t) = prog t

/-- Thread `t` has made all its calls. -/
def Finished (w : World σ ω κ ρ) (t : Nat) : Prop := w.todo t = [] ∧ ∃ p, w.phase t = p ∧ pending p = []

/-- The threads take turns: none of them takes a step while another is in a call. -/
def InTurns (o : Shared σ ω κ ρ) : World σ ω κ ρ → List Nat → Prop
  | _, [] => True
  | w, t :: ts => (∀ u, u ≠ t → w.phase u = .rest) ∧ ∀ w', o.step w t = .ok w' → InTurns o w' ts

end Wizard.Spec.Shared

import Verif.Model.Signals
/-! Vocabulary of the statements about signals (C174). -/
namespace Wizard.Spec.Signals
open Wizard

/-- What a program does about signals: it sets what a signal does, and it starts the toolkit. -/
inductive SigEvent where
  | set (n : Nat) (a : SigAction)
  | start

/-- One of them; starting the toolkit does not fail, and no signal arrives. -/
def step (w : SigWorld) : SigEvent → SigWorld
  | .set n a => w.act n a
  | .start => genesisSignals (fun _ => false) (fun _ => false) w

/-- What the program itself has last set a signal to do. -/
def wanted (n : Nat) (before : SigHandler) : List SigEvent → SigHandler
  | [] => before
  | .set m a :: es => wanted n (if m = n then a.handler else before) es
  | .start :: es => wanted n before es

/-- The program runs, and no signal waits. -/
structure Calm (w : SigWorld) : Prop where
  running : w.ended = none
  pending : ∀ n, w.pending n = false

end Wizard.Spec.Signals

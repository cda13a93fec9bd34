import Verif.Model.Genesis
/-! What users of `WizardsToolkitGenesis` and `WizardsToolkitTerminus` rely on. -/
namespace Wizard.Spec.Genesis
open Wizard

/-- The calls of one thread in an order of calls of all threads. -/
def callsOf (t : Nat) (order : List (Nat × LifeCall)) : List LifeCall := (order.filter (fun e => e.1 = t)).map Prod.snd

/-- The toolkit is on if the last call was `WizardsToolkitGenesis`. -/
def lastOn (order : List (Nat × LifeCall)) : Bool := order.getLast?.map Prod.snd = some .genesis

/-- It was on at some time. -/
def everOn (order : List (Nat × LifeCall)) : Prop := LifeCall.genesis ∈ order.map Prod.snd

/-- No thread is in a call. -/
def Quiet (w : LifeWorld) : Prop := ∀ t, w.pc t = .idle

/-- All threads have made all their calls. -/
def Finished (w : LifeWorld) : Prop := ∀ t, w.pc t = .idle ∧ w.todo t = []

/-- The components are there if the toolkit is on, and it is on if the last call says so. -/
structure Settled (w : LifeWorld) : Prop where
  on : w.on = lastOn w.order
  up : w.on = true → (∀ c, w.sem c ≠ none) ∧ w.cache = true
  down : w.on = false → (∀ c, c ≠ .configure → w.sem c = none) ∧ w.cache = false

/-- No semaphore was given back twice or is in use after that; no two components share one; and each that was made is a component's or
was given back. -/
structure Accounted (w : LifeWorld) : Prop where
  once : w.gone.Nodup
  live : ∀ c s, w.sem c = some s → s ∉ w.gone
  own : ∀ c d s, w.sem c = some s → w.sem d = some s → c = d
  all : ∀ s, s < w.made ↔ s ∈ w.gone ∨ ∃ c, w.sem c = some s

end Wizard.Spec.Genesis

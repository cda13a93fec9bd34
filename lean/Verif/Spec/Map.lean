/-! The mathematical object a map container is meant to be: a list of bindings with distinct keys. -/
namespace Wizard.Spec

/-- Bindings (key, value). -/
abbrev Bindings := List (Nat × Nat)

/-- The calls of a map interface; NULL is 0. `reset` and `next` are the iterator calls. -/
inductive MapOp where
  | put (k v : Nat)
  | get (k : Nat)
  | remove (k : Nat)
  | reset
  | next

/-- The value bound to a key, NULL if there is none. -/
def Bindings.lookup (same : Nat → Nat → Bool) (s : Bindings) (k : Nat) : Nat :=
  ((s.find? fun b => same k b.1).map Prod.snd).getD 0

/-- The bindings of all other keys. -/
def Bindings.without (same : Nat → Nat → Bool) (s : Bindings) (k : Nat) : Bindings :=
  s.filter fun b => !same k b.1

/-- The intended effect of a call, and the value that `get` and `remove` return (0 for the others).
`same` tells which keys are the same key. -/
def Bindings.step (same : Nat → Nat → Bool) (s : Bindings) : MapOp → Nat × Bindings
  | .put k v => if k = 0 ∨ v = 0 then (0, s) else (0, (k, v) :: s.without same k)
  | .get k => if k = 0 then (0, s) else (s.lookup same k, s)
  | .remove k => if k = 0 then (0, s) else (s.lookup same k, s.without same k)
  | .reset => (0, s)
  | .next => (0, s)

/-- A history of calls. -/
def Bindings.run (same : Nat → Nat → Bool) (s : Bindings) : List MapOp → List Nat × Bindings
  | [] => ([], s)
  | op :: ops =>
    let (o, s) := s.step same op
    let (os, s) := Bindings.run same s ops
    (o :: os, s)

/-- `same` is an equivalence relation. -/
def Equiv (same : Nat → Nat → Bool) : Prop :=
  (∀ a, same a a = true) ∧ (∀ a b, same a b = true → same b a = true) ∧
    ∀ a b c, same a b = true → same b c = true → same a c = true

end Wizard.Spec

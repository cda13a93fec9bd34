/-! The mathematical object an ordered map is meant to be: its bindings in ascending key order. -/
namespace Wizard.Spec

/-- A comparison function orders the keys: a total preorder. -/
structure IsOrder (C : Nat → Nat → Int) : Prop where
  refl : ∀ a, C a a = 0
  swap : ∀ a b, C a b < 0 ↔ 0 < C b a
  trans : ∀ a b c, C a b ≤ 0 → C b c ≤ 0 → C a c ≤ 0

/-- The comparison of the keys themselves. -/
def natOrder (a b : Nat) : Int := if b < a then 1 else if a < b then -1 else 0

/-- Bindings (key, value) in ascending key order. -/
abbrev SMap := List (Nat × Nat)

/-- The keys are strictly ascending. -/
def SMap.Ascending (C : Nat → Nat → Int) (s : SMap) : Prop := s.Pairwise fun a b => C a.1 b.1 < 0

/-- The value bound to a key (NULL if there is none). -/
def SMap.get (C : Nat → Nat → Int) (s : SMap) (k : Nat) : Nat :=
  ((s.find? fun b => C b.1 k == 0).map Prod.snd).getD 0

/-- Bind a key. -/
def SMap.put (C : Nat → Nat → Int) (s : SMap) (k v : Nat) : SMap :=
  (s.filter fun b => C b.1 k < 0) ++ (k, v) :: s.filter fun b => 0 < C b.1 k

/-- Remove a key. -/
def SMap.remove (C : Nat → Nat → Int) (s : SMap) (k : Nat) : SMap := s.filter fun b => C b.1 k != 0

/-- The calls of an ordered map. -/
inductive SMapOp where
  | put (k v : Nat)
  | get (k : Nat)
  | remove (k : Nat)
  | removeValue (v : Nat)
  | reset
  | next

/-- The intended effect of a call and what it returns (for `removeValue` the key that was bound to the
value, the smallest one if there are several; 0 for the calls without result here). -/
def SMap.step (C : Nat → Nat → Int) (s : SMap) : SMapOp → Nat × SMap
  | .put k v => (0, s.put C k v)
  | .get k => (s.get C k, s)
  | .remove k => (s.get C k, s.remove C k)
  | .removeValue v =>
    match s.find? fun b => b.2 == v with
    | none => (0, s)
    | some b => (b.1, s.remove C b.1)
  | .reset => (0, s)
  | .next => (0, s)

/-- A history of calls. -/
def SMap.run (C : Nat → Nat → Int) (s : SMap) : List SMapOp → List Nat × SMap
  | [] => ([], s)
  | op :: ops =>
    let (o, s) := s.step C op
    let (os, s) := SMap.run C s ops
    (o :: os, s)

end Wizard.Spec

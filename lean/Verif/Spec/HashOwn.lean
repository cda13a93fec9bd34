import Verif.Model.HashOwn
/-! Who owns the keys and values of a hash map. -/
namespace Wizard.Spec.HashOwn
open Wizard

/-- The calls; a put comes with what memory there is. -/
inductive HashOp where
  | put (room : Room) (k v : Nat)
  | get (k : Nat)
  | remove (k : Nat)
  | resetIterator
  | next

/-- What a call reports, relinquishes and hands back. -/
def exec (own : Callbacks) (o : HashOps) (m : HMap) : HashOp → Res (Bool × Ledger × HMap)
  | .put room k v => putOwned own o room m k v
  | .get k => do let r ← getFromHashmap o m k; .ok (true, {}, r.2)
  | .remove k => do let r ← removeEntryOwned own o m k; .ok (true, r.1, r.2)
  | .resetIterator => .ok (true, {}, resetHashmap m)
  | .next => do let r ← getNextEntry m; .ok (true, {}, r.2)

/-- A history of calls: what they report, relinquish and hand back. -/
def run (own : Callbacks) (o : HashOps) : HMap → List HashOp → Res (List Bool × Ledger × HMap)
  | m, [] => .ok ([], {}, m)
  | m, op :: ops => do
    let r ← exec own o m op
    let t ← run own o r.2.2 ops
    .ok (r.1 :: t.1, r.2.1.append t.2.1, t.2.2)

/-- The keys and values of the puts that report success: the map has taken them. -/
def takenKeys : List HashOp → List Bool → List Nat
  | .put _ k _ :: ops, true :: bs => k :: takenKeys ops bs
  | _ :: ops, _ :: bs => takenKeys ops bs
  | _, _ => []

def takenValues : List HashOp → List Bool → List Nat
  | .put _ _ v :: ops, true :: bs => v :: takenValues ops bs
  | _ :: ops, _ :: bs => takenValues ops bs
  | _, _ => []

/-- The table is large enough, or can grow, whenever a put asks for it. -/
def Grows (own : Callbacks) (o : HashOps) : HMap → List HashOp → Prop
  | _, [] => True
  | m, op :: ops => (∀ room k v, op = .put room k v → room.table = true ∧ m.capacity < 4194301) ∧ ∀ b lg m', exec own o m op = .ok (b, lg, m') → Grows own o m' ops

/-- The keys and values in the map. -/
def heldKeys (m : HMap) : List Nat := (m.map.flatMap bucketVals).map (·.key)
def heldValues (m : HMap) : List Nat := (m.map.flatMap bucketVals).map (·.value)

/-- The value a lookup finds, if any. -/
def Finds (o : HashOps) (m : HMap) (k v : Nat) : Prop := ∃ m', getFromHashmap o m k = .ok (v, m')

end Wizard.Spec.HashOwn

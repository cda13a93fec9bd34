import Verif.Model.SplayOwn
/-! Who owns the keys and values of a splay tree. -/
namespace Wizard.Spec.Own
open Wizard

/-- The calls. -/
inductive OwnOp where
  | put (k v : Nat)
  | get (k : Nat)
  | remove (k : Nat)
  | delete (k : Nat)
  | removeValue (v : Nat)
  | deleteValue (v : Nat)
  | resetIterator
  | next

/-- The calls on the library's object: what they relinquish and hand back. -/
def exec (own : Callbacks) (cmp : Option (Nat → Nat → Int)) (s : SplayTree) : OwnOp → Res (Ledger × SplayTree)
  | .put k v => addOwned own cmp s k v
  | .get k => do let r ← getFromSplay cmp s k; .ok ({}, r.2)
  | .remove k => removeOwned own cmp s k
  | .delete k => deleteOwned own cmp s k
  | .removeValue v => removeValueOwned own cmp s v
  | .deleteValue v => deleteValueOwned own cmp s v
  | .resetIterator => .ok ({}, resetSplay s)
  | .next => do let r ← nextInSplay cmp s; .ok ({}, r.2)

/-- A history of calls. -/
def run (own : Callbacks) (cmp : Option (Nat → Nat → Int)) : SplayTree → List OwnOp → Res (Ledger × SplayTree)
  | s, [] => .ok ({}, s)
  | s, op :: ops => do
    let r ← exec own cmp s op
    let t ← run own cmp r.2 ops
    .ok (r.1.append t.1, t.2)

/-- The keys that are handed to the tree. -/
def putKeys (ops : List OwnOp) : List Nat := ops.filterMap fun op => match op with | .put k _ => some k | _ => none

/-- The values that are handed to the tree, without NULL. -/
def putValues (ops : List OwnOp) : List Nat := (ops.filterMap fun op => match op with | .put _ v => some v | _ => none).filter (· ≠ 0)

/-- The calls that remove no binding by themselves. -/
def OwnOp.keeps : OwnOp → Bool
  | .put _ _ | .get _ | .resetIterator | .next => true
  | _ => false

/-- No NULL key is put. -/
def NoNullKey (ops : List OwnOp) : Prop := 0 ∉ putKeys ops

/-- A tree of nodes with their addresses. -/
inductive Placed where
  | nil
  | node (a : Nat) (l : Placed) (k v : Nat) (r : Placed)

def Placed.tree : Placed → STree
  | .nil => .nil
  | .node _ l k v r => .node l.tree k v r.tree

def Placed.addr : Placed → Nat
  | .nil => 0
  | .node a _ _ _ _ => a

def Placed.addrs : Placed → List Nat
  | .nil => []
  | .node a l _ _ r => a :: (l.addrs ++ r.addrs)

/-- The tree is in memory. -/
def Placed.In (h : NodeHeap) : Placed → Prop
  | .nil => True
  | .node a l k v r => a ≠ 0 ∧ h a = some ⟨k, v, l.addr, r.addr⟩ ∧ l.In h ∧ r.In h

/-- The keys, values and nodes that are given up, in their order. -/
def goneKeys (l : List Gone) : List Nat := l.filterMap fun g => match g with | .key p => some p | _ => none
def goneValues (l : List Gone) : List Nat := l.filterMap fun g => match g with | .value p => some p | _ => none
def goneNodes (l : List Gone) : List Nat := l.filterMap fun g => match g with | .node p => some p | _ => none

end Wizard.Spec.Own

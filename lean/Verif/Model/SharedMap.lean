import Verif.Model.Hashmap
import Verif.Model.SplayTree
import Verif.Model.Shared
import Verif.Spec.Map
import Verif.Spec.SortedMap
/-! hashmap.c, splay-tree.c: a hash map and a splay tree that several threads use. -/
namespace Wizard
open Wizard.Spec

/-- hashmap.c:727-728, 1508-1509, 1759-1760: before they take the semaphore, the calls look at their arguments only. -/
def hashCheck (op : MapOp) (_ : HMap) : Option Nat :=
  match op with
  | .put k v => if k = 0 ∨ v = 0 then some 0 else none
  | .get k => if k = 0 then some 0 else none
  | .remove k => if k = 0 then some 0 else none
  | .reset => none
  | .next => none

/-- hashmap.c:496-518, 557-579, 729-757, 1513-1565, 1761-1799, 1889-1892: the calls with the semaphore.  The answer is the value
that `get` and `remove` return, 0 for the others.  (The lists in the map have semaphores of their own, which only a thread
that has the semaphore of the map takes.) -/
def hashLocked (o : HashOps) (op : MapOp) (m : HMap) : Res (Nat × HMap) :=
  match op with
  | .put k v => do let (_, m) ← putInHashmap o m k v; .ok (0, m)
  | .get k => getFromHashmap o m k
  | .remove k => removeFromHashmap o m k
  | .reset => .ok (0, resetHashmap m)
  | .next => do let (_, m) ← getNextEntry m; .ok (0, m)

/-- The hash map as a shared object. -/
def sharedHashmap (o : HashOps) : Shared HMap MapOp Unit Nat where
  check := hashCheck
  enter := fun _ m => .ok (m, ())
  leave := fun op _ m => hashLocked o op m

/-- `splay_tree->root == (NodeInfo *) NULL`. -/
def STree.isNil : STree → Bool
  | .nil => true
  | .node _ _ _ _ => false

/-- What a call reads of the tree before it takes the semaphore: splay-tree.c:613-614, 777-779, 831-833, 887-888, 1160-1161,
1272-1273. -/
def treeCheck (op : SMapOp) (s : SplayTree) : Option Nat :=
  match op with
  | .put _ _ => none
  | .get _ => if s.root.isNil then some 0 else none
  | .remove _ => if s.root.isNil then some 0 else none
  | .removeValue _ => if s.root.isNil then some 0 else none
  | .reset => none
  | .next => if s.root.isNil ∨ s.next = 0 then some 0 else none

/-- splay-tree.c:1274-1294 (and 615-638): splay, and free the root.  Until it has a new root (lines 1297, 1301, 641, 645) the
tree has none, although it may have nodes: these and the answer are kept. -/
def removeEnter (cmp : Option (Nat → Nat → Int)) (s : SplayTree) (key : Nat) : Res (SplayTree × Option (Option STree × Nat)) := do
  let s ← splaySplayTree cmp s key
  match s.root with
  | .nil => .ub
  | .node l k v r =>
    if cmpKeys cmp k key ≠ 0 then .ok ({ s with key := 0 }, some (none, 0))
    else .ok ({ s with root := .nil, key := 0, nodes := s.nodes - 1 }, some (some (joinSubtrees l r), v))

/-- splay-tree.c:1163-1207: find the value, and free the root. -/
def removeValueEnter (cmp : Option (Nat → Nat → Int)) (s : SplayTree) (value : Nat) :
    Res (SplayTree × Option (Option STree × Nat)) := do
  let (k, b, s) ← removeValueLoop cmp value (s.nodes + 1) s (firstKey s.root)
  if b then .ok ({ s with root := .nil }, some (some s.root, k)) else .ok (s, some (none, k))

/-- The calls from `LockSemaphoreInfo` to where an unlocked reader could tell the difference: the removals have freed the root. -/
def treeEnter (cmp : Option (Nat → Nat → Int)) (op : SMapOp) (s : SplayTree) : Res (SplayTree × Option (Option STree × Nat)) :=
  match op with
  | .remove k => removeEnter cmp s k
  | .removeValue v => removeValueEnter cmp s v
  | .put _ _ => .ok (s, none)
  | .get _ => .ok (s, none)
  | .reset => .ok (s, none)
  | .next => .ok (s, none)

/-- splay-tree.c:889-903 `GetValueFromSplayTree` with the semaphore. -/
def treeGetLocked (cmp : Option (Nat → Nat → Int)) (s : SplayTree) (key : Nat) : Res (Nat × SplayTree) := do
  let s ← splaySplayTree cmp s key
  match s.root with
  | .nil => .ub
  | .node _ k v _ => if cmpKeys cmp k key = 0 then .ok (v, s) else .ok (0, s)

/-- splay-tree.c:780-792, 834-846 `GetNextKeyInSplayTree`, `GetNextValueInSplayTree` with the semaphore. -/
def treeNextLocked (cmp : Option (Nat → Nat → Int)) (s : SplayTree) : Res (Nat × SplayTree) := do
  let s ← splaySplayTree cmp s s.next
  match s.root with
  | .nil => .ub
  | .node _ _ _ r => .ok (0, { s with next := firstKey r })

/-- From there to `UnlockSemaphoreInfo`.  For a removal: lines 1295-1308 (and 639-652, 1208-1221), the new root. -/
def treeLeave (cmp : Option (Nat → Nat → Int)) (op : SMapOp) (k : Option (Option STree × Nat)) (s : SplayTree) :
    Res (Nat × SplayTree) :=
  match k with
  | some (some t, v) => .ok (v, { s with root := t })
  | some (none, v) => .ok (v, s)
  | none =>
    match op with
    | .put k v => do let s ← addValue cmp s k v; .ok (0, s)
    | .get k => treeGetLocked cmp s k
    | .reset => .ok (0, resetSplay s)
    | .next => treeNextLocked cmp s
    | .remove _ => .ub
    | .removeValue _ => .ub

/-- The splay tree as a shared object. -/
def sharedTree (cmp : Option (Nat → Nat → Int)) : Shared SplayTree SMapOp (Option (Option STree × Nat)) Nat where
  check := treeCheck
  enter := treeEnter cmp
  leave := treeLeave cmp

end Wizard

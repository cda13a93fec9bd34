import Verif.Model.SplayTree
/-!
What a splay tree does with the keys and values it is given (wizard/splay-tree.c): which of them it hands to the callbacks `relinquish_key` and `relinquish_value`, which it hands back to the
caller, and how it releases its nodes. Simplification: the callbacks return NULL, as the ones of the library do.
-/
namespace Wizard

/-- splay-tree.c:86-91: which callbacks there are. -/
structure Callbacks where
  keys : Bool
  values : Bool

/-- splay-tree.c:177-180 and the like: NULL is not relinquished. -/
def Callbacks.key (own : Callbacks) (k : Nat) : List Nat := if own.keys ∧ k ≠ 0 then [k] else []

/-- splay-tree.c:173-176 and the like. -/
def Callbacks.value (own : Callbacks) (v : Nat) : List Nat := if own.values ∧ v ≠ 0 then [v] else []

/-- What is relinquished, and what is handed back. -/
structure Ledger where
  freedKeys : List Nat := []
  freedValues : List Nat := []
  givenKeys : List Nat := []
  givenValues : List Nat := []

def Ledger.append (a b : Ledger) : Ledger :=
  ⟨a.freedKeys ++ b.freedKeys, a.freedValues ++ b.freedValues, a.givenKeys ++ b.givenKeys, a.givenValues ++ b.givenValues⟩

/-- splay-tree.c:162-171, 616-628, 1275-1289: the node with the key, which the call replaces or removes. -/
def nodeAt (cmp : Option (Nat → Nat → Int)) (s : SplayTree) (key : Nat) : Res (Option (Nat × Nat)) :=
  match s.root with
  | .nil => .ok none
  | _ => do
    let s ← splaySplayTree cmp s key
    match s.root with
    | .nil => .ub
    | .node _ k v _ => if cmpKeys cmp k key = 0 then .ok (some (k, v)) else .ok none

/-- splay-tree.c:502-551, 1164-1206: the node with the value, which the call removes. Fuel exhaustion is `fatal`. -/
def nodeWith (cmp : Option (Nat → Nat → Int)) (value : Nat) : Nat → SplayTree → (next : Nat) → Res (Option (Nat × Nat))
  | 0, _, _ => .fatal
  | n + 1, s, next =>
    if next = 0 then .ok none
    else do
      let s ← splaySplayTree cmp s next
      match s.root with
      | .nil => .ub
      | .node _ k v r =>
        if v = value then do
          let s ← splaySplayTree cmp s k
          match s.root with
          | .nil => .ub
          | .node _ k' v' _ => if cmpKeys cmp k' k ≠ 0 then .ok none else .ok (some (k', v'))
        else nodeWith cmp value n s (firstKey r)

/-- splay-tree.c:171-182: `AddValueToSplayTree` relinquishes what it replaces. -/
def addOwned (own : Callbacks) (cmp : Option (Nat → Nat → Int)) (s : SplayTree) (k v : Nat) : Res (Ledger × SplayTree) := do
  let n ← nodeAt cmp s k
  let s ← addValue cmp s k v
  match n with
  | none => .ok ({}, s)
  | some (k', v') => .ok ({ freedKeys := own.key k', freedValues := own.value v' }, s)

/-- splay-tree.c:628-638: `DeleteNodeFromSplayTree` relinquishes the key and the value. -/
def deleteOwned (own : Callbacks) (cmp : Option (Nat → Nat → Int)) (s : SplayTree) (k : Nat) : Res (Ledger × SplayTree) := do
  let n ← nodeAt cmp s k
  let r ← removeFromSplay cmp s k
  match n with
  | none => .ok ({}, r.2.2)
  | some (k', v') => .ok ({ freedKeys := own.key k', freedValues := own.value v' }, r.2.2)

/-- splay-tree.c:1287-1294: `RemoveNodeFromSplayTree` relinquishes the key, and returns the value. -/
def removeOwned (own : Callbacks) (cmp : Option (Nat → Nat → Int)) (s : SplayTree) (k : Nat) : Res (Ledger × SplayTree) := do
  let n ← nodeAt cmp s k
  let r ← removeFromSplay cmp s k
  match n with
  | none => .ok ({}, r.2.2)
  | some (k', _) => .ok ({ freedKeys := own.key k', givenValues := if r.1 = 0 then [] else [r.1] }, r.2.2)

/-- splay-tree.c:541-552: `DeleteNodeByValueFromSplayTree` relinquishes the key and the value. -/
def deleteValueOwned (own : Callbacks) (cmp : Option (Nat → Nat → Int)) (s : SplayTree) (value : Nat) : Res (Ledger × SplayTree) := do
  let n ← nodeWith cmp value (s.nodes + 1) s (firstKey s.root)
  let r ← removeValueFromSplay cmp s value
  match n with
  | none => .ok ({}, r.2.2)
  | some (k', v') => .ok ({ freedKeys := own.key k', freedValues := own.value v' }, r.2.2)

/-- splay-tree.c:1200-1207: `RemoveNodeByValueFromSplayTree` relinquishes the value, and returns the key. -/
def removeValueOwned (own : Callbacks) (cmp : Option (Nat → Nat → Int)) (s : SplayTree) (value : Nat) : Res (Ledger × SplayTree) := do
  let n ← nodeWith cmp value (s.nodes + 1) s (firstKey s.root)
  let r ← removeValueFromSplay cmp s value
  match n with
  | none => .ok ({}, r.2.2)
  | some (_, v') => .ok ({ freedValues := own.value v', givenKeys := [r.1] }, r.2.2)

/-- splay-tree.c:68-79 `NodeInfo` in memory; the children are addresses, 0 is NULL. -/
structure NodeCell where
  key : Nat
  value : Nat
  left : Nat
  right : Nat

/-- The nodes in memory by address; `none` is memory that is not, or no longer, a node. -/
abbrev NodeHeap := Nat → Option NodeCell

def NodeHeap.set (h : NodeHeap) (a : Nat) (c : Option NodeCell) : NodeHeap := fun x => if x = a then c else h x

/-- What is given up. -/
inductive Gone where
  | key (p : Nat)
  | value (p : Nat)
  | node (a : Nat)
  deriving DecidableEq

/-- splay-tree.c:690-696 and the like: the value first, then the key. -/
def relinquishNode (own : Callbacks) (c : NodeCell) : List Gone := (own.value c.value).map .value ++ (own.key c.key).map .key

/-- splay-tree.c:703-714, 715-727: the key and the value of a child are relinquished; its key becomes the link to the pending nodes. -/
def releaseChild (own : Callbacks) (h : NodeHeap) (child pend : Nat) : Res (NodeHeap × Nat × List Gone) :=
  if child = 0 then .ok (h, pend, [])
  else match h child with
    | none => .ub
    | some c => .ok (h.set child (some { c with value := if own.values ∧ c.value ≠ 0 then 0 else c.value, key := pend }), child, relinquishNode own c)

/-- A field of a node. -/
def cellAt (h : NodeHeap) (a : Nat) : Res NodeCell :=
  match h a with
  | none => .ub
  | some c => .ok c

/-- splay-tree.c:703-730: one active node. -/
def releaseOne (own : Callbacks) (h : NodeHeap) (active pend : Nat) : Res (NodeHeap × Nat × Nat × List Gone) := do
  let c ← cellAt h active
  let l ← releaseChild own h c.left pend
  let c ← cellAt l.1 active
  let r ← releaseChild own l.1 c.right l.2.1
  let c ← cellAt r.1 active
  .ok (r.1.set active none, c.key, r.2.1, l.2.2 ++ r.2.2 ++ [.node active])

/-- splay-tree.c:701-731: the active nodes. Fuel exhaustion is `fatal`. -/
def releaseActive (own : Callbacks) : Nat → NodeHeap → (active pend : Nat) → Res (NodeHeap × Nat × List Gone)
  | 0, _, _, _ => .fatal
  | fuel + 1, h, active, pend =>
    if active = 0 then .ok (h, pend, [])
    else do
      let r ← releaseOne own h active pend
      let t ← releaseActive own fuel r.1 r.2.1 r.2.2.1
      .ok (t.1, t.2.1, r.2.2.2 ++ t.2.2)

/-- splay-tree.c:698-732: the pending nodes. -/
def releasePending (own : Callbacks) : Nat → NodeHeap → (pend : Nat) → Res (NodeHeap × List Gone)
  | 0, _, _ => .fatal
  | fuel + 1, h, pend =>
    if pend = 0 then .ok (h, [])
    else do
      let r ← releaseActive own (fuel + 1) h pend 0
      let t ← releasePending own fuel r.1 r.2.1
      .ok (t.1, r.2.2 ++ t.2)

/-- splay-tree.c:687-733 `DestroySplayTree`, and 1348-1394 `ResetSplayTree`: the root, then the others. -/
def releaseTree (own : Callbacks) (fuel : Nat) (h : NodeHeap) (root : Nat) : Res (NodeHeap × List Gone) :=
  if root = 0 then .ok (h, [])
  else match h root with
    | none => .ub
    | some c => do
      let r ← releasePending own fuel (h.set root (some { c with value := if own.values ∧ c.value ≠ 0 then 0 else c.value, key := 0 })) root
      .ok (r.1, relinquishNode own c ++ r.2)

/-- splay-tree.c:1395-1399: what `ResetSplayTree` leaves. -/
def afterReset : SplayTree := ⟨.nil, 0, 0, 0⟩

end Wizard

import Verif.Model.XmlTree
/-! `DestroyXMLTree` of wizard/xml-tree.c, on the trees of XmlTree.lean.  What a node owns (its tag, its content, its attributes and itself)
is given up together, and so are the tables of a root (its entities, default attributes and processing instructions). -/
namespace Wizard

/-- The nodes, which of them were acquired with the tables of a root (`XMLTreeRoot`), the nodes that were given up, the last one first, and the
roots whose tables were given up. -/
structure XmlLife where
  heap : XmlHeap
  whole : Nat → Bool
  gone : List Nat
  tables : List Nat

/-- xml-tree.c:2394-2426 acquires the tables of a root, xml-tree.c:172 does not: whether node `i` has tables, when `n` nodes have been acquired before. -/
def wholeAfter : Nat → List XmlOp → Nat → Bool
  | _, [], _ => false
  | n, .newTag _ :: ops, i => if i = n then true else wholeAfter (n + 1) ops i
  | n, .add _ _ _ :: ops, i => if i = n then false else wholeAfter (n + 1) ops i
  | n, .insert _ _ _ :: ops, i => wholeAfter n ops i

/-- xml-tree.c:532-591 `DestroyXMLTreeRoot`: nothing if there is a parent.  A node without tables is too small to be read as a root. -/
def destroyRoot (l : XmlLife) (x : Nat) : Res XmlLife :=
  match l.heap.parent x with
  | some _ => .ok l
  | none => if l.whole x ∧ x ∉ l.tables then .ok { l with tables := x :: l.tables } else .ub

mutual

/-- xml-tree.c:593-607 `DestroyXMLTree`.  Nodes that were given up are not to be read.  The first argument bounds the calls. -/
def destroyTree : Nat → XmlLife → Nat → Res XmlLife
  | 0, _, _ => .fatal
  | f + 1, l, x =>
    if x ∈ l.gone then .ub
    else do
      let l ← destroyChild f l (l.heap.child x)
      if x ∈ l.gone then .ub
      else do
        let l ← destroyOrdered f l (l.heap.ordered x)
        if x ∈ l.gone then .ub
        else do
          let l ← destroyRoot l x
          .ok { l with gone := x :: l.gone }

/-- xml-tree.c:506-513 `DestroyXMLTreeChild`, from `child` on. -/
def destroyChild : Nat → XmlLife → Option Nat → Res XmlLife
  | 0, _, _ => .fatal
  | _ + 1, l, none => .ok l
  | f + 1, l, some node =>
    if node ∈ l.gone then .ub
    else do
      let child := l.heap.child node
      let l ← destroyTree f { l with heap := { l.heap with child := upd l.heap.child node none } } node
      destroyChild f l child

/-- xml-tree.c:522-529 `DestroyXMLTreeOrdered`, from `ordered` on. -/
def destroyOrdered : Nat → XmlLife → Option Nat → Res XmlLife
  | 0, _, _ => .fatal
  | _ + 1, l, none => .ok l
  | f + 1, l, some node =>
    if node ∈ l.gone then .ub
    else do
      let ordered := l.heap.ordered node
      let l ← destroyTree f { l with heap := { l.heap with ordered := upd l.heap.ordered node none } } node
      destroyOrdered f l ordered

end

/-- A client's calls of `DestroyXMLTree`, one after the other. -/
def destroyAll (f : Nat) : XmlLife → List Nat → Res XmlLife
  | l, [] => .ok l
  | l, x :: xs => do
    let l ← destroyTree f l x
    destroyAll f l xs

/-- After a history of calls, with nothing given up yet. -/
def xmlLife (ops : List XmlOp) : Res XmlLife := do
  let h ← xmlRun XmlHeap.empty ops
  .ok ⟨h, wholeAfter 0 ops, [], []⟩

end Wizard

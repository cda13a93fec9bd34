import Verif.Model.Basic
/-! The child lists of wizard/xml-tree.c.  A node is a number; the fields of the nodes are kept one function per field, so that writing
a field is updating a function.  Nodes are never freed here.  Tags are the bytes before the NUL.  Allocations succeed. -/
namespace Wizard

/-- xml-tree.c:69-102 `_XMLTreeInfo`: the fields that make the tree; `size` nodes have been acquired. -/
structure XmlHeap where
  size : Nat
  tag : Nat → List Byte
  offset : Nat → Nat
  parent : Nat → Option Nat
  next : Nat → Option Nat
  sibling : Nat → Option Nat
  ordered : Nat → Option Nat
  child : Nat → Option Nat

/-- Before the first node. -/
def XmlHeap.empty : XmlHeap := ⟨0, fun _ => [], fun _ => 0, fun _ => none, fun _ => none, fun _ => none, fun _ => none, fun _ => none⟩

/-- Write one field of node `i`. -/
def upd (f : Nat → α) (i : Nat) (v : α) : Nat → α := fun j => if j = i then v else f j

/-- xml-tree.c:2394-2426 `NewXMLTreeTag` and xml-tree.c:172-180: a node with this tag and nothing else. -/
def newNode (h : XmlHeap) (tag : List Byte) : XmlHeap × Nat :=
  ({ size := h.size + 1, tag := upd h.tag h.size tag, offset := upd h.offset h.size 0, parent := upd h.parent h.size none, next := upd h.next h.size none,
     sibling := upd h.sibling h.size none, ordered := upd h.ordered h.size none, child := upd h.child h.size none }, h.size)

/-- xml-tree.c:1247-1249 and 1262-1264: go on along `link` while there is a node and its offset is at most `offset`. -/
def lastLE (link : Nat → Option Nat) (off : Nat → Nat) (offset : Nat) : Nat → Nat → Res Nat
  | 0, _ => .fatal
  | fuel + 1, node =>
    match link node with
    | none => .ok node
    | some m => if off m ≤ offset then lastLE link off offset fuel m else .ok node

/-- xml-tree.c:1253-1259: the first node of the chain with this tag, and the node before it. -/
def findTag (sibling : Nat → Option Nat) (tags : Nat → List Byte) (tag : List Byte) : Nat → Option Nat → Option Nat → Res (Option Nat × Option Nat)
  | 0, _, _ => .fatal
  | _ + 1, previous, none => .ok (previous, none)
  | fuel + 1, previous, some node => if tags node ≠ tag then findTag sibling tags tag fuel (some node) (sibling node) else .ok (previous, some node)

/-- xml-tree.c:1273-1279: the first node of the chain behind `offset`, and the node before it. -/
def siblingSpot (sibling : Nat → Option Nat) (off : Nat → Nat) (offset : Nat) : Nat → Option Nat → Option Nat → Res (Option Nat × Option Nat)
  | 0, _, _ => .fatal
  | _ + 1, previous, none => .ok (previous, none)
  | fuel + 1, previous, some node =>
    if off node ≤ offset then siblingSpot sibling off offset fuel (some node) (sibling node) else .ok (previous, some node)

/-- xml-tree.c:1239-1252: into the list of all children. -/
def insertOrdered (h : XmlHeap) (xml head child offset : Nat) : Res XmlHeap :=
  if h.offset head > offset then .ok { h with ordered := upd h.ordered child (some head), child := upd h.child xml (some child) }
  else do
    let node ← lastLE h.ordered h.offset offset (h.size + 1) head
    .ok { h with ordered := upd (upd h.ordered child (h.ordered node)) node (some child) }

/-- xml-tree.c:1270-1271: the old first one leaves the chain. -/
def dropFirst (sibling : Nat → Option Nat) : Option Nat → Option Nat → Nat → Option Nat
  | some p, some n => upd sibling p (sibling n)
  | _, _ => sibling

/-- xml-tree.c:1270-1282: the child is the first one with its tag; `node` was. -/
def insertFirst (h : XmlHeap) (head child offset : Nat) (previous node : Option Nat) : Res XmlHeap := do
  let sib := dropFirst h.sibling previous node
  let spot ← siblingSpot sib h.offset offset (h.size + 1) none (some head)
  let sib := upd sib child spot.2
  let sib := match spot.1 with
    | some q => upd sib q (some child)
    | none => sib
  .ok { h with next := upd h.next child node, sibling := sib }

/-- xml-tree.c:1260-1267: the child is not the first one with its tag. -/
def insertNext (h : XmlHeap) (node child offset : Nat) : Res XmlHeap := do
  let node ← lastLE h.next h.offset offset (h.size + 1) node
  .ok { h with next := upd (upd h.next child (h.next node)) node (some child) }

/-- xml-tree.c:1253-1283: into the lists of tags and of children with the same tag. -/
def insertSame (h : XmlHeap) (head child offset : Nat) : Res XmlHeap := do
  let r ← findTag h.sibling h.tag (h.tag child) (h.size + 1) none (some head)
  match r.2 with
  | none => insertFirst h head child offset r.1 none
  | some node => if h.offset node ≤ offset then insertNext h node child offset else insertFirst h head child offset r.1 (some node)

/-- xml-tree.c:1220-1285 `InsertTagIntoXMLTree`. -/
def insertTag (h : XmlHeap) (xml child offset : Nat) : Res XmlHeap :=
  let h := { h with ordered := upd h.ordered child none, sibling := upd h.sibling child none, next := upd h.next child none,
                    offset := upd h.offset child offset, parent := upd h.parent child (some xml) }
  match h.child xml with
  | none => .ok { h with child := upd h.child xml (some child) }
  | some head => do
    let h ← insertOrdered h xml head child offset
    insertSame h head child offset

/-- xml-tree.c:164-182 `AddChildToXMLTree`. -/
def addChild (h : XmlHeap) (xml : Nat) (tag : List Byte) (offset : Nat) : Res XmlHeap :=
  let n := newNode h tag
  insertTag n.1 xml n.2 offset

/-- xml-tree.c:927-941 `GetXMLTreeChild` with a tag. -/
def getChild (h : XmlHeap) (xml : Nat) (tag : List Byte) : Res (Option Nat) := do
  let r ← findTag h.sibling h.tag tag (h.size + 1) none (h.child xml)
  .ok r.2

/-- A client's loop with `GetXMLTreeOrdered` (xml-tree.c:997-1004), `GetNextXMLTreeTag` (778-785) or `GetXMLTreeSibling` (1152-1159):
the nodes met from `start` on. -/
def follow (link : Nat → Option Nat) : Nat → Option Nat → Res (List Nat)
  | 0, _ => .fatal
  | _ + 1, none => .ok []
  | fuel + 1, some node => do
    let rest ← follow link fuel (link node)
    .ok (node :: rest)

/-- `GetXMLTreeChild(xml,NULL)`, then `GetXMLTreeOrdered`. -/
def listChildren (h : XmlHeap) (xml : Nat) : Res (List Nat) := follow h.ordered (h.size + 1) (h.child xml)

/-- `GetXMLTreeChild(xml,tag)`, then `GetNextXMLTreeTag`. -/
def listTag (h : XmlHeap) (xml : Nat) (tag : List Byte) : Res (List Nat) := do
  let c ← getChild h xml tag
  follow h.next (h.size + 1) c

/-- `GetXMLTreeChild(xml,NULL)`, then `GetXMLTreeSibling`. -/
def listSiblings (h : XmlHeap) (xml : Nat) : Res (List Nat) := follow h.sibling (h.size + 1) (h.child xml)

/-- xml-tree.c:2468-2469: the node before `target` in the list of all children. -/
def beforeOrdered (h : XmlHeap) (target : Nat) : Nat → Nat → Res Nat
  | 0, _ => .fatal
  | fuel + 1, node =>
    match h.ordered node with
    | some m => if m = target then .ok node else beforeOrdered h target fuel m
    | none => .ub

/-- xml-tree.c:2474-2475: the node before the first one with this tag. -/
def beforeTag (sibling : Nat → Option Nat) (tags : Nat → List Byte) (tag : List Byte) : Nat → Nat → Res Nat
  | 0, _ => .fatal
  | fuel + 1, node =>
    match sibling node with
    | some m => if tags m ≠ tag then beforeTag sibling tags tag fuel m else .ok node
    | none => .ub

/-- xml-tree.c:2482-2484: the node before `target` in the list of children with the same tag, or the last one. -/
def beforeNext (next : Nat → Option Nat) (target : Nat) : Nat → Nat → Res Nat
  | 0, _ => .fatal
  | fuel + 1, node =>
    match next node with
    | none => .ok node
    | some m => if m ≠ target then beforeNext next target fuel m else .ok node

/-- xml-tree.c:2472-2481: leave the list of tags; the node from which the list of children with the same tag is searched. -/
def pruneSibling (h : XmlHeap) (first xml : Nat) : Res (XmlHeap × Nat) :=
  if h.tag first ≠ h.tag xml then do
    let node ← beforeTag h.sibling h.tag (h.tag xml) (h.size + 1) first
    match h.sibling node with
    | none => .ub
    | some s =>
      if s ≠ xml then .ok (h, s)
      else
        .ok ({ h with sibling := upd h.sibling node ((h.next xml).or (h.sibling s)) }, node)
  else .ok (h, first)

/-- xml-tree.c:2482-2486: leave the list of children with the same tag. -/
def pruneNext (h : XmlHeap) (node xml : Nat) : Res XmlHeap := do
  let node ← beforeNext h.next xml (h.size + 1) node
  match h.next node with
  | some m => .ok { h with next := upd h.next node (h.next m) }
  | none => .ok h

/-- xml-tree.c:2463-2487: leave the lists of the parent. -/
def pruneFrom (h : XmlHeap) (parent xml : Nat) : Res XmlHeap :=
  match h.child parent with
  | none => .ub
  | some first =>
    if first = xml then .ok { h with child := upd h.child parent (h.ordered xml) }
    else do
      let node ← beforeOrdered h xml (h.size + 1) first
      let h := { h with ordered := upd h.ordered node (h.ordered xml) }
      let r ← pruneSibling h first xml
      pruneNext r.1 r.2 xml

/-- xml-tree.c:2461-2488. -/
def pruneParent (h : XmlHeap) (xml : Nat) : Res XmlHeap :=
  match h.parent xml with
  | some p => pruneFrom h p xml
  | none => .ok h

/-- xml-tree.c:2459-2460: the next child with the same tag takes the place in the chain of tags. -/
def patchNext (sibling : Nat → Option Nat) (next behind : Option Nat) : Nat → Option Nat :=
  match next with
  | some n => upd sibling n behind
  | none => sibling

/-- xml-tree.c:2450-2493 `PruneTagFromXMLTree`. -/
def pruneTag (h : XmlHeap) (xml : Nat) : Res XmlHeap := do
  let h ← pruneParent { h with sibling := patchNext h.sibling (h.next xml) (h.sibling xml) } xml
  .ok { h with ordered := upd h.ordered xml none, sibling := upd h.sibling xml none, next := upd h.next xml none }

/-- What a client does to trees. -/
inductive XmlOp where
  | newTag (tag : List Byte)
  | add (parent : Nat) (tag : List Byte) (offset : Nat)
  | insert (parent child offset : Nat)

/-- One call. -/
def xmlStep (h : XmlHeap) : XmlOp → Res XmlHeap
  | .newTag tag => .ok (newNode h tag).1
  | .add parent tag offset => addChild h parent tag offset
  | .insert parent child offset => insertTag h parent child offset

/-- A history of calls. -/
def xmlRun : XmlHeap → List XmlOp → Res XmlHeap
  | h, [] => .ok h
  | h, op :: ops => do
    let h ← xmlStep h op
    xmlRun h ops

end Wizard

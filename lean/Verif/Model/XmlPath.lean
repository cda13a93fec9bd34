import Verif.Model.Path
import Verif.Model.XmlTree
import Verif.Model.Xml
/-! Paths into XML trees (wizard/xml-tree.c). -/
namespace Wizard

/-- The buffers `subnode` and `tag` (xml-tree.c:217-218, 1035-1036). -/
def tagBuffer : List Byte := List.replicate wizardPathExtent 0

/-- xml-tree.c:251-256 and 1065-1070: `j` steps along the list of all children. -/
def stepOrdered (h : XmlHeap) : Nat → Option Nat → Option Nat
  | 0, node => node
  | _ + 1, none => none
  | j + 1, some node => stepOrdered h j (h.ordered node)

/-- xml-tree.c:1060-1061, 1065: the tag and the number of steps of a component; string-private.h:52-57 `StringToLong`. -/
def pathTag (found : List Byte → Bool) (component : List Byte) : Res (List Byte × Nat) := do
  let subnode ← getPathComponent found component .subnode tagBuffer
  let tag ← getPathComponent found component .canonical tagBuffer
  .ok (textOf tag, ((strtolC 10 (textOf subnode)).1 - 1).toNat)

/-- xml-tree.c:1058-1074: one component after the other. -/
def walkPath (found : List Byte → Bool) (h : XmlHeap) : List (List Byte) → Nat → Res (Option Nat)
  | [], node => .ok (some node)
  | c :: cs, node => do
    let t ← pathTag found c
    let child ← getChild h node t.1
    match stepOrdered h t.2 child with
    | none => .ok none
    | some node => walkPath found h cs node

/-- xml-tree.c:1031-1079 `GetXMLTreePath`. -/
def getXmlPath (found : List Byte → Bool) (h : XmlHeap) (xml : Nat) (path : List Byte) : Res (Option Nat) := do
  let cs ← getPathComponents path
  walkPath found h cs xml

/-- xml-tree.c:245-248: the child with this tag; it is added if there is none. -/
def childOrAdd (h : XmlHeap) (node : Nat) (tag : List Byte) (offset : Nat) : Res (XmlHeap × Nat) := do
  match ← getChild h node tag with
  | some c => .ok (h, c)
  | none => do
    let h' ← addChild h node tag offset
    .ok (h', h.size)

/-- xml-tree.c:241-260: one component after the other, adding the ones that are missing. -/
def makePath (found : List Byte → Bool) (offset : Nat) : List (List Byte) → XmlHeap → Nat → Res (XmlHeap × Option Nat)
  | [], h, node => .ok (h, some node)
  | c :: cs, h, node => do
    let t ← pathTag found c
    let r ← childOrAdd h node t.1 offset
    match stepOrdered r.1 t.2 (some r.2) with
    | none => .ok (r.1, none)
    | some node => makePath found offset cs r.1 node

/-- xml-tree.c:212-265 `AddPathToXMLTree`. -/
def addXmlPath (found : List Byte → Bool) (h : XmlHeap) (xml : Nat) (path : List Byte) (offset : Nat) : Res (XmlHeap × Option Nat) := do
  let cs ← getPathComponents path
  makePath found offset cs h xml

end Wizard

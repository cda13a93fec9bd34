import Verif.Model.XmlParse
/-! `XMLTreeInfoToXML` of wizard/xml-tree.c.  The text written so far is a list; `extent` is the size of its buffer, and a write that
does not fit, with its NUL, is undefined.  Allocations succeed; sizes do not overflow. -/
namespace Wizard

/-- The text written so far and the size of its buffer. -/
structure XmlOut where
  text : List Byte
  extent : Nat
  deriving DecidableEq, Repr

/-- `FormatLocaleString(*source+(*length),*extent,…)`: the limit given is the size of the whole buffer, so it limits nothing. -/
def XmlOut.emit (o : XmlOut) (s : List Byte) : Res XmlOut :=
  if o.text.length + s.length < o.extent then .ok { o with text := o.text ++ s } else .ub

/-- xml-tree.c:2670-2677, 2708-2714, 2721-2727, 2748-2754, 2769-2775: make room. -/
def XmlOut.room (o : XmlOut) (n : Nat) : XmlOut :=
  if o.text.length + n + wizardPathExtent > o.extent then { o with extent := o.text.length + n + wizardPathExtent } else o

/-- xml-tree.c:2656-2667: what `EncodePredefinedEntities` encodes; `none` is a negative offset.  The NUL is written into a copy that
`AcquireString` made (string.c:146-153). -/
def cutSource (junk : Nat → Byte) (source : List Byte) : Option Nat → Res (List Byte)
  | none => .ok source
  | some k => do
    let b ← wr (source ++ 0 :: (List.range (wizardPathExtent - 1)).map junk) k 0
    .ok (textOf b)

/-- xml-tree.c:2650-2682 `EncodePredefinedEntities`. -/
def encodeEntities (junk : Nat → Byte) (source : List Byte) (offset : Option Nat) (pedantic : Bool) (o : XmlOut) : Res XmlOut := do
  let s ← cutSource junk source offset
  let c ← canonicalXMLContent junk s pedantic
  (o.room c.length).emit c

/-- xml-tree.c:2706-2707: the conversion of the difference to `ssize_t`. -/
def signedOffset (offset start : Nat) : Option Nat := if start ≤ offset ∧ offset - start < 2 ^ 63 then some (offset - start) else none

/-- xml-tree.c:2718-2719: `GetXMLTreeAttribute` (812-835) returns the value of the first attribute with the name, and the pointers are
compared: an attribute with an earlier one of its name is left out, unless both values are NULL. -/
def firstOf (before : XmlAttrs) (a : List Byte × Option (List Byte)) : Bool := match before.find? (fun b => b.1 == a.1) with
  | none => true
  | some b => b.2.isNone && a.2.isNone

/-- xml-tree.c:2721-2732: write one attribute.  A NULL value is dereferenced (`ConvertLatin1ToUTF8`, 305-318). -/
def writeAttr (junk : Nat → Byte) (a : List Byte × Option (List Byte)) (o : XmlOut) : Res XmlOut := do
  let o ← (o.room a.1.length).emit (asc ' ' :: a.1 ++ [asc '=', asc '"'])
  match a.2 with
  | none => .ub
  | some v =>
    let o ← encodeEntities junk v none true o
    o.emit [asc '"']

/-- xml-tree.c:2716-2733: the attributes; `before` are those already passed. -/
def writeAttrs (junk : Nat → Byte) (before : XmlAttrs) : XmlAttrs → XmlOut → Res XmlOut
  | [], o => .ok o
  | a :: as, o => do
    let o ← (if firstOf before a then writeAttr junk a o else .ok o)
    writeAttrs junk (before ++ [a]) as o

/-- xml-tree.c:2738-2761: the default attributes that the element does not set and that have a value; of two defaults with one name the
first counts. -/
def writeDefaults (junk : Nat → Byte) (attrs : XmlAttrs) (seen : List (List Byte)) : List (List Byte × Option (List Byte) × XmlState) → XmlOut → Res XmlOut
  | [], o => .ok o
  | (n, v, _) :: ds, o => do
    let o ← (if v.isSome && attrs.all (fun a => a.1 != n) && !seen.contains n then writeAttr junk (n, v) o else .ok o)
    writeDefaults junk attrs (seen ++ [n]) ds o

/-- xml-tree.c:2715-2763: the opening tag. -/
def writeOpen (junk : Nat → Byte) (defaults : List XmlDefaults) (tag : List Byte) (attrs : XmlAttrs) (content : List Byte) (o : XmlOut) : Res XmlOut := do
  let o ← (o.room tag.length).emit (asc '<' :: tag)
  let o ← writeAttrs junk [] attrs o
  let o ← writeDefaults junk attrs [] (((defaults.find? (fun d => d.tag == tag)).map (·.list)).getD []) o
  o.emit (if content = [] then [asc '/', asc '>'] else [asc '>'])

/-- xml-tree.c:2769-2778: the closing tag. -/
def writeClose (tag content : List Byte) (o : XmlOut) : Res XmlOut :=
  let o := o.room tag.length
  if content = [] then .ok o else o.emit (asc '<' :: asc '/' :: tag ++ [asc '>'])

/-- xml-tree.c:2684-2788 `XMLTreeTagToXML`; `parent` is the content of the parent.  It is not called for `nil`. -/
def tagToXML (junk : Nat → Byte) (defaults : List XmlDefaults) : XmlKids → List Byte → Nat → XmlOut → Res XmlOut
  | .nil, _, _, o => .ok o
  | .cons tag attrs content offset child ordered, parent, start, o => do
    let o ← encodeEntities junk (parent.drop start) (signedOffset offset start) false o
    let o ← writeOpen junk defaults tag attrs content o
    let o ← (if child = .nil then encodeEntities junk content none false o else tagToXML junk defaults child content 0 o)
    let o ← writeClose tag content o
    let next := min offset parent.length
    if ordered = .nil then encodeEntities junk (parent.drop next) none false o else tagToXML junk defaults ordered parent next o

/-- xml-tree.c:2853-2854 and 2887-2888: what is written for one instruction. -/
def piText (target body : List Byte) : List Byte :=
  asc '<' :: asc '?' :: target ++ (if body = [] then [] else [asc ' ']) ++ body ++ [asc '?', asc '>']

/-- xml-tree.c:2838-2856 and 2872-2890: the instructions of one target.  `flags` is the string behind the bodies: `>` for an instruction
behind the root, `<` for one before it, and its NUL; `skip` is the one left out, `item` what is written for a body.  The next body is
taken with the index `j` before `j` is incremented. -/
def piLoop (bodies : List (List Byte)) (flags : List Byte) (skip : Byte) (item : List Byte → List Byte) (n : Nat) : Nat → Nat → Option (List Byte) → XmlOut → Res XmlOut
  | 0, _, _, _ => .fatal
  | _ + 1, _, none, o => .ok o
  | fuel + 1, j, some p, o => do
    let f ← rd flags (j - 1)
    if f = skip then piLoop bodies flags skip item n fuel (j + 1) bodies[j - 1]? o
    else do
      let o ← (o.room (p.length + n)).emit (item p)
      piLoop bodies flags skip item n fuel (j + 1) bodies[j - 1]? o

/-- xml-tree.c:1713-1714: the flags of a target. -/
def piFlags (p : XmlPI) : List Byte := p.bodies.map (fun b => if b.2 then asc '<' else asc '>') ++ [0]

/-- xml-tree.c:2831-2857 and 2865-2891: the instructions of all targets; `pre` for those before the root. -/
def writePIs (pre : Bool) : List XmlPI → XmlOut → Res XmlOut
  | [], o => .ok o
  | p :: ps, o => do
    let bodies := p.bodies.map (·.1)
    let o ← piLoop bodies (piFlags p) (if pre then asc '>' else asc '<')
      (fun b => if pre then piText p.target b ++ [0x0a] else 0x0a :: piText p.target b) p.target.length (bodies.length + 2) 1 bodies[0]? o
    writePIs pre ps o

/-- xml-tree.c:2790-2893 `XMLTreeInfoToXML` for the element `n` of the tree `r`: `none` is NULL.  `pis` are the instructions to be
written: those of the tree when the element is its root, else none (2830 and 2864).  The element is written as if it had no parent and no
sibling (2859-2860), but with its offset. -/
def elementToXML (junk : Nat → Byte) (defaults : List XmlDefaults) (pis : List XmlPI) (n : XmlOpen) : Res (Option (List Byte)) :=
  match n.tag with
  | none => .ok none
  | some tag => do
    let o ← writePIs true pis ⟨[], wizardPathExtent⟩
    let o ← tagToXML junk defaults (.cons tag n.attrs n.content n.offset n.kids .nil) [] 0 o
    let o ← writePIs false pis o
    .ok (some o.text)

/-- `XMLTreeInfoToXML` for the root. -/
def xmlTreeInfoToXML (junk : Nat → Byte) (r : XmlRoot) (n : XmlOpen) : Res (Option (List Byte)) := elementToXML junk r.defaults r.pis n

end Wizard

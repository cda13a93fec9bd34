import Verif.Model.Xml
import Verif.Model.StringOps
/-! `NewXMLTree` of wizard/xml-tree.c.  A pointer into the document is the list of the bytes from there to the terminating NUL, so the empty
list is a pointer to that NUL.  The NULs the code writes into the document lie behind the pointer, or are taken back, and are not modelled;
what `ParseEntities` writes behind the text it is given (only when the text ends in a line end with a carriage return) is not carried over.
Strings that stay in the tree are copies.  Allocations succeed; `char` is signed; the locale is C. -/
namespace Wizard

/-- xml-tree.c:69 `XMLWhitespace`. -/
def isXmlSpace (c : Byte) : Bool := c == 0x09 || c == 0x0d || c == 0x0a || c == 0x20

/-- The attributes of an element in order: name and value; `none` is the NULL pointer. -/
abbrev XmlAttrs := List (List Byte × Option (List Byte))

/-- xml-tree.c:76-99, elements as they hang together by `child` (the first child) and `ordered` (the next child of the same parent).  The
links `next` and `sibling` are modelled in XmlTree.lean. -/
inductive XmlKids where
  | nil
  | cons (tag : List Byte) (attrs : XmlAttrs) (content : List Byte) (offset : Nat) (child : XmlKids) (ordered : XmlKids)
  deriving DecidableEq, Repr

/-- An element that is still open; `kids` are its closed children.  `tag` is NULL in a root before its tag is read. -/
structure XmlOpen where
  tag : Option (List Byte)
  attrs : XmlAttrs
  content : List Byte
  offset : Nat
  kids : XmlKids
  deriving DecidableEq, Repr

/-- An element behind the last of some elements. -/
def XmlKids.snoc : XmlKids → XmlOpen → XmlKids
  | .nil, n => .cons (n.tag.getD []) n.attrs n.content n.offset n.kids .nil
  | .cons t a c o k r, n => .cons t a c o k (r.snoc n)

/-- One target of processing instructions, with the instructions in order; `true` says the instruction stood before the root. -/
structure XmlPI where
  target : List Byte
  bodies : List (List Byte × Bool)
  deriving DecidableEq, Repr

/-- Default attributes of a tag: name, value and `state` for `ParseEntities`. -/
structure XmlDefaults where
  tag : List Byte
  list : List (List Byte × Option (List Byte) × XmlState)
  deriving DecidableEq, Repr

/-- xml-tree.c:104-128.  `stack` is `root->node` and its ancestors, innermost first; it is empty when `root->node` is NULL, and then
`closed` is the root. -/
structure XmlRoot where
  stack : List XmlOpen
  closed : Option XmlOpen
  standalone : Bool
  pis : List XmlPI
  entities : List (List Byte × List Byte)
  defaults : List XmlDefaults
  ignore : Nat
  deriving DecidableEq, Repr

/-- The element an open element will be: xml-tree.c:1958-1959 hangs it into the tree when it is opened; here it is hung in when it is
closed, or when the reading ends.  It comes last: its offset is the length of the content so far, which no child's exceeds (see C54). -/
def hangUp : List XmlOpen → Option XmlOpen
  | [] => none
  | [n] => some n
  | n :: m :: up => hangUp ({ m with kids := m.kids.snoc n } :: up)
termination_by l => l.length

/-- The root of the tree that `NewXMLTree` returns. -/
def XmlRoot.tree (r : XmlRoot) : Option XmlOpen := match r.stack with
  | [] => r.closed
  | s => hangUp s

/-- xml-tree.c:2394-2425 `NewXMLTreeTag(NULL)`, with the locals of `NewXMLTree` (2050-2052). -/
def newRoot : XmlRoot := ⟨[⟨none, [], [], 0, .nil⟩], none, false, [], predefinedEntities, [], 0⟩

/-- What the model is given: what uninitialised memory holds, and `ParseInternalDoctype` (xml-tree.c:1719-1948) on the text of an internal
subset, which is not modelled here (its entity declarations are modelled by `declareEntity`); `none` is a subset it refuses. -/
structure XmlEnv where
  junk : Nat → Byte
  doctype : XmlRoot → List Byte → Res (Option XmlRoot)

/-- xml-tree.c:1573-1596 `ParseCharacterContent`; `after` lies behind the text in memory. -/
def parseCharacterContent (e : XmlEnv) (fuel : Nat) (r : XmlRoot) (text after : List Byte) (st : XmlState) : Res XmlRoot :=
  match r.stack with
  | [] => .ok r
  | n :: up =>
    if n.tag = none ∨ text = [] then .ok r
    else do
      let v ← parseEntities e.junk fuel (text ++ 0 :: after) r.entities st
      .ok { r with stack := { n with content := n.content ++ v } :: up }

/-- xml-tree.c:1598-1610 `ParseCloseTag`: `none` is "unexpected closing tag". -/
def parseCloseTag (r : XmlRoot) (tag : List Byte) : Option XmlRoot :=
  match r.stack with
  | [] => none
  | n :: up =>
    if n.tag ≠ some tag then none
    else match up with
      | [] => some { r with stack := [], closed := some n }
      | m :: up => some { r with stack := { m with kids := m.kids.snoc n } :: up }

/-- xml-tree.c:1950-1963 `ParseOpenTag`; `root->node` is not NULL. -/
def parseOpenTag (r : XmlRoot) (tag : List Byte) (attrs : XmlAttrs) : XmlRoot :=
  match r.stack with
  | [] => r
  | n :: up =>
    if n.tag = none then { r with stack := { n with tag := some tag, attrs := attrs } :: up }
    else { r with stack := ⟨some tag, attrs, [], n.content.length, .nil⟩ :: n :: up }

/-- xml-tree.c:1965-1986 `IsSkipTag`; `LocaleCompare` is 0 when the texts fold to the same. -/
def isSkipTag (tag : List Byte) : Bool :=
  tag.map asciiMap == (ascText "rdf:Bag").map asciiMap || tag.map asciiMap == (ascText "rdf:Seq").map asciiMap

/-- The C library's `strstr`: what comes before the first occurrence, and what starts with it. -/
def strstrC (pat : List Byte) : List Byte → Option (List Byte × List Byte)
  | [] => if pat = [] then some ([], []) else none
  | c :: s =>
    if pat.isPrefixOf (c :: s) then some ([], c :: s)
    else match strstrC pat s with
      | none => none
      | some (a, b) => some (c :: a, b)

/-! ### Processing instructions -/

/-- xml-tree.c:1678-1716: add an instruction to its target. -/
def addPI (target body : List Byte) (before : Bool) : List XmlPI → List XmlPI
  | [] => [⟨target, [(body, before)]⟩]
  | p :: ps => if p.target = target then { p with bodies := p.bodies ++ [(body, before)] } :: ps else p :: addPI target body before ps

/-- xml-tree.c:1714: whether the root has no tag yet. -/
def XmlRoot.before (r : XmlRoot) : Bool := match r.stack.getLast? with
  | none => false
  | some n => n.tag.isNone

/-- xml-tree.c:1664-1667. -/
def standaloneYes (s : List Byte) : Bool := match strstrC (ascText "standalone") s with
  | none => false
  | some (_, b) => (ascText "yes").isPrefixOf ((b.drop 10).dropWhile (fun c => isXmlSpace c || c == asc '=' || c == asc '\'' || c == asc '"'))

/-- xml-tree.c:1654-1661: the target and the rest of an instruction. -/
def splitPI (text : List Byte) : List Byte × List Byte :=
  let target := text.takeWhile (fun c => !isXmlSpace c)
  (target, (text.drop target.length).dropWhile isXmlSpace)

/-- xml-tree.c:1642-1717 `ParseProcessingInstructions` on the text of an instruction. -/
def parsePI (r : XmlRoot) (text : List Byte) : XmlRoot :=
  let s := splitPI text
  if s.1 = ascText "xml" then { r with standalone := r.standalone || standaloneYes s.2 }
  else { r with pis := addPI s.1 s.2 r.before r.pis }

/-- xml-tree.c:2314-2320: from the first `?` on, the text before a `?` that ends the instruction and what follows that `?`.  `p` is what
follows the `?` just found, `acc` what lies before that `?`. -/
def piEnd : List Byte → List Byte → Option (List Byte × List Byte)
  | acc, [] => some (acc, [])
  | acc, c :: p =>
    if c = asc '>' then some (acc, c :: p)
    else match _h : (c :: p).dropWhile (· != asc '?') with
      | [] => none
      | _ :: q => piEnd (acc ++ asc '?' :: (c :: p).takeWhile (· != asc '?')) q
termination_by _ p => p.length
decreasing_by
  have h1 := (List.dropWhile_sublist (l := c :: p) (fun x => x != asc '?')).length_le
  rw [_h] at h1
  simp only [List.length_cons] at h1 ⊢
  omega

/-! ### The constructs -/

/-- Where the reading goes on behind a construct, or `none` when it ends with a warning. -/
abbrev XmlNext := XmlRoot × Option (List Byte)

/-- xml-tree.c:2139-2147: how the value of an attribute is normalized. -/
def attrState (d : Option XmlDefaults) (name : List Byte) : XmlState := match d with
  | none => .attribute
  | some d => match d.list.find? (fun x => x.1 == name) with
    | none => .attribute
    | some x => x.2.2

/-- xml-tree.c:2110-2153, one attribute at `p`: the attribute and what follows it with its white space; `none` is "missing quote". -/
def xmlAttribute (e : XmlEnv) (fuel : Nat) (r : XmlRoot) (d : Option XmlDefaults) (p : List Byte) : Res (Option ((List Byte × Option (List Byte)) × List Byte)) :=
  let name := p.takeWhile (fun c => !(isXmlSpace c || c == asc '=' || c == asc '/' || c == asc '>'))
  match p.drop name.length with
  | [] => .ok (some (([], none), []))
  | c :: p =>
    if c ≠ asc '=' ∧ isSpaceC c = false then .ok (some (([], none), c :: p))
    else match p.dropWhile (fun c => isXmlSpace c || c == asc '=') with
      | [] => .ok (some ((name, none), []))
      | q :: p =>
        if q = asc '"' ∨ q = asc '\'' then
          let value := p.takeWhile (· != q)
          match p.drop value.length with
          | [] => .ok none
          | _ :: p => do
            let v ← parseEntities e.junk fuel (value ++ 0 :: p ++ [0]) r.entities (attrState d name)
            .ok (some ((name, some v), p.dropWhile isSpaceC))
        else .ok (some ((name, none), (q :: p).dropWhile isSpaceC))

/-- xml-tree.c:2088-2153: the attributes. -/
def xmlAttributes (e : XmlEnv) (r : XmlRoot) (d : Option XmlDefaults) : Nat → List Byte → XmlAttrs → Res (Option (XmlAttrs × List Byte))
  | _, [], acc => .ok (some (acc, []))
  | 0, _ :: _, _ => .fatal
  | fuel + 1, c :: p, acc =>
    if c = asc '/' ∨ c = asc '>' then .ok (some (acc, c :: p))
    else do
      match ← xmlAttribute e fuel r d (c :: p) with
      | none => .ok none
      | some x => xmlAttributes e r d fuel x.2 (acc ++ [x.1])

/-- xml-tree.c:2074-2159: the attributes of a tag, or what lies between the tag and the next `/` or `>`. -/
def tagAttributes (e : XmlEnv) (fuel : Nat) (r : XmlRoot) (tag p : List Byte) : Res (Option (XmlAttrs × List Byte)) :=
  match p with
  | [] => .ok (some ([], []))
  | c :: q =>
    if (isAlphaC c = true ∨ c = asc '_') ∧ r.ignore = 0 then
      xmlAttributes e r (r.defaults.find? (fun d => d.tag == tag)) fuel (c :: q) []
    else .ok (some ([], (c :: q).dropWhile (fun c => c != asc '/' && c != asc '>')))

/-- xml-tree.c:2160-2208: the end of a tag. -/
def tagEnd (terminal : Byte) (r : XmlRoot) (tag : List Byte) (attrs : XmlAttrs) (p : List Byte) : XmlNext :=
  if p.head? = some (asc '/') then
    let p := p.drop 1
    if (p ≠ [] ∧ p.head? ≠ some (asc '>')) ∨ (p = [] ∧ terminal ≠ asc '>') then (r, none)
    else if r.ignore ≠ 0 ∨ isSkipTag tag = true then (r, some p)
    else
      let r := parseOpenTag r tag attrs
      ((parseCloseTag r tag).getD r, some p)
  else if p.head? = some (asc '>') ∨ (p = [] ∧ terminal = asc '>') then
    if r.ignore = 0 ∧ isSkipTag tag = false then (parseOpenTag r tag attrs, some p)
    else ({ r with ignore := r.ignore + 1 }, some p)
  else (r, none)

/-- xml-tree.c:2064-2208: a tag. -/
def xmlTag (e : XmlEnv) (fuel : Nat) (terminal : Byte) (r : XmlRoot) (p : List Byte) : Res XmlNext :=
  if r.stack = [] then .ok (r, none)
  else
    let tag := p.takeWhile (fun c => !(isXmlSpace c || c == asc '/' || c == asc '>'))
    do
    match ← tagAttributes e fuel r tag ((p.drop tag.length).dropWhile isSpaceC) with
    | none => .ok (r, none)
    | some x => .ok (tagEnd terminal r tag x.1 x.2)

/-- xml-tree.c:2216-2237: a closing tag; `p` is behind the `/`. -/
def xmlClose (terminal : Byte) (r : XmlRoot) (p : List Byte) : XmlNext :=
  let tag := p.takeWhile (fun c => !(isXmlSpace c || c == asc '>'))
  let p := p.drop tag.length
  if p = [] ∧ terminal ≠ asc '>' then (r, none)
  else if r.ignore = 0 then
    match parseCloseTag r tag with
    | none => (r, none)
    | some r => (r, some (p.dropWhile isXmlSpace))
  else ({ r with ignore := r.ignore - 1 }, some (p.dropWhile isXmlSpace))

/-- xml-tree.c:2245-2254: a comment; `p` is behind the `!--`. -/
def xmlComment (terminal : Byte) (r : XmlRoot) (p : List Byte) : XmlNext :=
  match strstrC (ascText "--") p with
  | none => (r, none)
  | some (_, q) =>
    let q := q.drop 2
    if (q ≠ [] ∧ q.head? ≠ some (asc '>')) ∨ (q = [] ∧ terminal ≠ asc '>') then (r, none) else (r, some q)

/-- xml-tree.c:2261-2274: a CDATA section; `p` is behind the `![CDATA[`. -/
def xmlCdata (e : XmlEnv) (fuel : Nat) (r : XmlRoot) (p : List Byte) : Res XmlNext :=
  match strstrC (ascText "]]>") p with
  | none => .ok (r, none)
  | some (text, q) =>
    if r.ignore = 0 then do
      let r ← parseCharacterContent e fuel r text (q.drop 1 ++ [0]) .cdata
      .ok (r, some (q.drop 2))
    else .ok (r, some (q.drop 2))

/-- xml-tree.c:2282-2286: find the end of a document type; `l` says whether a `[` has been seen. -/
def doctypeEnd : Bool → List Byte → Bool × List Byte
  | l, [] => (l, [])
  | l, c :: p =>
    if (l = false ∧ c ≠ asc '>') ∨ (l = true ∧ (c ≠ asc ']' ∨ (p.dropWhile isXmlSpace).head? ≠ some (asc '>'))) then
      let q := p.dropWhile (fun c => c != asc '[' && c != asc ']' && c != asc '>')
      doctypeEnd (if q.head? = some (asc '[') then true else l) q
    else (l, c :: p)
termination_by _ p => p.length
decreasing_by exact Nat.lt_succ_of_le (List.dropWhile_sublist _).length_le

/-- xml-tree.c:2282-2307: a document type at `p`.  The internal subset reaches from the first `[` to the end found.  At the end of the
document the pointer is moved past the NUL that stands for the last byte, onto the NUL behind it. -/
def xmlDoctype (e : XmlEnv) (terminal : Byte) (r : XmlRoot) (p : List Byte) : Res XmlNext :=
  let x := doctypeEnd false p
  if x.2 = [] ∧ terminal ≠ asc '>' then .ok (r, none)
  else if x.1 = true then do
    let t := (p.dropWhile (· != asc '[')).drop 1
    match ← e.doctype r (t.take (t.length - x.2.length)) with
    | none => .ok (r, none)
    | some r => .ok (r, some (x.2.drop 1))
  else .ok (r, some x.2)

/-- xml-tree.c:2314-2329: a processing instruction; `p` is behind the `?`.  For `<?>` the length is -1: the target is then read from the
document behind the `?`, and the NUL written behind the target cuts the document there. -/
def xmlPI (terminal : Byte) (r : XmlRoot) (p : List Byte) : XmlNext :=
  if p = [] ∨ p.head? = some (asc '>') then
    if p = [] ∧ terminal ≠ asc '>' then (r, none)
    else
      let s := splitPI p
      ({ r with pis := addPI s.1 s.2 r.before r.pis }, some s.1)
  else match p.dropWhile (· != asc '?') with
    | [] => (r, none)
    | _ :: q =>
      match piEnd (p.takeWhile (· != asc '?')) q with
      | none => (r, none)
      | some (text, q) =>
        if q = [] ∧ terminal ≠ asc '>' then (r, none) else (parsePI r text, some q)

/-- xml-tree.c:2055-2337: the construct behind a `<`. -/
def xmlConstruct (e : XmlEnv) (fuel : Nat) (terminal : Byte) (r : XmlRoot) (p : List Byte) : Res XmlNext :=
  match p with
  | [] => .ok (r, none)
  | c :: q =>
    if isAlphaC c = true ∨ c = asc '_' ∨ c = asc ':' ∨ 128 ≤ c.toNat then xmlTag e fuel terminal r (c :: q)
    else if c = asc '/' then .ok (xmlClose terminal r q)
    else if (ascText "!--").isPrefixOf (c :: q) then .ok (xmlComment terminal r (q.drop 2))
    else if (ascText "![CDATA[").isPrefixOf (c :: q) then xmlCdata e fuel r (q.drop 7)
    else if (ascText "!DOCTYPE").isPrefixOf (c :: q) then xmlDoctype e terminal r (c :: q)
    else if c = asc '?' then .ok (xmlPI terminal r q)
    else .ok (r, none)

/-- xml-tree.c:2341-2353: content behind a construct. -/
def xmlText (e : XmlEnv) (fuel : Nat) (r : XmlRoot) (text after : List Byte) : Res XmlRoot :=
  if r.ignore = 0 then parseCharacterContent e fuel r text after .general else .ok r

/-- xml-tree.c:2358-2369: the end of the document: whether there is no warning. -/
def xmlFinish (r : XmlRoot) : XmlRoot × Bool := (r, r.stack.isEmpty)

/-- xml-tree.c:2053-2357: the loop, at `p` behind a `<`.  Running out of `fuel` is `.fatal`. -/
def xmlLoop (e : XmlEnv) (terminal : Byte) : Nat → XmlRoot → List Byte → Res (XmlRoot × Bool)
  | 0, _, _ => .fatal
  | fuel + 1, r, p => do
    match ← xmlConstruct e fuel terminal r p with
    | (r, none) => .ok (r, false)
    | (r, some []) => .ok (xmlFinish r)
    | (r, some (_ :: p)) =>
      match p.dropWhile (· != asc '<') with
      | [] => .ok (xmlFinish r)
      | _ :: q => do
        let r ← xmlText e fuel r (p.takeWhile (· != asc '<')) (q ++ [0])
        xmlLoop e terminal fuel r q

/-- xml-tree.c:2038-2053: from the converted document on: its last byte is taken off, and the text ends at its first NUL. -/
def parseText (e : XmlEnv) (fuel : Nat) (text : List Byte) : Res (Option (XmlRoot × Bool)) :=
  match text.getLast? with
  | none => .ok none
  | some terminal =>
    match (textOf text.dropLast).dropWhile (· != asc '<') with
    | [] => .ok none
    | _ :: p => do
      let x ← xmlLoop e terminal fuel newRoot p
      .ok (some x)

/-- xml-tree.c:1988-2370 `NewXMLTree`: `none` is NULL; else the tree, and whether no warning was raised. -/
def newXMLTree (e : XmlEnv) (fuel : Nat) (xml : List Byte) : Res (Option (XmlRoot × Bool)) :=
  if xml = [] then .ok none
  else do
    match ← convertDocument e.junk (xml ++ [0]) with
    | none => .ok none
    | some (buf, n) => do
      let t ← rdN buf 0 n
      parseText e fuel t

/-- xml-tree.c:1105-1128 `GetXMLTreeProcessingInstructions` on a tree, for a target. -/
def getPIs (r : XmlRoot) (target : List Byte) : List (List Byte) := match r.pis.find? (fun p => p.target == target) with
  | none => []
  | some p => p.bodies.map (·.1)

end Wizard

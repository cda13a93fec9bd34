import Verif.Model.Option
import Verif.Model.Utf16
import Verif.Model.Base64
/-! Escaping and entities of wizard/xml-tree.c.  Allocations succeed; `junk` is what uninitialised memory holds.  The locale is C. -/
namespace Wizard

/-- An ASCII text. -/
def ascText (s : String) : List Byte := s.toList.map asc

/-! ### CanonicalXMLContent -/

/-- xml-tree.c:305-333 `ConvertLatin1ToUTF8`: the text without its NUL. -/
def latin1ToUtf8 : List Byte → List Byte
  | [] => []
  | c :: s => if c.toNat < 0x80 then c :: latin1ToUtf8 s else (0xc0 ||| ((c >>> 6) &&& 0x3f)) :: (0x80 ||| (c &&& 0x3f)) :: latin1ToUtf8 s

/-- xml-tree.c:361: a byte that makes a text binary. -/
def isControl (c : Byte) : Bool := decide (c.toNat < 0x20) && c != 0x09 && c != 0x0a && c != 0x0d

/-- xml-tree.c:394-446: what is written for one byte; with `true`, by `FormatLocaleString`, which adds a NUL. -/
def xmlEscape (pedantic : Bool) (c : Byte) : List Byte × Bool :=
  if c = asc '&' then (ascText "&amp;", true)
  else if c = asc '<' then (ascText "&lt;", true)
  else if c = asc '>' then (ascText "&gt;", true)
  else if c = asc '"' then (ascText "&quot;", true)
  else if c = 0x0a then (if pedantic then (ascText "&#xA;", true) else ([c], false))
  else if c = 0x09 then (if pedantic then (ascText "&#x9;", true) else ([c], false))
  else if c = 0x0d then (ascText "&#xD;", true)
  else ([c], false)

/-- xml-tree.c:384-448: the loop; `extent` is the size of the buffer as the code counts it. -/
def canonicalLoop (junk : Nat → Byte) (pedantic : Bool) : List Byte → List Byte → Nat → Nat → Res (List Byte)
  | [], buf, i, _ => wr buf i 0
  | c :: s, buf, i, extent => do
    let grow := decide (i + wizardPathExtent > extent)
    let extent := if grow then extent + wizardPathExtent else extent
    let buf := if grow then reallocMem buf extent junk else buf
    let e := xmlEscape pedantic c
    let buf ← wrN buf i (if e.2 then e.1 ++ [0] else e.1)
    canonicalLoop junk pedantic s buf (i + e.1.length) extent

/-- xml-tree.c:337-451 `CanonicalXMLContent`: the text that is returned. -/
def canonicalXMLContent (junk : Nat → Byte) (content : List Byte) (pedantic : Bool) : Res (List Byte) := do
  let utf8 := latin1ToUtf8 content
  if utf8.any isControl then do
    let b ← base64Encode utf8
    .ok (ascText "<base64>" ++ b ++ ascText "</base64>")
  else do
    let buf ← canonicalLoop junk pedantic utf8 ((List.range wizardPathExtent).map junk) 0 wizardPathExtent
    .ok (textOf buf)

/-! ### ParseEntities -/

/-- The `state` of `ParseEntities` (xml-tree.c:1437-1442). -/
inductive XmlState where
  /-- `'&'`: general entities -/
  | general
  /-- `'%'`: parameter entities -/
  | parameter
  /-- `'c'`: CDATA sections -/
  | cdata
  /-- `' '`: attributes -/
  | attribute
  /-- `'*'`: attributes that are not CDATA -/
  | token
  deriving DecidableEq, Repr

/-- `memmove(mem+dst, mem+src, n)`. -/
def memmoveMem (mem : List Byte) (dst src n : Nat) : Res (List Byte) := do
  let b ← rdN mem src n
  wrN mem dst b

/-- The string that starts at `i`. -/
def strAt (mem : List Byte) (i : Nat) : Res (List Byte) := do
  let n ← strlenMem (mem.drop i)
  .ok ((mem.drop i).take n)

/-- xml-tree.c:1422-1428: line ends.  `inner` says that the position is that of the `while`, not that of the `for`. -/
def normalizeLines : Nat → Bool → List Byte → Nat → Res (List Byte)
  | 0, _, _, _ => .fatal
  | fuel + 1, inner, mem, xml => do
    let c ← rd mem xml
    if inner = false ∧ c = 0 then .ok mem
    else if c = 0x0d then do
      let mem ← wr mem xml 0x0a
      let d ← rd mem (xml + 1)
      if d = 0x0a then do
        let n ← strlenMem (mem.drop (xml + 1))
        let mem ← memmoveMem mem (xml + 1) (xml + 2) n
        normalizeLines fuel true mem (xml + 1)
      else normalizeLines fuel true mem (xml + 1)
    else normalizeLines fuel false mem (xml + 1)

/-- The value of a digit. -/
def digitVal (c : Byte) : Nat :=
  if 0x30 ≤ c.toNat ∧ c.toNat ≤ 0x39 then c.toNat - 0x30
  else if 0x41 ≤ c.toNat ∧ c.toNat ≤ 0x5a then c.toNat - 0x41 + 10
  else if 0x61 ≤ c.toNat ∧ c.toNat ≤ 0x7a then c.toNat - 0x61 + 10
  else 36

/-- The number that digits write. -/
def digitsVal (base : Nat) (l : List Byte) : Nat := l.foldl (fun a c => a * base + digitVal c) 0

/-- The C library's `strtol` on a string, for bases 10 and 16: the value, kept within `long`, and the number of bytes used. -/
def strtolC (base : Nat) (s : List Byte) : Int × Nat :=
  let w := s.takeWhile isSpaceC
  let s := s.drop w.length
  let sg := s.takeWhile (fun c => c == asc '-' || c == asc '+') |>.take 1
  let s := s.drop sg.length
  let x := if base = 16 ∧ s.head? = some (asc '0') ∧ (s[1]? = some (asc 'x') ∨ s[1]? = some (asc 'X')) ∧ (s[2]?.any (fun c => decide (digitVal c < 16))) then 2 else 0
  let s := s.drop x
  let d := s.takeWhile (fun c => decide (digitVal c < base))
  if d = [] then (0, 0)
  else
    let v : Int := if sg = [asc '-'] then -(digitsVal base d) else digitsVal base d
    (max (-(2 ^ 63)) (min v (2 ^ 63 - 1)), w.length + sg.length + x + d.length)

/-- The conversion of a `long` to `int`. -/
def toInt32 (v : Int) : Int := (BitVec.ofInt 32 v).toInt

/-- xml-tree.c:1461-1480: write the character. -/
def putChar (mem : List Byte) (xml : Nat) (c : Int) : Res (List Byte × Nat) :=
  if c < 0x80 then do
    let mem ← wr mem xml (BitVec.ofInt 8 c)
    .ok (mem, xml + 1)
  else putUtf8 c.toNat mem xml

/-- xml-tree.c:1481: remove the rest of the reference. -/
def cutReference (mem : List Byte) (xml : Nat) : Res (List Byte) := do
  match ← strchrMem (asc ';') (mem.drop xml) with
  | none => .ub
  | some k =>
    let n ← strlenMem (mem.drop (xml + k))
    memmoveMem mem xml (xml + k + 1) n

/-- xml-tree.c:1449-1482: a character reference at `xml`. -/
def charReference (mem : List Byte) (xml : Nat) : Res (List Byte × Nat) := do
  let x ← rd mem (xml + 2)
  let start := if x = asc 'x' then xml + 3 else xml + 2
  let s ← strAt mem start
  let r := strtolC (if x = asc 'x' then 16 else 10) s
  let c := toInt32 r.1
  let e ← rd mem (start + r.2)
  if c = 0 ∨ e ≠ asc ';' then .ok (mem, xml + 1)
  else do
    let p ← putChar mem xml c
    let mem ← cutReference p.1 p.2
    .ok (mem, p.2)

/-- `strncmp(mem+i, name, strlen(name)) == 0` for a name without a NUL. -/
def prefixAt (mem : List Byte) : Nat → List Byte → Res Bool
  | _, [] => .ok true
  | i, c :: name => do
    let d ← rd mem i
    if d = c then prefixAt mem (i + 1) name else .ok false

/-- xml-tree.c:1490-1494: the text of the first entity whose name follows. -/
def findEntity (mem : List Byte) (i : Nat) : List (List Byte × List Byte) → Res (Option (List Byte))
  | [] => .ok none
  | e :: es => do
    if ← prefixAt mem i e.1 then .ok (some e.2) else findEntity mem i es

/-- xml-tree.c:1507-1533: make room for `length` bytes in place of a reference; `n` is `strlen(entity)`. -/
def growText (junk : Nat → Byte) (mem : List Byte) (own : Bool) (xml length n : Nat) : Res (List Byte) :=
  let extent := xml + length + n
  if own then wr (reallocMem mem (extent + 1) junk) extent 0
  else do
    let r ← copyWizardString (List.replicate extent 0 ++ [junk extent]) mem extent
    .ok r.1

/-- xml-tree.c:1536-1538: put the text of the entity in place of the reference that ends at `e`. -/
def putEntity (mem : List Byte) (xml : Nat) (value : List Byte) : Option Nat → Res (List Byte)
  | none => wrN mem xml value
  | some k => do
    let n ← strlenMem (mem.drop (xml + k))
    let mem ← memmoveMem mem (xml + value.length) (xml + k + 1) n
    wrN mem xml value

/-- xml-tree.c:1502-1538: replace a reference.  The second part of the result says whether the text is in a buffer of its own. -/
def replaceEntity (junk : Nat → Byte) (mem : List Byte) (own : Bool) (xml : Nat) (value : List Byte) : Res (List Byte × Bool) := do
  match ← strchrMem (asc ';') (mem.drop xml) with
  | none => do
    let mem ← putEntity mem xml value none
    .ok (mem, own)
  | some k =>
    if (value.length + sizeMax - 1) % sizeMax ≥ k then do
      let n ← strlenMem (mem.drop (xml + k))
      let mem ← growText junk mem own xml value.length n
      let e ← strchrMem (asc ';') (mem.drop xml)
      let mem ← putEntity mem xml value e
      .ok (mem, true)
    else do
      let mem ← putEntity mem xml value (some k)
      .ok (mem, own)

/-- xml-tree.c:1484-1485. -/
def startsEntity (st : XmlState) (c : Byte) : Bool :=
  (c == asc '&' && (st == .general || st == .attribute || st == .token)) || (c == asc '%' && st == .parameter)

/-- Where `ParseEntities` is: the memory of the text, whether it is its own, and the position. -/
structure XmlScan where
  mem : List Byte
  own : Bool
  xml : Nat
  deriving DecidableEq, Repr

/-- xml-tree.c:1429-1547, one byte of the loop: `none` at the end of the text. -/
def entityStep (junk : Nat → Byte) (ents : List (List Byte × List Byte)) (st : XmlState) (s : XmlScan) : Res (Option XmlScan) := do
  let c ← rd s.mem s.xml
  if c = 0 then .ok none
  else do
    let d ← rd s.mem (s.xml + 1)
    if st ≠ .cdata ∧ c = asc '&' ∧ d = asc '#' then do
      let r ← charReference s.mem s.xml
      .ok (some ⟨r.1, s.own, r.2⟩)
    else if startsEntity st c then do
      match ← findEntity s.mem (s.xml + 1) ents with
      | none => .ok (some { s with xml := s.xml + 1 })
      | some v =>
        let r ← replaceEntity junk s.mem s.own s.xml v
        .ok (some ⟨r.1, r.2, s.xml⟩)
    else if (st = .attribute ∨ st = .token) ∧ isSpaceC c then do
      let mem ← wr s.mem s.xml 0x20
      .ok (some ⟨mem, s.own, s.xml + 1⟩)
    else .ok (some { s with xml := s.xml + 1 })

/-- xml-tree.c:1429-1547: the loop.  Running out of `fuel` is `.fatal`: the loop has not ended in that many steps. -/
def entityLoop (junk : Nat → Byte) (ents : List (List Byte × List Byte)) (st : XmlState) : Nat → XmlScan → Res (List Byte)
  | 0, _ => .fatal
  | fuel + 1, s => do
    match ← entityStep junk ents st s with
    | none => .ok s.mem
    | some s => entityLoop junk ents st fuel s

/-- xml-tree.c:1559-1560: remove the `i` spaces at `xml`; `n` bytes are before the NUL. -/
def dropSpaces (mem : List Byte) (xml i n : Nat) : Res (List Byte) :=
  if i ≠ 0 then memmoveMem mem xml (xml + i) (n - i + 1) else .ok mem

/-- xml-tree.c:1553-1565: one space between words. -/
def squeezeSpaces : Nat → List Byte → Nat → Res (List Byte × Nat)
  | 0, _, _ => .fatal
  | fuel + 1, mem, xml => do
    let s ← strAt mem xml
    if s = [] then .ok (mem, xml)
    else do
      let i := (s.takeWhile (· == 0x20)).length
      let mem ← dropSpaces mem xml i s.length
      let w := (s.drop i).takeWhile (· != 0x20)
      if (s.drop i).drop w.length = [] then .ok (mem, xml + w.length)
      else squeezeSpaces fuel mem (xml + w.length + 1)

/-- xml-tree.c:1566-1568: no space at the end. -/
def trimLast (mem : List Byte) (xml : Nat) : Res (List Byte) :=
  if xml = 0 then .ok mem
  else do
    let c ← rd mem (xml - 1)
    if c = 0x20 then wr mem (xml - 1) 0 else .ok mem

/-- xml-tree.c:1548-1569. -/
def squeezeToken (mem : List Byte) : Res (List Byte) := do
  let r ← squeezeSpaces (mem.length + 1) mem 0
  trimLast r.1 r.2

/-- xml-tree.c:1394-1571 `ParseEntities` on the text at the start of `mem`: the text that is returned.  The text is taken to start the
memory it lies in. -/
def parseEntities (junk : Nat → Byte) (fuel : Nat) (mem : List Byte) (ents : List (List Byte × List Byte)) (st : XmlState) : Res (List Byte) := do
  let mem ← normalizeLines (2 * mem.length + 1) false mem 0
  let mem ← entityLoop junk ents st fuel ⟨mem, false, 0⟩
  let mem ← if st = .token then squeezeToken mem else .ok mem
  .ok (textOf mem)

/-- xml-tree.c:2396-2401: the entities every tree begins with. -/
def predefinedEntities : List (List Byte × List Byte) :=
  [(ascText "lt;", ascText "&#60;"), (ascText "gt;", ascText "&#62;"), (ascText "quot;", ascText "&#34;"),
   (ascText "apos;", ascText "&#39;"), (ascText "amp;", ascText "&#38;")]

/-! ### ValidateEntities -/

/-- xml-tree.c:1631-1634: the first entity whose name does *not* follow. -/
def firstOther (rest : List Byte) (ents : List (List Byte × List Byte)) : Option (List Byte × List Byte) :=
  ents.find? (fun e => !e.1.isPrefixOf rest)

/-- xml-tree.c:1623-1638: the loop; the text has no NUL, and `sub` is the recursive call. -/
def validateFrom (tag : List Byte) (ents : List (List Byte × List Byte)) (sub : List Byte → Bool) : List Byte → Bool
  | [] => true
  | c :: rest =>
    if c ≠ asc '&' then validateFrom tag ents sub rest
    else if tag.isPrefixOf rest then false
    else match firstOther rest ents with
      | none => validateFrom tag ents sub rest
      | some e => if sub e.2 then validateFrom tag ents sub rest else false

/-- xml-tree.c:1612-1640 `ValidateEntities`; `room` is 1025 less the depth (`WizardMaxRecursionDepth` is 1024). -/
def validateEntities (tag : List Byte) (ents : List (List Byte × List Byte)) : Nat → List Byte → Bool
  | 0 => fun _ => false
  | room + 1 => validateFrom tag ents (validateEntities tag ents room)

/-! ### Entity declarations -/

/-- What a document has declared: the general and the parameter entities. -/
structure XmlDecls where
  general : List (List Byte × List Byte)
  params : List (List Byte × List Byte)
  deriving DecidableEq, Repr

/-- One declaration of an internal entity, `<!ENTITY name "text">` or `<!ENTITY % name "text">`. -/
structure XmlDecl where
  param : Bool
  name : List Byte
  text : List Byte
  deriving DecidableEq, Repr

/-- xml-tree.c:1779-1811, the part of `ParseInternalDoctype` that stores an entity: `none` is the warning "circular entity
declaration", which ends the document.  The text is followed by the NUL that is written over its closing quote and by `after`, the
rest of the document.  The list that is validated against does not yet hold the new entity. -/
def declareEntity (junk : Nat → Byte) (fuel : Nat) (after : List Byte) (d : XmlDecls) (e : XmlDecl) : Res (Option XmlDecls) := do
  let v ← parseEntities junk fuel (e.text ++ 0 :: after) d.params .parameter
  let tag := e.name ++ [asc ';']
  if validateEntities tag (if e.param then d.params else d.general) 1025 v then
    .ok (some (if e.param then { d with params := d.params ++ [(tag, v)] } else { d with general := d.general ++ [(tag, v)] }))
  else .ok none

/-- The declarations of a document in order. -/
def declareAll (junk : Nat → Byte) (fuel : Nat) (after : List Byte) : XmlDecls → List XmlDecl → Res (Option XmlDecls)
  | d, [] => .ok (some d)
  | d, e :: es => do
    match ← declareEntity junk fuel after d e with
    | none => .ok none
    | some d => declareAll junk fuel after d es

/-- xml-tree.c:2396-2401 and 1738-1745: what is declared before the first declaration. -/
def noDecls : XmlDecls := ⟨predefinedEntities, []⟩

end Wizard

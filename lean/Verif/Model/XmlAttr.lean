import Verif.Model.XmlParse
/-! `SetXMLTreeAttribute` and `SetXMLTreeContent` of wizard/xml-tree.c.  The attributes of an element are an array of pointers to strings that
the array owns, so a string is the cell that points to it.  Allocations succeed. -/
namespace Wizard

/-- A pointer of the array: not set yet, NULL, or to a string. -/
inductive XmlCell where
  | unset
  | null
  | str (s : List Byte)
  deriving DecidableEq, Repr

/-- xml-tree.c:133-134, 177, 2055 and 2419: `sentinel`, the array all elements without attributes share, or an array of their own. -/
inductive XmlCells where
  | sentinel
  | own (cells : List XmlCell)
  deriving DecidableEq, Repr

/-- The cells of an array. -/
def XmlCells.list : XmlCells → List XmlCell
  | .sentinel => [.null]
  | .own l => l

/-- A string of `NewXMLTree`: `none` is NULL. -/
def xmlCell : Option (List Byte) → XmlCell
  | none => .null
  | some s => .str s

/-- The pointers to the attributes in order. -/
def xmlPairs : XmlAttrs → List XmlCell
  | [] => []
  | (n, v) :: l => .str n :: xmlCell v :: xmlPairs l

/-- xml-tree.c:2055 and 2088-2109: the array `NewXMLTree` gives to an element.  With `l` pairs there are `2*l+2` cells; the one behind the NULL is
never set. -/
def cellsOf (a : XmlAttrs) : XmlCells :=
  match a with
  | [] => .sentinel
  | _ :: _ => .own (xmlPairs a ++ [.null, .unset])

/-- xml-tree.c:831-833 and 2537-2539: the index of the first pair with this name, or of the NULL. -/
def findCell (tag : List Byte) : List XmlCell → Nat → Res Nat
  | .null :: _, i => .ok i
  | .str s :: rest, i =>
    if s = tag then .ok i
    else
      match rest with
      | _ :: rest => findCell tag rest (i + 2)
      | [] => .ub
  | _, _ => .ub

/-- xml-tree.c:2566: the index of the NULL, from a pair on. -/
def endCell : List XmlCell → Nat → Res Nat
  | .null :: _, i => .ok i
  | .str _ :: _ :: rest, i => endCell rest (i + 2)
  | _, _ => .ub

/-- A pointer is read. -/
def xmlCellAt (l : List XmlCell) (i : Nat) : Res XmlCell :=
  match l[i]? with
  | none => .ub
  | some .unset => .ub
  | some c => .ok c

/-- xml-tree.c:828-835: the start of `GetXMLTreeAttribute`, for the attributes the element sets itself; `none` is that it sets none of this
name. -/
def ownAttribute (a : XmlCells) (tag : List Byte) : Res (Option XmlCell) := do
  let i ← findCell tag a.list 0
  let n ← xmlCellAt a.list i
  if n = .null then .ok none
  else do
    let v ← xmlCellAt a.list (i + 1)
    .ok (some v)

/-- What a client hands over as a value: NULL, a string of its own, or the pointer `GetXMLTreeAttribute` gave it for cell `k` of this element. -/
inductive XmlValue where
  | null
  | text (s : List Byte)
  | cell (k : Nat)

/-- xml-tree.c:2547-2561: a new pair at `i`, the index of the NULL.  The array is made larger, which keeps the cells there are; `strlen` reads
the string the cell behind the name points to. -/
def addCell (a : XmlCells) (i : Nat) (tag : List Byte) : Res (List XmlCell) :=
  let l : List XmlCell := match a with
    | .own l => (l ++ List.replicate (i + 4 - l.length) XmlCell.unset).take (i + 4)
    | .sentinel => [.unset, .str [], .unset, .unset]
  let l := (l.set i (.str tag)).set (i + 2) .null
  match l[i + 1]? with
  | some (.str _) => .ok l
  | _ => .ub

/-- xml-tree.c:2571 with the value; `freed` is the cell whose string has just been freed. -/
def valueText (l : List XmlCell) (freed : Nat) : XmlValue → Res (Option (List Byte))
  | .null => .ok none
  | .text s => .ok (some s)
  | .cell k => if k = freed then .ub else do
    let c ← xmlCellAt l k
    match c with
    | .str s => .ok (some s)
    | _ => .ub

/-- xml-tree.c:2574-2585: the pair at `i` goes, `j` is the index of the NULL.  The last call moves bytes of the string that cell `j-1` points to
after the cells have moved; their number is `j/2-i/2`. -/
def removeCell (l : List XmlCell) (i j : Nat) : Res (List XmlCell) :=
  if j + 2 ≤ l.length then
    let l := l.take i ++ (l.drop (i + 2)).take (j - i) ++ l.drop j
    let l := l.take (j + 2)
    match l[j - 1]? with
    | some (.str s) => if i / 2 + 1 + (j / 2 - i / 2) ≤ s.length + 1 then .ok (l.set (j - 1) (.str (s.take (i / 2) ++ s.drop (i / 2 + 1)))) else .ub
    | _ => .ub
  else .ub

/-- xml-tree.c:2523-2586 `SetXMLTreeAttribute`. -/
def setAttribute (a : XmlCells) (tag : List Byte) (value : XmlValue) : Res XmlCells := do
  let i ← findCell tag a.list 0
  let n ← xmlCellAt a.list i
  if n = .null then
    match value with
    | .null => .ok a
    | value => do
      let l ← addCell a i tag
      finish l i value
  else finish a.list i value
where
  /-- xml-tree.c:2566-2585. -/
  finish (l : List XmlCell) (i : Nat) (value : XmlValue) : Res XmlCells := do
    let j ← endCell (l.drop i) i
    let _ ← xmlCellAt l (i + 1)
    match ← valueText l (i + 1) value with
    | some s => .ok (.own (l.set (i + 1) (.str s)))
    | none => do
      let l ← removeCell l i j
      .ok (.own l)

/-- A client's calls of `SetXMLTreeAttribute`. -/
def setAttributes : XmlCells → List (List Byte × XmlValue) → Res XmlCells
  | a, [] => .ok a
  | a, (tag, v) :: rest => do
    let a ← setAttribute a tag v
    setAttributes a rest

end Wizard

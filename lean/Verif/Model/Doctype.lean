import Verif.Model.XmlParse
/-! `ParseInternalDoctype` of wizard/xml-tree.c: the declarations between the brackets of a document type.  As in XmlParse.lean a pointer
is the list of the bytes from there on; the empty list is a pointer to the NUL behind the declarations.  Unlike there, one of the NULs the
code writes is met again by the code itself: `AttEnd.cut` stands for it.  Allocations succeed. -/
namespace Wizard

/-- The variables of `ParseInternalDoctype` that live through a turn of its loop: the root, the parameter entities
(`predefined_entitites`), and the text `n` points to, `none` for NULL. -/
structure DocState where
  root : XmlRoot
  params : List (List Byte × List Byte)
  name : Option (List Byte)
  deriving DecidableEq, Repr

/-- xml-tree.c:1832-1836: which element the defaults go to.  The text `n` is compared: the name in the last declaration, not the tag. -/
def defaultsAt (name : Option (List Byte)) (defaults : List XmlDefaults) : Nat := match name with
  | none => 0
  | some n => (defaults.takeWhile (fun d => d.tag != n)).length

/-- xml-tree.c:1887-1922: store the default of an attribute (none: NULL) at element `i`, or at a new element. -/
def storeDefault (i : Nat) (tag : List Byte) (a : List Byte × Option (List Byte) × XmlState) (defaults : List XmlDefaults) : List XmlDefaults :=
  match defaults[i]? with
  | none => defaults ++ [⟨tag, [a]⟩]
  | some d => defaults.set i { d with list := d.list ++ [a] }

/-- Where the loop over the attributes leaves the pointer. -/
inductive AttEnd where
  /-- on a NUL the loop has written -/
  | cut
  /-- on a byte of the declarations -/
  | at (p : List Byte)
  deriving DecidableEq, Repr

/-- xml-tree.c:1851-1867: behind the name of an attribute: its state, and what follows its type and `#FIXED`.  `none`: no `)`. -/
def attType (p : List Byte) : Option (XmlState × List Byte) :=
  let p := p.dropWhile isXmlSpace
  let st := if (ascText "CDATA").isPrefixOf p then XmlState.attribute else .token
  let p := if (ascText "NOTATION").isPrefixOf p then (p.drop 8).dropWhile isXmlSpace else p
  let p := if p.head? = some (asc '(') then
      if asc ')' ∈ p then some (p.dropWhile (· != asc ')')) else none
    else some (p.dropWhile (fun c => !isXmlSpace c))
  match p with
  | none => none
  | some p =>
    let p := p.dropWhile (fun c => isXmlSpace c || c == asc ')')
    let p := if (ascText "#FIXED").isPrefixOf p then (p.drop 6).dropWhile isXmlSpace else p
    some (st, p)

/-- xml-tree.c:1837-1923: the attributes of a declaration.  `none`: malformed.  `e` is where the pointer is, `p` what follows it. -/
def attLoop (junk : Nat → Byte) (fuel : Nat) (i : Nat) (tag : List Byte) : Nat → XmlRoot → AttEnd → List Byte → Res (Option (XmlRoot × AttEnd))
  | 0, _, _, _ => .ub
  | steps + 1, r, e, p =>
    let n := p.dropWhile isXmlSpace
    if n = [] ∨ n.head? = some (asc '>') then .ok (some (r, e))
    else
      let name := n.takeWhile (fun c => !isXmlSpace c)
      match n.dropWhile (fun c => !isXmlSpace c) with
      | [] => .ok none
      | _ :: p =>
        match attType p with
        | none => .ok none
        | some (st, p) =>
          match p with
          | [] => .ok none
          | c :: q =>
            if c = asc '#' then
              let w := q.dropWhile (fun c => !isXmlSpace c && c != asc '>')
              let last := ((c :: q).drop ((c :: q).length - w.length - 1))
              if st = .attribute then attLoop junk fuel i tag steps r (.at last) w
              else attLoop junk fuel i tag steps { r with defaults := storeDefault i tag (name, none, st) r.defaults } (.at last) w
            else if c = asc '"' ∨ c = asc '\'' then
              match q.dropWhile (· != c) with
              | [] => .ok none
              | _ :: rest => do
                let v ← parseEntities junk fuel (q.takeWhile (· != c) ++ 0 :: rest) r.entities st
                attLoop junk fuel i tag steps { r with defaults := storeDefault i tag (name, some v, st) r.defaults } .cut rest
            else .ok none

/-- What a turn of the loop leads to. -/
inductive DocNext where
  /-- the next turn, from this pointer on -/
  | go (s : DocState) (p : List Byte)
  /-- `break`, or a NULL pointer: the declarations are read -/
  | stop (s : DocState)
  /-- `return WizardFalse` -/
  | fail
  deriving DecidableEq, Repr

/-- A turn that goes on where `strchr` or `strstr` has found something, or stops with a NULL pointer. -/
def goOn (s : DocState) : Option (List Byte) → DocNext
  | none => .stop s
  | some p => .go s p

/-- The C library's `strchr`. -/
def strchrP (c : Byte) (p : List Byte) : Option (List Byte) := if c ∈ p then some (p.dropWhile (· != c)) else none

/-- xml-tree.c:1753-1812: an entity; `p` is behind `<!ENTITY`.  In an external one the text `n` points to reaches beyond a `>`; no tag
does, and the empty text stands for it. -/
def docEntity (junk : Nat → Byte) (fuel : Nat) (s : DocState) (p : List Byte) : Res DocNext :=
  if (p.head?.map isXmlSpace).getD false = false then .ok (.stop s)
  else
    let c := p.dropWhile isXmlSpace
    let n := c.dropWhile (fun b => isXmlSpace b || b == asc '%')
    if (n.head?.map (fun b => isAlphaC b || b == asc '_')).getD false = false then .ok (.stop s)
    else
      let name := n.takeWhile (fun b => !isXmlSpace b)
      match n.dropWhile (fun b => !isXmlSpace b) with
      | [] => .ok (.stop s)
      | _ :: w =>
        match w.dropWhile isXmlSpace with
        | [] => .ok (.stop s)
        | q :: v =>
          if q ≠ asc '"' ∧ q ≠ asc '\'' then .ok (goOn { s with name := some [] } (strchrP (asc '>') w))
          else do
            let rest := v.dropWhile (· != q)
            match ← declareEntity junk fuel (rest.drop 1) ⟨s.root.entities, s.params⟩ ⟨c.head? = some (asc '%'), name, v.takeWhile (· != q)⟩ with
            | none => .ok .fail
            | some d =>
              let s := { root := { s.root with entities := d.general }, params := d.params, name := some (name ++ [asc ';']) }
              .ok (if rest = [] then .stop s else .go s (rest.drop 1))

/-- xml-tree.c:1815-1924: the attributes of an element; `p` is behind `<!ATTLIST`.  Behind the loop `n` points to a `>` or to a NUL; no
tag starts so, and the empty text stands for it. -/
def docAttlist (junk : Nat → Byte) (fuel : Nat) (s : DocState) (p : List Byte) : Res DocNext :=
  let t := p.dropWhile isXmlSpace
  if t = [] then .ok .fail
  else
    let tag := t.takeWhile (fun c => !isXmlSpace c && c != asc '>')
    let x := t.dropWhile (fun c => !isXmlSpace c && c != asc '>')
    if x.head? = some (asc '>') then .ok (.go s x)
    else do
      match ← attLoop junk fuel (defaultsAt s.name s.root.defaults) tag (x.length + 1) s.root .cut (x.drop 1) with
      | none => .ok .fail
      | some (r, .cut) => .ok (.stop { s with root := r, name := some [] })
      | some (r, .at p) => .ok (.go { s with root := r, name := some [] } p)

/-- xml-tree.c:1752-1944: a turn of the loop at a `<` or a `%`. -/
def docTurn (junk : Nat → Byte) (fuel : Nat) (s : DocState) (p : List Byte) : Res DocNext :=
  if 9 < p.length ∧ (ascText "<!ENTITY").isPrefixOf p = true then docEntity junk fuel s (p.drop 8)
  else if (ascText "<!ATTLIST").isPrefixOf p then docAttlist junk fuel s (p.drop 9)
  else if (ascText "<!--").isPrefixOf p then .ok (goOn s ((strstrC (ascText "-->") (p.drop 4)).map Prod.snd))
  else if (ascText "<?").isPrefixOf p then
    match strstrC (ascText "?>") (p.drop 2) with
    | none => .ok (.stop s)
    | some (t, rest) => .ok (.go { s with root := parsePI s.root t } (rest.drop 1))
  else if p.head? = some (asc '<') then .ok (goOn s (strchrP (asc '>') p))
  else if s.root.standalone then .ok (.go s (p.drop 1))
  else .ok (.stop s)

/-- xml-tree.c:1746-1945: the loop. -/
def docLoop (junk : Nat → Byte) (fuel : Nat) : Nat → DocState → List Byte → Res (Option DocState)
  | 0, _, _ => .ub
  | steps + 1, s, p =>
    match p.dropWhile (fun c => c != asc '<' && c != asc '%') with
    | [] => .ok (some s)
    | c :: q => do
      match ← docTurn junk fuel s (c :: q) with
      | .fail => .ok none
      | .stop s => .ok (some s)
      | .go s p => docLoop junk fuel steps s p

/-- xml-tree.c:1719-1948 `ParseInternalDoctype`; `none` is the value false (what it has stored by then is not kept here). -/
def parseInternalDoctype (junk : Nat → Byte) (fuel : Nat) (r : XmlRoot) (p : List Byte) : Res (Option XmlRoot) := do
  match ← docLoop junk fuel (p.length + 1) ⟨r, [], none⟩ p with
  | none => .ok none
  | some s => .ok (some s.root)

/-- xml-tree.c:812-852 `GetXMLTreeAttribute`: the attribute `name` of an element with this tag and these attributes, in a tree with these
defaults.  `none` is NULL. -/
def getXMLTreeAttribute (defaults : List XmlDefaults) (tag : List Byte) (attrs : XmlAttrs) (name : List Byte) : Option (List Byte) :=
  match attrs.find? (fun a => a.1 == name) with
  | some a => a.2
  | none =>
    match defaults.find? (fun d => d.tag == tag) with
    | none => none
    | some d =>
      match d.list.find? (fun x => x.1 == name) with
      | none => none
      | some x => x.2.1

end Wizard

import Verif.Spec.XmlDoc
/-! The internal subset of a document type definition (XML 1.0, sections 2.8, 3.3, 4.2 and 4.7), and what it declares. -/
namespace Wizard.Spec.Xml
open Wizard

/-- One of the declarations between the brackets, or what may stand between them (productions 28a and 29), but for lists of attributes
and references to parameter entities. -/
inductive Decl where
  | blank (s : List Byte)
  /-- `<!ENTITY gap name gap' "raw" gap''>` -/
  | entity (gap name gap' : List Byte) (quote : Byte) (raw gap'' : List Byte)
  /-- `<!ENTITY gap % gap₁ name gap' "raw" gap''>` -/
  | param (gap gap₁ name gap' : List Byte) (quote : Byte) (raw gap'' : List Byte)
  /-- `<!ENTITY gap name gap' raw>`, where `raw` starts with `SYSTEM` or `PUBLIC` -/
  | external (gap name gap' raw : List Byte)
  /-- `<!ELEMENT raw>` -/
  | element (raw : List Byte)
  /-- `<!NOTATION raw>` -/
  | notation_ (raw : List Byte)
  | comment (raw : List Byte)
  | pi (target gap body : List Byte)
  deriving DecidableEq, Repr

/-- The text of a declaration. -/
def Decl.render : Decl → List Byte
  | .blank s => s
  | .entity gap name gap' quote raw gap'' => bytes "<!ENTITY" ++ gap ++ name ++ gap' ++ [quote] ++ raw ++ [quote] ++ gap'' ++ bytes ">"
  | .param gap gap₁ name gap' quote raw gap'' => bytes "<!ENTITY" ++ gap ++ bytes "%" ++ gap₁ ++ name ++ gap' ++ [quote] ++ raw ++ [quote] ++ gap'' ++ bytes ">"
  | .external gap name gap' raw => bytes "<!ENTITY" ++ gap ++ name ++ gap' ++ raw ++ bytes ">"
  | .element raw => bytes "<!ELEMENT" ++ raw ++ bytes ">"
  | .notation_ raw => bytes "<!NOTATION" ++ raw ++ bytes ">"
  | .comment raw => bytes "<!--" ++ raw ++ bytes "-->"
  | .pi target gap body => bytes "<?" ++ target ++ gap ++ body ++ bytes "?>"

/-- White space that separates. -/
def Gap (s : List Byte) : Prop := s ≠ [] ∧ Blank s

/-- Well-formed declarations (productions 15, 16, 45, 70 to 76, 82). -/
def Decl.WF : Decl → Prop
  | .blank s => Blank s
  | .entity gap name gap' quote raw gap'' => Gap gap ∧ Name name ∧ Gap gap' ∧ (quote = 34 ∨ quote = 39) ∧ Chars raw ∧ quote ∉ raw ∧ Blank gap''
  | .param gap gap₁ name gap' quote raw gap'' => Gap gap ∧ Gap gap₁ ∧ Name name ∧ Gap gap' ∧ (quote = 34 ∨ quote = 39) ∧ Chars raw ∧ quote ∉ raw ∧ Blank gap''
  | .external gap name gap' raw => Gap gap ∧ Name name ∧ Gap gap' ∧ (bytes "SYSTEM" <+: raw ∨ bytes "PUBLIC" <+: raw) ∧ Chars raw
  | .element raw => (∃ c r, raw = c :: r ∧ Blank [c]) ∧ Chars raw ∧ (62 : Byte) ∉ raw
  | .notation_ raw => (∃ c r, raw = c :: r ∧ Blank [c]) ∧ Chars raw
  | .comment raw => Chars raw ∧ ¬ bytes "--" <:+: raw ∧ ¬ [(45 : Byte)] <:+ raw
  | .pi target gap body => Name target ∧ target.map (fun c => if 65 ≤ c.toNat ∧ c.toNat ≤ 90 then c + 32 else c) ≠ bytes "xml" ∧ Blank gap ∧ (body ≠ [] → gap ≠ []) ∧
      Chars body ∧ ¬ bytes "?>" <:+: body ∧ (∀ c, body.head? = some c → ¬ Blank [c])

/-- The general entities declared, in order: name and text (section 4.5), for texts without references. -/
def generals : List Decl → List (List Byte × List Byte)
  | [] => []
  | .entity _ name _ _ raw _ :: ds => (name, lines raw) :: generals ds
  | _ :: ds => generals ds

/-- The processing instructions, in order: target and body. -/
def declPIs : List Decl → List (List Byte × List Byte)
  | [] => []
  | .pi target _ body :: ds => (target, body) :: declPIs ds
  | _ :: ds => declPIs ds

/-- The type of an attribute (productions 54 to 59). -/
inductive AttType where
  | cdata
  | tokens (word : List Byte)
  /-- `(raw)` -/
  | choice (raw : List Byte)
  /-- `NOTATION gap (raw)` -/
  | notation_ (gap raw : List Byte)
  deriving DecidableEq, Repr

/-- The default of an attribute (production 60). -/
inductive AttDefault where
  | required
  | implied
  | value (quote : Byte) (raw : List Byte)
  | fixed (gap : List Byte) (quote : Byte) (raw : List Byte)
  deriving DecidableEq, Repr

/-- The definition of one attribute: `gap name gap₁ type gap₂ default`. -/
structure AttDef where
  gap : List Byte
  name : List Byte
  gap₁ : List Byte
  type : AttType
  gap₂ : List Byte
  dflt : AttDefault
  deriving DecidableEq, Repr

/-- A list of attributes: `<!ATTLIST gap tag defs gap'>`. -/
structure AttList where
  gap : List Byte
  tag : List Byte
  defs : List AttDef
  gap' : List Byte
  deriving DecidableEq, Repr

def AttType.render : AttType → List Byte
  | .cdata => bytes "CDATA"
  | .tokens w => w
  | .choice raw => bytes "(" ++ raw ++ bytes ")"
  | .notation_ gap raw => bytes "NOTATION" ++ gap ++ bytes "(" ++ raw ++ bytes ")"

def AttDefault.render : AttDefault → List Byte
  | .required => bytes "#REQUIRED"
  | .implied => bytes "#IMPLIED"
  | .value q raw => [q] ++ raw ++ [q]
  | .fixed gap q raw => bytes "#FIXED" ++ gap ++ [q] ++ raw ++ [q]

def AttDef.render (a : AttDef) : List Byte := a.gap ++ a.name ++ a.gap₁ ++ a.type.render ++ a.gap₂ ++ a.dflt.render

/-- The text of a list of attributes. -/
def AttList.render (l : AttList) : List Byte := bytes "<!ATTLIST" ++ l.gap ++ l.tag ++ l.defs.flatMap AttDef.render ++ l.gap' ++ bytes ">"

def AttType.WF : AttType → Prop
  | .cdata => True
  | .tokens w => w ∈ [bytes "ID", bytes "IDREF", bytes "IDREFS", bytes "ENTITY", bytes "ENTITIES", bytes "NMTOKEN", bytes "NMTOKENS"]
  | .choice raw => ∀ c ∈ raw, NameByte c ∨ Blank [c] ∨ c = 124
  | .notation_ gap raw => Gap gap ∧ ∀ c ∈ raw, NameByte c ∨ Blank [c] ∨ c = 124

def AttDefault.WF : AttDefault → Prop
  | .required => True
  | .implied => True
  | .value q raw => (q = 34 ∨ q = 39) ∧ Chars raw ∧ q ∉ raw ∧ (60 : Byte) ∉ raw
  | .fixed gap q raw => Gap gap ∧ (q = 34 ∨ q = 39) ∧ Chars raw ∧ q ∉ raw ∧ (60 : Byte) ∉ raw

/-- Well-formed lists of attributes (productions 52 to 60). -/
def AttDef.WF (a : AttDef) : Prop := Gap a.gap ∧ Name a.name ∧ Gap a.gap₁ ∧ a.type.WF ∧ Gap a.gap₂ ∧ a.dflt.WF

def AttList.WF (l : AttList) : Prop := Gap l.gap ∧ Name l.tag ∧ (∀ a ∈ l.defs, a.WF) ∧ Blank l.gap'

/-- The value a text gives an attribute of a type. -/
def ValueOf (decls : List (List Byte × List Byte)) (t : AttType) (raw v : List Byte) : Prop := Value decls (t ≠ .cdata) raw v

/-- What a definition gives elements that do not set the attribute. -/
def AttDef.Gives (decls : List (List Byte × List Byte)) (a : AttDef) (v : Option (List Byte)) : Prop := match a.dflt with
  | .required => v = none
  | .implied => v = none
  | .value _ raw => ∃ w, v = some w ∧ ValueOf decls a.type raw w
  | .fixed _ _ raw => ∃ w, v = some w ∧ ValueOf decls a.type raw w

/-- The text of an internal subset: declarations, at most one list of attributes, and white space. -/
def subsetText (ds : List Decl) (l : Option AttList) (blank : List Byte) : List Byte :=
  ds.flatMap Decl.render ++ ((l.map AttList.render).getD [] ++ blank)

/-- A document whose document type has an internal subset: `decl before <!DOCTYPE raw [decls list blank] blank'> between root behind`. -/
structure TypedDocument where
  decl : Option (List Byte)
  before : Items
  raw : List Byte
  decls : List Decl
  list : Option AttList
  blank : List Byte
  blank' : List Byte
  between : Items
  root : Items
  behind : Items
  deriving DecidableEq, Repr

/-- The text of the document type. -/
def TypedDocument.typeText (d : TypedDocument) : List Byte := bytes "<!DOCTYPE" ++ d.raw ++ bytes "[" ++ subsetText d.decls d.list d.blank ++ bytes "]" ++ d.blank' ++ bytes ">"

/-- The text of the document. -/
def TypedDocument.render (d : TypedDocument) : List Byte :=
  (match d.decl with | none => [] | some x => bytes "<?xml" ++ x ++ bytes "?>") ++ d.before.render ++ d.typeText ++ d.between.render ++ d.root.render ++ d.behind.render

/-- A well-formed document (productions 1, 22 to 28). -/
def TypedDocument.WF (d : TypedDocument) : Prop :=
  Document.WF ⟨d.decl, d.before, d.root, d.behind⟩ ∧ d.between.WF ∧ d.between.Misc ∧ Chars d.raw ∧ (91 : Byte) ∉ d.raw ∧ (93 : Byte) ∉ d.raw ∧ (62 : Byte) ∉ d.raw ∧
    (∀ x ∈ d.decls, x.WF) ∧ (∀ l, d.list = some l → l.WF) ∧ Blank d.blank ∧ Blank d.blank'

/-- What it declares. -/
def TypedDocument.dtd (d : TypedDocument) : Dtd :=
  ⟨generals d.decls, fun tag name => match d.list with
    | none => false
    | some l => l.tag == tag && l.defs.any (fun a => a.name == name && a.type != .cdata)⟩

end Wizard.Spec.Xml

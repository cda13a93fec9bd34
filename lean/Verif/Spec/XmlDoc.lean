import Verif.Spec.Xml
/-! XML documents without a document type definition (XML 1.0, sections 2.1 to 3.1), and what they write. -/
namespace Wizard.Spec.Xml
open Wizard

/-- White space (production 3). -/
def Blank (s : List Byte) : Prop := ∀ c ∈ s, c = 9 ∨ c = 10 ∨ c = 13 ∨ c = 32

/-- Characters (production 2), as far as bytes tell. -/
def Chars (s : List Byte) : Prop := ∀ c ∈ s, 32 ≤ c.toNat ∨ c = 9 ∨ c = 10 ∨ c = 13

/-- An ASCII letter. -/
def Letter (c : Byte) : Prop := (65 ≤ c.toNat ∧ c.toNat ≤ 90) ∨ (97 ≤ c.toNat ∧ c.toNat ≤ 122)

/-- A byte a name may start with (production 4); bytes above 127 belong to characters beyond ASCII. -/
def NameStart (c : Byte) : Prop := Letter c ∨ c = 95 ∨ c = 58 ∨ 128 ≤ c.toNat

/-- A byte of a name (production 4a). -/
def NameByte (c : Byte) : Prop := NameStart c ∨ c = 45 ∨ c = 46 ∨ (48 ≤ c.toNat ∧ c.toNat ≤ 57)

/-- A name (production 5). -/
def Name (s : List Byte) : Prop := (∃ c r, s = c :: r ∧ NameStart c) ∧ ∀ c ∈ s, NameByte c

/-- An attribute as it is written: white space, name, `=` with white space on both sides, and the value in quotes. -/
structure Att where
  before : List Byte
  name : List Byte
  left : List Byte
  right : List Byte
  quote : Byte
  raw : List Byte
  deriving DecidableEq, Repr

/-- What stands between tags, one thing after the other. -/
inductive Items where
  | done
  | text (raw : List Byte) (rest : Items)
  | cdata (raw : List Byte) (rest : Items)
  | comment (raw : List Byte) (rest : Items)
  | pi (target gap body : List Byte) (rest : Items)
  /-- `<!DOCTYPE raw>` -/
  | doctype (raw : List Byte) (rest : Items)
  /-- `<tag atts gap>body</tag gap'>` -/
  | elem (tag : List Byte) (atts : List Att) (gap : List Byte) (body : Items) (gap' : List Byte) (rest : Items)
  /-- `<tag atts gap/>` -/
  | empty (tag : List Byte) (atts : List Att) (gap : List Byte) (rest : Items)
  deriving DecidableEq, Repr

/-- The text of an attribute. -/
def Att.render (a : Att) : List Byte := a.before ++ a.name ++ a.left ++ [61] ++ a.right ++ [a.quote] ++ a.raw ++ [a.quote]

/-- The text of the attributes of a tag. -/
def renderAtts (as : List Att) : List Byte := as.flatMap Att.render

/-- The text. -/
def Items.render : Items → List Byte
  | .done => []
  | .text raw rest => raw ++ rest.render
  | .cdata raw rest => bytes "<![CDATA[" ++ raw ++ bytes "]]>" ++ rest.render
  | .comment raw rest => bytes "<!--" ++ raw ++ bytes "-->" ++ rest.render
  | .pi target gap body rest => bytes "<?" ++ target ++ gap ++ body ++ bytes "?>" ++ rest.render
  | .doctype raw rest => bytes "<!DOCTYPE" ++ raw ++ bytes ">" ++ rest.render
  | .elem tag atts gap body gap' rest =>
    bytes "<" ++ tag ++ renderAtts atts ++ gap ++ bytes ">" ++ body.render ++ bytes "</" ++ tag ++ gap' ++ bytes ">" ++ rest.render
  | .empty tag atts gap rest => bytes "<" ++ tag ++ renderAtts atts ++ gap ++ bytes "/>" ++ rest.render

/-- Whether the first thing is text. -/
def Items.startsText : Items → Bool
  | .text _ _ => true
  | _ => false

/-- Well-formed attributes (productions 10, 25 and 41). -/
def Att.WF (a : Att) : Prop :=
  a.before ≠ [] ∧ Blank a.before ∧ Name a.name ∧ Blank a.left ∧ Blank a.right ∧ (a.quote = 34 ∨ a.quote = 39) ∧ Chars a.raw ∧ a.quote ∉ a.raw ∧ (60 : Byte) ∉ a.raw

/-- Well-formed content (productions 14 to 21, 39, 40, 42 to 44), without references to entities, which `Means` treats. -/
def Items.WF : Items → Prop
  | .done => True
  | .text raw rest => raw ≠ [] ∧ Chars raw ∧ (60 : Byte) ∉ raw ∧ rest.startsText = false ∧ rest.WF
  | .cdata raw rest => Chars raw ∧ ¬ bytes "]]>" <:+: raw ∧ rest.WF
  | .comment raw rest => Chars raw ∧ ¬ bytes "--" <:+: raw ∧ ¬ [(45 : Byte)] <:+ raw ∧ rest.WF
  | .pi target gap body rest => Name target ∧ target.map (fun c => if 65 ≤ c.toNat ∧ c.toNat ≤ 90 then c + 32 else c) ≠ bytes "xml" ∧ Blank gap ∧ (body ≠ [] → gap ≠ []) ∧
      Chars body ∧ ¬ bytes "?>" <:+: body ∧ (∀ c, body.head? = some c → ¬ Blank [c]) ∧ rest.WF
  | .doctype raw rest => Chars raw ∧ (91 : Byte) ∉ raw ∧ (93 : Byte) ∉ raw ∧ (62 : Byte) ∉ raw ∧ rest.WF
  | .elem tag atts gap body gap' rest => Name tag ∧ (∀ a ∈ atts, a.WF) ∧ Blank gap ∧ body.WF ∧ Blank gap' ∧ rest.WF
  | .empty tag atts gap rest => Name tag ∧ (∀ a ∈ atts, a.WF) ∧ Blank gap ∧ rest.WF

/-- An element: its tag, its attributes, its character content, and its children, each with the length of the content before it. -/
inductive Tree where
  | node (tag : List Byte) (atts : List (List Byte × Option (List Byte))) (content : List Byte) (kids : List (Nat × Tree))

/-- What the declarations of a document type say about the elements: the general entities, name and text, and which attributes of which
elements have another type than CDATA. -/
structure Dtd where
  entities : List (List Byte × List Byte)
  tokens : List Byte → List Byte → Bool

/-- No declarations. -/
def noDtd : Dtd := ⟨[], fun _ _ => false⟩

/-- The value that the text of an attribute stands for (section 3.3.3): white space is spaces, and for types other than CDATA (`tokens`) the
words are separated by one space. -/
def Value (decls : List (List Byte × List Byte)) (tokens : Bool) (raw v : List Byte) : Prop :=
  ∃ o, Means attValue decls (lines raw) o ∧ (if tokens = false then v = o else ∃ ws, Words o ws ∧ v = List.intercalate [32] ws)

/-- The attributes that the attributes of a tag write. -/
inductive AttsMean (dtd : Dtd) (tag : List Byte) : List Att → List (List Byte × Option (List Byte)) → Prop
  | none : AttsMean dtd tag [] []
  | some {a as v vs} : Value dtd.entities (dtd.tokens tag a.name) a.raw v → AttsMean dtd tag as vs → AttsMean dtd tag (a :: as) ((a.name, some v) :: vs)

/-- `Denotes dtd items s c ks`: behind the content `s`, the items write the content `c` (with `s` at its start) and the children `ks`. -/
inductive Denotes (dtd : Dtd) : Items → List Byte → List Byte → List (Nat × Tree) → Prop
  | done {s} : Denotes dtd .done s s []
  | text {raw rest s v c ks} : Means content dtd.entities (lines raw) v → Denotes dtd rest (s ++ v) c ks → Denotes dtd (.text raw rest) s c ks
  | cdata {raw rest s c ks} : Denotes dtd rest (s ++ lines raw) c ks → Denotes dtd (.cdata raw rest) s c ks
  | comment {raw rest s c ks} : Denotes dtd rest s c ks → Denotes dtd (.comment raw rest) s c ks
  | pi {target gap body rest s c ks} : Denotes dtd rest s c ks → Denotes dtd (.pi target gap body rest) s c ks
  | elem {tag atts gap body gap' rest s c ks vs c' ks'} : AttsMean dtd tag atts vs → Denotes dtd body [] c' ks' → Denotes dtd rest s c ks →
      Denotes dtd (.elem tag atts gap body gap' rest) s c ((s.length, .node tag vs c' ks') :: ks)
  | empty {tag atts gap rest s c ks vs} : AttsMean dtd tag atts vs → Denotes dtd rest s c ks →
      Denotes dtd (.empty tag atts gap rest) s c ((s.length, .node tag vs [] []) :: ks)

/-- The processing instructions in order: target and body. -/
def Items.pis : Items → List (List Byte × List Byte)
  | .done => []
  | .text _ rest => rest.pis
  | .cdata _ rest => rest.pis
  | .comment _ rest => rest.pis
  | .pi target _ body rest => (target, body) :: rest.pis
  | .doctype _ rest => rest.pis
  | .elem _ _ _ body _ rest => body.pis ++ rest.pis
  | .empty _ _ _ rest => rest.pis

/-- What may stand before and behind the root (production 27), and the document type. -/
def Items.Misc : Items → Prop
  | .done => True
  | .text raw rest => Blank raw ∧ rest.Misc
  | .comment _ rest => rest.Misc
  | .pi _ _ _ rest => rest.Misc
  | .doctype _ rest => rest.Misc
  | _ => False

/-- A document: the text of the XML declaration if there is one, what stands before the root, the root, and what stands behind it. -/
structure Document where
  decl : Option (List Byte)
  before : Items
  root : Items
  behind : Items
  deriving DecidableEq, Repr

/-- The text of a document. -/
def Document.render (d : Document) : List Byte :=
  (match d.decl with | none => [] | some x => bytes "<?xml" ++ x ++ bytes "?>") ++ d.before.render ++ d.root.render ++ d.behind.render

/-- One element. -/
def IsRoot : Items → Prop
  | .elem _ _ _ _ _ .done => True
  | .empty _ _ _ .done => True
  | _ => False

/-- A well-formed document (productions 1 and 22 to 27). -/
def Document.WF (d : Document) : Prop :=
  (∀ x, d.decl = some x → (∃ c r, x = c :: r ∧ Blank [c]) ∧ Chars x ∧ ¬ bytes "?>" <:+: x) ∧ d.before.WF ∧ d.before.Misc ∧ d.root.WF ∧ IsRoot d.root ∧ d.behind.WF ∧ d.behind.Misc

end Wizard.Spec.Xml

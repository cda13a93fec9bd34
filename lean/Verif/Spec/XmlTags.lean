import Verif.Spec.XmlDoc
/-! Tags that match (XML 1.0, section 3 and productions 39 and 43). -/
namespace Wizard.Spec.Xml
open Wizard

/-- What a tag does. -/
inductive Tag where
  /-- `<name …>` -/
  | start (name : List Byte)
  /-- `</name>` -/
  | stop (name : List Byte)
  /-- `<name …/>` -/
  | empty (name : List Byte)
  deriving DecidableEq, Repr

/-- Elements, one after the other. -/
inductive Elements : List Tag → Prop
  | none : Elements []
  | empty {name l} : Elements l → Elements (.empty name :: l)
  | node {name inner l} : Elements inner → Elements l → Elements (.start name :: (inner ++ .stop name :: l))

/-- The tags of one element. -/
def OneElement (l : List Tag) : Prop :=
  (∃ name, l = [.empty name]) ∨ ∃ name inner, Elements inner ∧ l = .start name :: (inner ++ [.stop name])

/-- A tag as it is written, with the text behind it. -/
structure TagText where
  tag : Tag
  atts : List Att
  gap : List Byte
  text : List Byte
  deriving DecidableEq, Repr

/-- The name of a tag. -/
def Tag.name : Tag → List Byte
  | .start n => n
  | .stop n => n
  | .empty n => n

/-- The text of a tag and what is behind it. -/
def TagText.render (t : TagText) : List Byte := match t.tag with
  | .start n => bytes "<" ++ n ++ renderAtts t.atts ++ t.gap ++ bytes ">" ++ t.text
  | .stop n => bytes "</" ++ n ++ t.gap ++ bytes ">" ++ t.text
  | .empty n => bytes "<" ++ n ++ renderAtts t.atts ++ t.gap ++ bytes "/>" ++ t.text

/-- A closing tag. -/
def Tag.isStop : Tag → Bool
  | .stop _ => true
  | _ => false

/-- Each tag by itself is well-formed, and so is the text behind it. -/
structure TagText.WF (t : TagText) : Prop where
  name : Name t.tag.name
  gap : Blank t.gap
  none : t.tag.isStop = true → t.atts = []
  atts : ∀ a ∈ t.atts, a.WF
  values : ∃ vs, AttsMean noDtd t.tag.name t.atts vs
  chars : Chars t.text
  plain : (60 : Byte) ∉ t.text
  refs : ∃ v, Means content [] (lines t.text) v

end Wizard.Spec.Xml

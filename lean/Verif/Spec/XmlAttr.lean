import Verif.Model.XmlAttr
/-! What a client expects of the attributes of an element. -/
namespace Wizard.Spec.XmlAttr
open Wizard

/-- The value of an attribute: of the first one with this name; `none` is that there is none. -/
def valueOf (tag : List Byte) : XmlAttrs → Option (Option (List Byte))
  | [] => none
  | (n, v) :: l => if n = tag then some v else valueOf tag l

/-- The attribute gets a value, or is added behind the others. -/
def put (tag s : List Byte) : XmlAttrs → XmlAttrs
  | [] => [(tag, some s)]
  | (n, v) :: l => if n = tag then (n, some s) :: l else (n, v) :: put tag s l

/-- The calls that work: giving another value to an attribute there is, adding the first one, removing one there is not. -/
def Works (a : XmlAttrs) (tag : List Byte) : XmlValue → Prop
  | .null => valueOf tag a = none
  | .text _ => valueOf tag a ≠ none ∨ a = []
  | .cell _ => False

/-- What such a call does. -/
def after (a : XmlAttrs) (tag : List Byte) : XmlValue → XmlAttrs
  | .text s => put tag s a
  | _ => a

/-- Every call of a history works. -/
def AllWork (a : XmlAttrs) : List (List Byte × XmlValue) → Prop
  | [] => True
  | (tag, v) :: rest => Works a tag v ∧ AllWork (after a tag v) rest

/-- What the history does. -/
def afterAll (a : XmlAttrs) : List (List Byte × XmlValue) → XmlAttrs
  | [] => a
  | (tag, v) :: rest => afterAll (after a tag v) rest

end Wizard.Spec.XmlAttr

import Verif.Spec.XmlTree
/-! What a path into an XML tree means. -/
namespace Wizard.Spec.XmlPath
open Wizard Wizard.Spec.XmlTree

/-- The first child of `p` with this tag, in document order. -/
def FirstChild (s : Past) (p : Nat) (tag : List Byte) (c : Option Nat) : Prop :=
  ∃ M, DocumentOrder (s.attached p) M ∧ ((M.map (·.1)).filter (fun i => s.tags[i]? == some tag)).head? = c

/-- From `p` along the tags, always to the first child: the node, or none if there is no such child. -/
inductive Leads (s : Past) : Nat → List (List Byte) → Option Nat → Prop
  | here (p) : Leads s p [] (some p)
  | none (p t ts) : FirstChild s p t none → Leads s p (t :: ts) none
  | down (p t ts c o) : FirstChild s p t (some c) → Leads s c ts o → Leads s p (t :: ts) o

/-- A tag without the characters that mean something in a path. -/
def Plain (t : List Byte) : Prop := (0 : Byte) ∉ t ∧ asc '/' ∉ t ∧ asc ':' ∉ t ∧ asc ']' ∉ t ∧ t.length < 4096

end Wizard.Spec.XmlPath

import Verif.Spec.XmlTree
/-! What belongs to a tree. -/
namespace Wizard.Spec.XmlTree
open Wizard

/-- A node that was attached to nothing: the top of its tree. -/
def Past.Top (s : Past) (x : Nat) : Prop := x < s.tags.length ∧ ∀ e ∈ s.log, e.2.1 ≠ x

/-- The nodes of the tree below `x`, with `x`. -/
inductive Below (s : Past) (x : Nat) : Nat → Prop
  | self : Below s x x
  | child {p y o : Nat} : Below s x p → (p, y, o) ∈ s.log → Below s x y

/-- What has happened, but for the attaching of `x`. -/
def Past.without (s : Past) (x : Nat) : Past := { s with log := s.log.filter (fun e => e.2.1 != x) }

/-- The nodes that `NewXMLTreeTag` made. -/
def Made (ops : List XmlOp) (c : Nat) : Prop := ∃ ops1 tag ops2, ops = ops1 ++ .newTag tag :: ops2 ∧ c = (Past.start.run ops1).tags.length

end Wizard.Spec.XmlTree

import Verif.Model.XmlTree
/-! What a client expects of the children of a node. -/
namespace Wizard.Spec.XmlTree
open Wizard

/-- What has happened: the tags of the nodes in the order in which they were made, and who was attached to whom at which offset, in the
order in which it was done. -/
structure Past where
  tags : List (List Byte)
  log : List (Nat × Nat × Nat)  -- parent, child, offset

def Past.start : Past := ⟨[], []⟩

/-- A node gets its number when it is made. -/
def Past.step (s : Past) : XmlOp → Past
  | .newTag tag => { s with tags := s.tags ++ [tag] }
  | .add parent tag offset => { tags := s.tags ++ [tag], log := s.log ++ [(parent, s.tags.length, offset)] }
  | .insert parent child offset => { s with log := s.log ++ [(parent, child, offset)] }

/-- Parents and children exist, and a child is attached only once. -/
def Past.Allowed (s : Past) : XmlOp → Prop
  | .newTag _ => True
  | .add parent _ _ => parent < s.tags.length
  | .insert parent child _ => parent < s.tags.length ∧ child < s.tags.length ∧ ∀ e ∈ s.log, e.2.1 ≠ child

def Past.run (s : Past) (ops : List XmlOp) : Past := ops.foldl Past.step s

/-- Every call of the history is allowed. -/
def Past.AllAllowed (s : Past) : List XmlOp → Prop
  | [] => True
  | op :: ops => s.Allowed op ∧ (s.step op).AllAllowed ops

/-- The children attached to a node with their offsets, in the order in which they were attached. -/
def Past.attached (s : Past) (p : Nat) : List (Nat × Nat) := (s.log.filter (·.1 == p)).map (·.2)

/-- `M` lists what was attached by offset, and in the order of attaching for equal offsets, each exactly once. -/
def DocumentOrder (attached M : List (Nat × Nat)) : Prop :=
  M.Pairwise (fun a b => a.2 ≤ b.2) ∧ ∀ o, M.filter (·.2 == o) = attached.filter (·.2 == o)

end Wizard.Spec.XmlTree

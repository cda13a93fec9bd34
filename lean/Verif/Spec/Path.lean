import Verif.Model.Basic
/-! How a path is written: `filesystem:directory/name.extension[subnode]`. -/
namespace Wizard.Spec.Path
open Wizard

/-- A colon marks a filesystem if the whole path does not exist and what is before the colon does, or is empty; `f` is the filesystem
and `u` the rest of the path. -/
def Drive (found : List Byte → Bool) (s f u : List Byte) : Prop :=
  (f = [] ∧ u = s ∧ (asc ':' ∉ s ∨ found s = true ∨ ∃ d r, s = d ++ asc ':' :: r ∧ asc ':' ∉ d ∧ d ≠ [] ∧ found d = false)) ∨
  (s = f ++ asc ':' :: u ∧ asc ':' ∉ f ∧ found s = false ∧ (f = [] ∨ found f = true))

/-- Brackets at the end of a path mark a subnode; `v` is the path without it. -/
def Subnode (u v sub : List Byte) : Prop :=
  (sub = [] ∧ v = u ∧ ¬ ∃ a t, u = a ++ asc '[' :: t ++ [asc ']']) ∨ (u = v ++ asc '[' :: sub ++ [asc ']'] ∧ asc '[' ∉ sub)

/-- The name in a path: what is behind the last separator. -/
def NameOf (v t : List Byte) : Prop := asc '/' ∉ t ∧ (t = v ∨ ∃ h, v = h ++ asc '/' :: t)

end Wizard.Spec.Path

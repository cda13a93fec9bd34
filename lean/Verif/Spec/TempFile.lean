import Verif.Model.TempFile
/-! What temporary files are. -/
namespace Wizard.Spec.TempFile
open Wizard

/-- Names that differ in the case of letters at most. -/
def Twins (fold : Byte → Byte) (a b : List Byte) : Prop := a.map fold = b.map fold

/-- A path is that of a file directly in a directory. -/
def InDirectory (dir path : List Byte) : Prop := ∃ name : List Byte, name ≠ [] ∧ (47 : Byte) ∉ name ∧ (path = dir ++ 47 :: name ∨ dir.getLast? = some 47 ∧ path = dir ++ name)

/-- The states a program gets to that acquires temporary files and relinquishes temporary files it has, each by its name, while there are the files `others`,
the limit of files is not reached and no name differs from that of another temporary file in the case of letters only. -/
inductive Uses (fold : Byte → Byte) (env : TmpEnv) (limit : Option Nat) (others : List (List Byte)) : TmpState → Prop
  | start : Uses fold env limit others ⟨others, [], 0⟩
  | acquired {s path tries name s'} : Uses fold env limit others s → acquireUnique fold env limit path tries s = (some name, s') → (∀ k ∈ s.temps, ¬ Twins fold k name) →
      Uses fold env limit others s'
  | failed {s path tries s'} : Uses fold env limit others s → acquireUnique fold env limit path tries s = (none, s') → (∀ l, limit = some l → s.used + 1 < l) → Uses fold env limit others s'
  | relinquished {s name trash} : Uses fold env limit others s → name ∈ s.temps → Uses fold env limit others (relinquishUnique fold name trash s).2

end Wizard.Spec.TempFile

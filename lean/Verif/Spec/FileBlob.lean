import Verif.Model.FileBlob
/-! How the contents of a file are delivered. -/
namespace Wizard.Spec.FileBlob
open Wizard

/-- The calls of `read` deliver these bytes, in pieces of any sizes, with interruptions anywhere. -/
inductive Delivers : List FileRead → List Byte → Prop
  | done : Delivers [] []
  | ended : Delivers [.ended] []
  | piece {b bs rs rest} : Delivers rs rest → Delivers (.data (b :: bs) :: rs) (b :: bs ++ rest)
  | interrupted {rs rest} : Delivers rs rest → Delivers (.interrupted :: rs) rest

/-- No call is interrupted. -/
def Calm (reads : List FileRead) : Prop := FileRead.interrupted ∉ reads

/-- The size of what a call delivers. -/
def piece : FileRead → Nat
  | .data bytes => bytes.length
  | _ => 0

/-- The size of what the first call delivers. -/
def firstPiece : List FileRead → Nat
  | r :: _ => piece r
  | [] => 0

/-- Any two pieces one behind the other have at most `n` bytes together. -/
def Gentle (n : Nat) : List FileRead → Prop
  | [] => True
  | a :: rs => piece a + firstPiece rs ≤ n ∧ Gentle n rs

end Wizard.Spec.FileBlob

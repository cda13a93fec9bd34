import Verif.Model.StringVar
/-! String variables: each is NULL or has a text. -/
namespace Wizard.Spec.StringVar
open Wizard

/-- The texts of the variables. -/
abbrev Texts := Nat → Option (List Byte)

/-- The text of a source. -/
def value (t : Texts) : StrSource → Option (List Byte)
  | .null => none
  | .text s => some s
  | .inVar u k => (t u).map (List.drop k)

/-- A text is set. -/
def set (t : Texts) (v : Nat) (s : Option (List Byte)) : Texts := fun u => if u = v then s else t u

/-- What a call does. -/
def after (t : Texts) : StrCall → Texts
  | .clone v src => set t v (value t src)
  | .append v src => set t v (some ((t v).getD [] ++ (value t src).getD []))
  | .destroy v => set t v none

/-- What calls do. -/
def afterAll (t : Texts) : List StrCall → Texts
  | [] => t
  | c :: cs => afterAll (after t c) cs

/-- A source that can be read: a text without NUL, or a place in the string of a variable that has one. -/
def Readable (t : Texts) : StrSource → Prop
  | .null => True
  | .text s => (0 : Byte) ∉ s
  | .inVar u k => ∃ s, t u = some s ∧ k ≤ s.length

/-- The source is not in the string that the call changes. -/
def Apart (v : Nat) : StrSource → Prop
  | .inVar u _ => u ≠ v
  | _ => True

/-- A call that is allowed: its source can be read and is apart from its destination, and NULL is appended to NULL only. -/
def Allowed (t : Texts) : StrCall → Prop
  | .clone v src => Readable t src ∧ Apart v src
  | .append v src => Readable t src ∧ Apart v src ∧ (src = .null → t v = none)
  | .destroy _ => True

/-- All texts are at least 4096 bytes shorter than the address space. -/
def Fits (t : Texts) : Prop := ∀ v s, t v = some s → s.length + 4096 < 2 ^ 64

/-- Each call is allowed when it is made, and the texts fit after it. -/
def AllAllowed (t : Texts) : List StrCall → Prop
  | [] => True
  | c :: cs => Allowed t c ∧ Fits (after t c) ∧ AllAllowed (after t c) cs

/-- The world holds these texts: a variable with a text points at a block that begins with the text and a NUL, no two variables
at the same one, and every block belongs to a variable. -/
structure HoldsTexts (w : StrWorld) (t : Texts) : Prop where
  null : ∀ v, t v = none → w.var v = none
  text : ∀ v s, t v = some s → (0 : Byte) ∉ s ∧ ∃ b tail, w.var v = some b ∧ w.block b = some (s ++ 0 :: tail)
  apart : ∀ u v b, w.var u = some b → w.var v = some b → u = v
  owned : ∀ b, w.block b ≠ none → ∃ v, w.var v = some b
  fresh : ∀ b, w.fresh ≤ b → w.block b = none

end Wizard.Spec.StringVar

import Verif.Model.Passphrase
/-! What entering a passphrase means. -/
namespace Wizard.Spec.Pass
open Wizard

/-- A line of text the user enters: lines end with a line feed or a carriage return and contain neither. Before it they may have begun the line
and stopped the program any number of times. -/
structure Line where
  begun : List (List Byte × PSig)
  text : List Byte
  last : Byte

/-- Text without the ends of lines. -/
def Plain (b : List Byte) : Prop := ∀ x ∈ b, x ≠ 10 ∧ x ≠ 13

/-- Lines that can be entered: text of at most 4095 bytes, stopped by signals that stop a process. -/
def Line.Fits (l : Line) : Prop :=
  (∀ p ∈ l.begun, Plain p.1 ∧ (p.2 = .tstp ∨ p.2 = .ttin ∨ p.2 = .ttou)) ∧ Plain l.text ∧ l.text.length ≤ 4095 ∧ (l.last = 10 ∨ l.last = 13)

/-- What the terminal sees of a line. -/
def Line.typed (l : Line) : List PEvent :=
  l.begun.flatMap (fun p => p.1.map .byte ++ [.sig p.2]) ++ l.text.map .byte ++ [.byte l.last]

/-- The first pair of lines that are the same, and the lines after it. -/
def firstPair : List Line → Option (List Byte × List Line)
  | a :: b :: ls => if a.text = b.text then some (a.text, ls) else firstPair ls
  | _ => none

/-- The text was entered as (the end of) a line. -/
def Entered (p : List Byte) (es : List PEvent) : Prop :=
  ∃ before e after, es = before ++ p.map .byte ++ .byte e :: after ∧ (e = 10 ∨ e = 13)

end Wizard.Spec.Pass

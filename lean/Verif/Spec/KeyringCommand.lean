import Verif.Spec.KeyringPrint
/-! The program `keyring`: what it is asked and what is expected of it. -/
namespace Wizard.Spec.KeyringCommand
open Wizard Spec.Keyring Spec.KeyringPrint

/-- An argument that is no option and is not taken for one: it does not begin with `-` or `+`, and does not read `export` behind its first
byte, in any case of the letters. -/
def Plain (a : List Byte) : Prop :=
  a.head? ≠ some (asc '-') ∧ a.head? ≠ some (asc '+') ∧ (a.drop 1).map cLocaleLower ≠ ascText "export"

/-- The document around the lists. -/
def document (lists : List (List Byte)) : List Byte :=
  ascText ("<?xml version=\"1.0\"?>\n<rdf:RDF xmlns:rdf=\"http://www.w3.org/1999/02/22-rdf-syntax-ns#\"\n" ++
    "         xmlns:keyring=\"https://urban-warrior.org/WizardsToolkit/keyring/1.0/\">\n") ++ lists.flatten ++ ascText "</rdf:RDF>\n"

/-- A key ring that the program is asked to list: its path, the path as it is written, when it was changed, and its records. -/
structure Asked where
  path : List Byte
  written : List Byte
  mtime : BitVec 64
  records : List Record

/-- Its list. -/
def listOf (clock : BitVec 64 → List Byte) (now : BitVec 64) (a : Asked) : List Byte :=
  listing a.written clock a.mtime now (a.records.map publicOf)

end Wizard.Spec.KeyringCommand

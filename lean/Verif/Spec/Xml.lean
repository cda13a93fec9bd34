import Verif.Spec.Utf
/-! Entities of XML 1.0 (sections 2.11, 4.1, 4.4 and 4.6). -/
namespace Wizard.Spec.Xml
open Wizard Wizard.Spec.Utf

/-- The bytes of an ASCII text. -/
def bytes (s : String) : List Byte := s.toList.map (fun c => BitVec.ofNat 8 c.toNat)

/-- The value of a hexadecimal digit. -/
def hexDigit (c : Byte) : Option Nat :=
  if 48 ≤ c.toNat ∧ c.toNat ≤ 57 then some (c.toNat - 48)
  else if 65 ≤ c.toNat ∧ c.toNat ≤ 70 then some (c.toNat - 55)
  else if 97 ≤ c.toNat ∧ c.toNat ≤ 102 then some (c.toNat - 87)
  else none

/-- `bs` writes the number `n` in base 10 or 16. -/
def Writes (base : Nat) (bs : List Byte) (n : Nat) : Prop :=
  ∃ ds : List Nat, bs.map hexDigit = ds.map some ∧ (∀ d ∈ ds, d < base) ∧ ds ≠ [] ∧ n = ds.foldl (fun a d => a * base + d) 0

/-- The five entities every XML processor knows. -/
def predefined : List (List Byte × Byte) :=
  [(bytes "lt", 60), (bytes "gt", 62), (bytes "amp", 38), (bytes "apos", 39), (bytes "quot", 34)]

/-- `Means lit decls t o`: the text `t`, read with the declarations `decls` (name and text), stands for the characters `o`.  `lit` is
what a literal byte stands for. -/
inductive Means (lit : Byte → Byte) (decls : List (List Byte × List Byte)) : List Byte → List Byte → Prop
  | done : Means lit decls [] []
  | plain {c r o} : c ≠ 38 → c ≠ 0 → Means lit decls r o → Means lit decls (c :: r) (lit c :: o)
  | decimal {bs n r o} : Writes 10 bs n → n ≠ 0 → Scalar n → Means lit decls r o → Means lit decls (bytes "&#" ++ bs ++ bytes ";" ++ r) (utf8Char n ++ o)
  | hex {bs n r o} : Writes 16 bs n → n ≠ 0 → Scalar n → Means lit decls r o → Means lit decls (bytes "&#x" ++ bs ++ bytes ";" ++ r) (utf8Char n ++ o)
  | known {name c r o} : (name, c) ∈ predefined → Means lit decls r o → Means lit decls (bytes "&" ++ name ++ bytes ";" ++ r) (c :: o)
  | entity {name v r o} : (∀ c, (name, c) ∉ predefined) → decls.find? (fun d => d.1 == name) = some (name, v) →
      Means lit decls r o → Means lit decls (bytes "&" ++ name ++ bytes ";" ++ r) (v.map lit ++ o)

/-- In content a byte stands for itself. -/
def content (c : Byte) : Byte := c

/-- In the value of an attribute white space stands for a space (section 3.3.3). -/
def attValue (c : Byte) : Byte := if c = 9 ∨ c = 10 ∨ c = 13 then 32 else c

/-- Line ends: a carriage return, with or without a line feed behind it, is a line feed. -/
def lines : List Byte → List Byte
  | [] => []
  | [c] => if c = 13 then [10] else [c]
  | c :: x :: s =>
    if c = 13 ∧ x = 10 then 10 :: lines s
    else if c = 13 then 10 :: lines (x :: s)
    else c :: lines (x :: s)

/-- The words of a text that are separated by spaces. -/
inductive Words : List Byte → List (List Byte) → Prop
  | none {sp} : (∀ c ∈ sp, c = 32) → Words sp []
  | word {sp w rest ws} : (∀ c ∈ sp, c = 32) → w ≠ [] → (32 : Byte) ∉ w → (rest = [] ∨ rest.head? = some 32) → Words rest ws → Words (sp ++ w ++ rest) (w :: ws)

end Wizard.Spec.Xml

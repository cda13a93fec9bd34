import Verif.Model.Basic
/-! What a catalog of messages is and which messages it defines. -/
namespace Wizard.Spec.Catalog
open Wizard

/-- The bytes of a text. -/
def txt (s : String) : List Byte := s.toList.map fun c => BitVec.ofNat 8 c.toNat

/-- White space: blanks, tabs and line ends. -/
def Space (b : Byte) : Prop := b = 32 ∨ b = 9 ∨ b = 10 ∨ b = 11 ∨ b = 12 ∨ b = 13

def Spaces (s : List Byte) : Prop := ∀ b ∈ s, Space b

/-- Letters and digits. -/
def Letter (b : Byte) : Prop := (65 ≤ b ∧ b ≤ 90) ∨ (97 ≤ b ∧ b ≤ 122)
def AlNum (b : Byte) : Prop := Letter b ∨ (48 ≤ b ∧ b ≤ 57)

/-- Small letters. -/
def low (b : Byte) : Byte := if 65 ≤ b ∧ b ≤ 90 then b + 32 else b

/-- One piece of a catalog: the begin or the end of a group of messages, or a message with the space before and after its text. -/
inductive Item
  | open (name : List Byte)
  | close (name : List Byte)
  | message (name before text after : List Byte)

/-- How a piece is written. -/
def Item.text : Item → List Byte
  | .open n => txt "<" ++ n ++ txt ">"
  | .close n => txt "</" ++ n ++ txt ">"
  | .message n b t a => txt "<message name=\"" ++ n ++ txt "\">" ++ b ++ t ++ a ++ txt "</message>"

/-- A catalog: pieces, each followed by white space. -/
def body (items : List (Item × List Byte)) : List Byte := items.flatMap fun i => i.1.text ++ i.2

/-- The whole file. -/
def file (locale s1 s2 : List Byte) (items : List (Item × List Byte)) : List Byte :=
  txt "<?xml version=\"1.0\"?>" ++ s1 ++ txt "<locale name=\"" ++ locale ++ txt "\">" ++ s2 ++ body items ++ txt "</locale>"

/-- The tag of a message: the names of the groups it is in and its own, separated by slashes. -/
def tagOf (groups : List (List Byte)) (name : List Byte) : List Byte := groups.flatMap (· ++ txt "/") ++ name

/-- The messages a catalog defines, with their tags, in order. -/
def messages : List (List Byte) → List (Item × List Byte) → List (List Byte × List Byte)
  | _, [] => []
  | g, (.open n, _) :: r => messages (g ++ [n]) r
  | g, (.close _, _) :: r => messages g.dropLast r
  | g, (.message n _ t _, _) :: r => (tagOf g n, t) :: messages g r

/-- Names of groups: a letter and then letters and digits, none of the three names with a meaning of their own. -/
def GroupName (n : List Byte) : Prop :=
  (∃ c r, n = c :: r ∧ Letter c ∧ ∀ b ∈ r, AlNum b) ∧ n.map low ≠ txt "message" ∧ n.map low ≠ txt "locale" ∧ n.map low ≠ txt "localemap"

/-- Names of messages: no quotation marks, backslashes, slashes, parentheses, angle brackets or NULs. -/
def MessageName (n : List Byte) : Prop := ∀ b ∈ n, b ≠ 34 ∧ b ≠ 92 ∧ b ≠ 47 ∧ b ≠ 40 ∧ b ≠ 62 ∧ b ≠ 0

/-- Texts of messages: at most 255 bytes, no angle bracket, slash or NUL, neither beginning nor ending with white space. -/
def MessageText (t : List Byte) : Prop :=
  t.length ≤ 255 ∧ (∀ b ∈ t, b ≠ 60 ∧ b ≠ 47 ∧ b ≠ 0) ∧ (∀ b, t.head? = some b → ¬ Space b) ∧ (∀ b, t.getLast? = some b → ¬ Space b)

/-- Well-formed catalogs: groups are closed in order, messages are in a group, and no tag has more than 253 bytes. -/
def WellFormed : List (List Byte) → List (Item × List Byte) → Prop
  | _, [] => True
  | g, (.open n, s) :: r => GroupName n ∧ (tagOf (g ++ [n]) []).length ≤ 253 ∧ Spaces s ∧ WellFormed (g ++ [n]) r
  | g, (.close n, s) :: r => g.getLast? = some n ∧ Spaces s ∧ WellFormed g.dropLast r
  | g, (.message n b t a, s) :: r =>
    g ≠ [] ∧ MessageName n ∧ MessageText t ∧ Spaces b ∧ Spaces a ∧ (tagOf g n).length ≤ 253 ∧ Spaces s ∧ WellFormed g r

/-- Tags are the same if they differ only in the case of their letters. -/
def SameTag (a b : List Byte) : Prop := a.map low = b.map low

/-- The text a list of messages gives for a tag: that of the last message with the tag. -/
def TextFor (ms : List (List Byte × List Byte)) (tag text : List Byte) : Prop :=
  ∃ pre post t, ms = pre ++ (t, text) :: post ∧ SameTag t tag ∧ ∀ m ∈ post, ¬ SameTag m.1 tag

end Wizard.Spec.Catalog

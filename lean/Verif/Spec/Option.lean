import Verif.Model.Option
/-! What a list of options says. -/
namespace Wizard.Spec.Opt
open Wizard

/-- All tables in which an entry is a plain word. -/
def wordTables : List (List OptionInfo) :=
  [authenticateOptions, cipherOptions, dataTypeOptions, endianOptions, entropyLevelOptions, entropyOptions, keyLengthOptions, hashOptions,
   listOptions, logWizardEventOptions, modeOptions, resourceOptions]

/-- The entry a word names: the first one that equals it, letter case (`fold`) aside. -/
def entry (fold : Byte → Byte) (table : List OptionInfo) (word : List Byte) : Option OptionInfo :=
  table.find? (fun o => decide (word.map fold = o.mnemonic.map fold))

/-- The entry a word names, where dashes and underscores after the first letter do not matter for a word that is not an entry itself. -/
def named (fold : Byte → Byte) (table : List OptionInfo) (word : List Byte) : Option OptionInfo :=
  match entry fold table word with
  | some o => some o
  | none =>
    if asc '-' ∈ word.drop 1 ∨ asc '_' ∈ word.drop 1 then
      entry fold table (word.take 1 ++ (word.drop 1).filter (fun x => x != asc '-' && x != asc '_'))
    else none

/-- One item of a list: separators, an optional sign, an optional exclamation mark, the word, and text up to the next comma that
does not belong to the word. -/
structure Item where
  before : List Byte
  sign : List Byte
  bang : Bool
  word : List Byte
  after : List Byte
  type : BitVec 64

/-- How the item is written. -/
def Item.text (i : Item) : List Byte := i.before ++ (i.sign ++ ((if i.bang then [asc '!'] else []) ++ (i.word ++ i.after)))

/-- The items are written one after the other with a comma after each but the last. -/
def listText : List Item → List Byte
  | [] => []
  | [i] => i.text
  | i :: j :: is => i.text ++ asc ',' :: listText (j :: is)

/-- The item is written correctly. -/
structure Item.Form (i : Item) : Prop where
  before : ∀ c ∈ i.before, isSpaceC c = true ∨ c = asc ','
  sign : i.sign = [] ∨ i.sign = [asc '-'] ∨ i.sign = [asc '+']
  plain : ∀ c ∈ i.word, isSpaceC c = false ∧ c ≠ asc ',' ∧ c ≠ 0
  first : ∃ c w, i.word = c :: w ∧ c ≠ asc '!' ∧ (i.sign = [] → i.bang = false → c ≠ asc '-' ∧ c ≠ asc '+')
  short : i.word.length < 4096
  after : (∀ c ∈ i.after, c ≠ asc ',') ∧ ∀ c, i.after.head? = some c → isSpaceC c = true

/-- The item is written correctly and its word names an entry of the table with its type. -/
structure Item.OK (fold : Byte → Byte) (table : List OptionInfo) (i : Item) : Prop extends i.Form where
  names : (named fold table i.word).map (·.type) = some i.type
  dashes : entry fold table i.word = none → i.word.length < 2049

end Wizard.Spec.Opt

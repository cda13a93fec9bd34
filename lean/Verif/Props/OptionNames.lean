import Verif.Spec.OptionNames
import Verif.Props.Option
/-! C51: which values the words of the options stand for. -/
namespace Wizard.Props
open Wizard Wizard.Spec.Opt

namespace OptionNames

theorem enumerated : ∀ e ∈ enumerations, e.1 ∈ wordTables ∧
    (∀ i ∈ List.range e.2.length, ∀ s ∈ e.2[i]?, (⟨ascText s, BitVec.ofNat 64 i⟩ : OptionInfo) ∈ e.1 ∧ optionToMnemonic e.1 (BitVec.ofNat 64 i) = ascText s) ∧
    ∀ o ∈ e.1, (∃ s ∈ e.2, o.mnemonic = ascText s) ∨ e.1 = hashOptions ∧ ∃ n ∈ otherNames, o.mnemonic = ascText n.1 := by
  decide +kernel

theorem other_values : ∀ n ∈ otherNames, ∃ o ∈ hashOptions, o.mnemonic = ascText n.1 ∧ (⟨ascText n.2, o.type⟩ : OptionInfo) ∈ hashOptions := by
  decide +kernel

theorem event_values : ∀ e ∈ eventBits, (⟨ascText e.1, 1#64 <<< e.2⟩ : OptionInfo) ∈ logWizardEventOptions := by
  decide +kernel

theorem all_values : (⟨ascText "All", 0x7ffffffe#64⟩ : OptionInfo) ∈ logWizardEventOptions ∧ (⟨ascText "None", 0#64⟩ : OptionInfo) ∈ logWizardEventOptions := by
  decide +kernel

end OptionNames
open OptionNames

/-- **C51**: the words stand for the values they are declared for: the `i`-th word of a type is parsed to `i`, with and without the list flag, and `i` is reported as that word. -/
theorem C51_values (fold : Byte → Byte) (hf : fold = asciiMap ∨ fold = cLocaleLower) (list : Bool) (junk : List Byte) (hj : junk.length = 4096)
    (table : List OptionInfo) (names : List String) (ht : (table, names) ∈ enumerations) (i : Nat) (s : String) (hs : names[i]? = some s) :
    parseOption fold table list junk (ascText s) = .ok (some (BitVec.ofNat 64 i)) ∧ optionToMnemonic table (BitVec.ofNat 64 i) = ascText s := by
  obtain ⟨h1, h2, _⟩ := enumerated _ ht
  have hi : i < names.length := by
    obtain ⟨h, _⟩ := List.getElem?_eq_some_iff.mp hs
    exact h
  obtain ⟨h3, h4⟩ := h2 i (List.mem_range.mpr hi) s hs
  exact ⟨(C51_inverse fold hf table h1 _ h3 list junk hj).1, h4⟩

/-- **C51**: the second words for hashes stand for the same values as the first ones, and there are no others: what a table has is a word of the type or one of these. -/
theorem C51_other_names (fold : Byte → Byte) (hf : fold = asciiMap ∨ fold = cLocaleLower) (list : Bool) (junk : List Byte) (hj : junk.length = 4096) :
    (∀ n ∈ otherNames, ∃ v, parseOption fold hashOptions list junk (ascText n.1) = .ok (some v) ∧ parseOption fold hashOptions list junk (ascText n.2) = .ok (some v)) ∧
    ∀ e ∈ enumerations, ∀ o ∈ e.1, (∃ s ∈ e.2, o.mnemonic = ascText s) ∨ e.1 = hashOptions ∧ ∃ n ∈ otherNames, o.mnemonic = ascText n.1 := by
  refine ⟨fun n hn => ?_, fun e he => (enumerated e he).2.2⟩
  obtain ⟨o, ho, e, h⟩ := other_values n hn
  have hw : hashOptions ∈ wordTables := by decide +kernel
  refine ⟨o.type, ?_, (C51_inverse fold hf _ hw _ h list junk hj).1⟩
  rw [← e]
  exact (C51_inverse fold hf _ hw o ho list junk hj).1

/-- **C51**: the words for events stand for their bits; "All" has all bits of an `int` but the sign and the one of "Trace". -/
theorem C51_events (fold : Byte → Byte) (hf : fold = asciiMap ∨ fold = cLocaleLower) (list : Bool) (junk : List Byte) (hj : junk.length = 4096) :
    (∀ e ∈ eventBits, parseOption fold logWizardEventOptions list junk (ascText e.1) = .ok (some (1#64 <<< e.2))) ∧
    parseOption fold logWizardEventOptions list junk (ascText "All") = .ok (some 0x7ffffffe#64) ∧
    parseOption fold logWizardEventOptions list junk (ascText "None") = .ok (some 0#64) := by
  have hw : logWizardEventOptions ∈ wordTables := by decide +kernel
  exact ⟨fun e he => (C51_inverse fold hf _ hw _ (event_values e he) list junk hj).1, (C51_inverse fold hf _ hw _ all_values.1 list junk hj).1,
    (C51_inverse fold hf _ hw _ all_values.2 list junk hj).1⟩

/-- The hash of number 7 is SHA-256, whatever the memory of the token holds. -/
example (list : Bool) : parseOption cLocaleLower hashOptions list (List.replicate 4096 0) (ascText "SHA256") = .ok (some 7#64) :=
  (C51_values cLocaleLower (.inr rfl) list _ (by decide +kernel) hashOptions
    ["Undefined", "None", "CRC64", "MD5", "SHA1", "SHA2", "SHA224", "SHA256", "SHA384", "SHA512", "SHA3", "SHA3-224", "SHA3-256", "SHA3-384", "SHA3-512"] (by simp [enumerations]) 7 "SHA256" rfl).1

end Wizard.Props

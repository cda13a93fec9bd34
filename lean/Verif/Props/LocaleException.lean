import Verif.Model.LocaleException
import Verif.Spec.LocaleException
import Verif.Props.Catalog
/-! C139 for the messages of exceptions. -/
namespace Wizard.Props
open Wizard Wizard.Spec.Catalog Wizard.Spec.LocaleException

namespace LocaleException

/-- Two of the 57 severities have no tag. -/
theorem tags_known : ∀ i < 19, ∀ level ∈ levels, ¬((i = 13 ∨ i = 14) ∧ level.1 = 400) →
    ascText "Exception/" ++ severityToTag (severityOf i level) = txt "Exception/" ++ txt (kinds.getD i "") ++ txt "/" ++ txt level.2 ++ txt "/" := by decide +kernel

theorem message_eq (cache : LocCache) (severity : Nat) (tag full : List Byte) (he : ascText "Exception/" ++ severityToTag severity ++ tag = full) (hl : full.length ≤ 254) (hne : full ≠ []) :
    (∀ text, getLocaleMessage cache full = text → text ≠ full → getLocaleExceptionMessage cache severity tag = text) ∧
    (locLookup cache (locCopy (full ++ ascText "/")) = none → getLocaleExceptionMessage cache severity tag = tag) := by
  have hm : inMessage full = full := List.take_of_length_le (by have : wizardPathExtent = 4096 := rfl; omega)
  unfold getLocaleExceptionMessage getLocaleMessage
  simp only [he, hm, if_neg hne]
  constructor
  · intro text ht hn
    cases hc : locLookup cache (locCopy (full ++ ascText "/")) with
    | none => rw [hc] at ht; exact absurd ht.symm hn
    | some t => rw [hc] at ht; exact ht
  · intro hc
    rw [hc]

end LocaleException

open LocaleException

/-- **C139** (partial: all kinds and levels but errors of hash maps and logs).  After any catalog is loaded, the message of an exception is the text the catalog has for its kind, level and tag, in
any case. -/
theorem C139_exception_partial {number : List Byte → Nat} (hnum : NumberOK number) (incl : List Byte → LocCache → Res LocCache) (locale name s1 s2 : List Byte) (items : List (Item × List Byte))
    (cache : LocCache) (hn : MessageName name) (h1 : Spaces s1) (h2 : Spaces s2) (h : WellFormed [] items) :
    ∃ cache', loadLocaleCache number incl locale (file name s1 s2 items) cache = .ok cache' ∧
      ∀ i < 19, ∀ level ∈ levels, ¬((i = 13 ∨ i = 14) ∧ level.1 = 400) → ∀ tag, (fullTag (kinds.getD i "") level tag).length ≤ 254 →
        ∀ text, text ≠ fullTag (kinds.getD i "") level tag → TextFor (messages [] items) (fullTag (kinds.getD i "") level tag) text →
          getLocaleExceptionMessage cache' (severityOf i level) tag = text := by
  obtain ⟨cache', e, hf⟩ := C139_found_partial hnum incl locale name s1 s2 items cache hn h1 h2 h
  refine ⟨cache', e, fun i hi level hlev hx tag hl text ht hfor => ?_⟩
  have hne : fullTag (kinds.getD i "") level tag ≠ [] := by
    intro h0
    have := congrArg List.length h0
    simp [fullTag, txt] at this
  have he : ascText "Exception/" ++ severityToTag (severityOf i level) ++ tag = fullTag (kinds.getD i "") level tag := by
    rw [tags_known i hi level hlev hx]
    rfl
  exact (message_eq cache' _ tag _ he hl hne).1 text ((hf _ hne hl).1 text hfor) ht

/-- **C139** (partial: the same kinds and levels).  If the loaded messages have none for its kind, level and tag, the tag itself is the message. -/
theorem C139_exception_unknown_partial (cache : LocCache) (i : Nat) (hi : i < 19) (level : Nat × String) (hlev : level ∈ levels) (hx : ¬((i = 13 ∨ i = 14) ∧ level.1 = 400)) (tag : List Byte)
    (hl : (fullTag (kinds.getD i "") level tag).length ≤ 254) (hnone : ∀ e ∈ cache, ¬SameTag e.1 (fullTag (kinds.getD i "") level tag ++ txt "/")) :
    getLocaleExceptionMessage cache (severityOf i level) tag = tag := by
  have he : ascText "Exception/" ++ severityToTag (severityOf i level) ++ tag = fullTag (kinds.getD i "") level tag := by
    rw [tags_known i hi level hlev hx]
    rfl
  have hne : fullTag (kinds.getD i "") level tag ≠ [] := by
    intro h0
    have := congrArg List.length h0
    simp [fullTag, txt] at this
  refine (message_eq cache _ tag _ he hl hne).2 ?_
  have hc : locCopy (fullTag (kinds.getD i "") level tag ++ ascText "/") = fullTag (kinds.getD i "") level tag ++ txt "/" := by
    refine List.take_of_length_le ?_
    show (_ ++ [asc '/']).length ≤ _
    rw [List.length_append]
    have : wizardLocaleExtent = 256 := rfl
    simp only [List.length_cons, List.length_nil]
    omega
  rw [hc, locLookup, List.find?_eq_none.2 ?_]
  · rfl
  · intro e hm
    have := hnone e (List.mem_reverse.1 hm)
    rw [SameTag, map_low, map_low] at this
    simpa [lcEq] using this

/-- **C139** (violated): errors of hash maps and logs have no tag of their own (two cases are missing), so that their messages are looked up without kind and level, whatever the tag: they get the
message of no severity. -/
theorem C139_kinds_violated (cache : LocCache) (tag : List Byte) :
    kinds.getD 13 "" = "Hashmap" ∧ kinds.getD 14 "" = "Log" ∧ severityOf 13 (400, "Error") = 470 ∧ severityOf 14 (400, "Error") = 475 ∧
    getLocaleExceptionMessage cache 470 tag = getLocaleExceptionMessage cache 0 tag ∧ getLocaleExceptionMessage cache 475 tag = getLocaleExceptionMessage cache 0 tag := by
  have h : severityToTag 470 = severityToTag 0 ∧ severityToTag 475 = severityToTag 0 := by decide +kernel
  refine ⟨rfl, rfl, rfl, rfl, ?_, ?_⟩
  · unfold getLocaleExceptionMessage; rw [h.1]
  · unfold getLocaleExceptionMessage; rw [h.2]

-- a catalog with the message of a warning and an error of hash maps: only the first is found
example : getLocaleExceptionMessage [(txt "Exception/Hashmap/Warning/Full/", txt "no room"), (txt "Exception/Hashmap/Error/Full/", txt "no room at all")] 370 (txt "Full") = txt "no room" ∧
    getLocaleExceptionMessage [(txt "Exception/Hashmap/Warning/Full/", txt "no room"), (txt "Exception/Hashmap/Error/Full/", txt "no room at all")] 470 (txt "Full") = txt "Full" := by decide +kernel

/-- A catalog as `C139_exception_partial` needs it. -/
def warningItems : List (Item × List Byte) :=
  [(.open (txt "Exception"), []), (.open (txt "Log"), []), (.open (txt "Warning"), []), (.message (txt "Full") [] (txt "no room") [], []), (.close (txt "Warning"), []), (.close (txt "Log"), []),
   (.close (txt "Exception"), [])]

example : WellFormed [] warningItems ∧ TextFor (messages [] warningItems) (fullTag "Log" (300, "Warning") (txt "Full")) (txt "no room") ∧ kinds.getD 14 "" = "Log" := by
  have sp : ∀ s : List Byte, (∀ b ∈ s, Space b) → Spaces s := fun _ h => h
  have g1 : GroupName (txt "Exception") := ⟨⟨69, txt "xception", rfl, by decide, by decide⟩, by decide, by decide, by decide⟩
  have g2 : GroupName (txt "Log") := ⟨⟨76, txt "og", rfl, by decide, by decide⟩, by decide, by decide, by decide⟩
  have g3 : GroupName (txt "Warning") := ⟨⟨87, txt "arning", rfl, by decide, by decide⟩, by decide, by decide, by decide⟩
  refine ⟨⟨g1, by decide, sp _ (by decide), g2, by decide, sp _ (by decide), g3, by decide, sp _ (by decide), by decide, ?_, ⟨by decide, by decide, ?_, ?_⟩, sp _ (by decide), sp _ (by decide), by decide,
    sp _ (by decide), rfl, sp _ (by decide), rfl, sp _ (by decide), rfl, sp _ (by decide), trivial⟩, ⟨[], [], txt "Exception/Log/Warning/Full", by decide +kernel, by decide +kernel, nofun⟩, rfl⟩
  · show ∀ b ∈ txt "Full", _; decide
  · rintro b h; cases h; decide
  · rintro b h; cases h; decide

end Wizard.Props

import Verif.Lemmas.Catalog
/-!
C139: the messages of a catalog can be looked up by their tags.
-/
namespace Wizard.Props
open Wizard Spec.Catalog

theorem lcEq_tag (a b : List Byte) : lcEq (a ++ [asc '/']) (b ++ [asc '/']) = true ↔ SameTag a b := by
  unfold lcEq SameTag
  rw [beq_iff_eq, map_low, map_low, List.map_append, List.map_append]
  exact ⟨fun h => (List.append_inj' h rfl).1, fun h => by rw [h]⟩

theorem locLookup_messages (cache : LocCache) (ms : List (List Byte × List Byte)) (tag : List Byte) :
    (∀ text, TextFor ms tag text → locLookup (cache ++ ms.map fun e => (e.1 ++ [asc '/'], e.2)) (tag ++ [asc '/']) = some text) ∧
    ((∀ m ∈ ms, ¬ SameTag m.1 tag) → locLookup (cache ++ ms.map fun e => (e.1 ++ [asc '/'], e.2)) (tag ++ [asc '/']) = locLookup cache (tag ++ [asc '/'])) := by
  have none_of : ∀ l : List (List Byte × List Byte), (∀ m ∈ l, ¬ SameTag m.1 tag) →
      (l.map fun e => (e.1 ++ [asc '/'], e.2)).reverse.find? (fun e => lcEq e.1 (tag ++ [asc '/'])) = none := by
    intro l hl
    rw [List.find?_eq_none]
    intro x hx
    rw [List.mem_reverse, List.mem_map] at hx
    obtain ⟨m, hm, rfl⟩ := hx
    exact fun h => hl m hm ((lcEq_tag _ _).1 h)
  constructor
  · rintro text ⟨pre, post, t, rfl, ht, hp⟩
    unfold locLookup
    rw [List.map_append, List.map_cons, List.reverse_append, List.reverse_append, List.reverse_cons, List.find?_append, List.find?_append, List.find?_append, none_of post hp,
      Option.none_or, List.find?_cons_of_pos (by exact (lcEq_tag t tag).2 ht)]
    rfl
  · intro h
    unfold locLookup
    rw [List.reverse_append, List.find?_append, none_of ms h, Option.none_or]

/-- Every message that a well-formed catalog defines has a tag of at most 253 bytes. -/
theorem messages_short {g : List (List Byte)} {items : List (Item × List Byte)} (h : WellFormed g items) : ∀ m ∈ messages g items, m.1.length ≤ 253 := by
  induction items generalizing g with
  | nil => intro m hm; cases hm
  | cons i r ih =>
    obtain ⟨i, s⟩ := i
    cases i with
    | «open» n => exact ih h.2.2.2
    | close n => exact ih h.2.2
    | message n b t a =>
      intro m hm
      rcases List.mem_cons.mp hm with rfl | hm
      · exact h.2.2.2.2.2.1
      · exact ih h.2.2.2.2.2.2.2 m hm

/-- **C139** (partial: the catalogs of `Spec.Catalog.WellFormed`; see the violations for others). Loading a catalog succeeds whatever is loaded
already (`cache`), whatever the name of its language, and wherever white space is put. Afterwards the tag of each of its messages gives the text of
the message (of the last one, if several have the tag), and other tags give what they gave before. `number` is the length of the number a text begins with.
The tag is a string, neither empty nor longer than 254 bytes. -/
theorem C139_found_partial {number : List Byte → Nat} (hnum : NumberOK number) (incl : List Byte → LocCache → Res LocCache) (locale name s1 s2 : List Byte) (items : List (Item × List Byte)) (cache : LocCache)
    (hn : MessageName name) (h1 : Spaces s1) (h2 : Spaces s2) (h : WellFormed [] items) :
    ∃ cache', loadLocaleCache number incl locale (file name s1 s2 items) cache = .ok cache' ∧
      ∀ tag, tag ≠ [] → tag.length ≤ 254 →
        (∀ text, TextFor (messages [] items) tag text → getLocaleMessage cache' tag = text) ∧
        ((∀ m ∈ messages [] items, ¬ SameTag m.1 tag) → getLocaleMessage cache' tag = getLocaleMessage cache tag) := by
  refine ⟨_, load_file hnum incl locale cache hn h1 h2 h, fun tag hne hlen => ?_⟩
  obtain ⟨a, b⟩ := locLookup_messages cache (messages [] items) tag
  have hcopy : locCopy (tag ++ ascText "/") = tag ++ [asc '/'] := locCopy_short (by rw [List.length_append]; show _ + 1 ≤ 255; omega)
  unfold getLocaleMessage
  rw [if_neg hne, if_neg hne, hcopy]
  exact ⟨fun text ht => by rw [a text ht]; rfl, fun ht => by rw [b ht]⟩

/-- **C139** (partial: as above). A tag that no catalog defines is its own message, and so is the empty tag. -/
theorem C139_unknown_partial {number : List Byte → Nat} (hnum : NumberOK number) (incl : List Byte → LocCache → Res LocCache) (locale name s1 s2 : List Byte) (items : List (Item × List Byte))
    (hn : MessageName name) (h1 : Spaces s1) (h2 : Spaces s2) (h : WellFormed [] items) :
    ∃ cache', loadLocaleCache number incl locale (file name s1 s2 items) [] = .ok cache' ∧
      ∀ tag, (∀ m ∈ messages [] items, ¬ SameTag m.1 tag) → getLocaleMessage cache' tag = tag := by
  refine ⟨_, load_file hnum incl locale [] hn h1 h2 h, fun tag ht => ?_⟩
  unfold getLocaleMessage
  by_cases hne : tag = []
  · rw [if_pos hne]
  rw [if_neg hne]
  by_cases hlen : tag.length ≤ 254
  · have hcopy : locCopy (tag ++ ascText "/") = tag ++ [asc '/'] := locCopy_short (by rw [List.length_append]; show _ + 1 ≤ 255; omega)
    rw [hcopy, (locLookup_messages [] (messages [] items) tag).2 ht]
    rfl
  · have hn : locLookup ([] ++ (messages [] items).map fun e => (e.1 ++ [asc '/'], e.2)) (locCopy (tag ++ ascText "/")) = none := by
      unfold locLookup
      rw [Option.map_eq_none_iff, List.find?_eq_none]
      intro x hx
      rw [List.mem_reverse, List.nil_append, List.mem_map] at hx
      obtain ⟨m, hm, rfl⟩ := hx
      have hs := messages_short h m hm
      intro e
      have e' := congrArg List.length (beq_iff_eq.mp e)
      rw [List.length_map, List.length_map, List.length_append] at e'
      unfold locCopy wizardLocaleExtent at e'
      rw [List.length_take, List.length_append] at e'
      have : [asc '/'].length = 1 := rfl
      omega
    rw [hn]
    rfl

/-! ### A concrete case, and what other catalogs do -/

/-- A text begins with as many digits as its number has. -/
def leadingDigits (s : List Byte) : Nat := (s.takeWhile fun b => decide (48 ≤ b ∧ b ≤ 57)).length

theorem leadingDigits_ok : NumberOK leadingDigits := by
  refine ⟨?_, fun _ => rfl⟩
  rintro c r (rfl | rfl | rfl | rfl | rfl) <;> rfl

/-- Including nothing. -/
def noInclude (_ : List Byte) (c : LocCache) : Res LocCache := .ok c

/-- What a tag gives after a text has been loaded. -/
def messageAfter (xml tag : List Byte) : Option (List Byte) :=
  match loadLocaleCache leadingDigits noInclude (txt "C") xml [] with
  | .ok c => some (getLocaleMessage c tag)
  | _ => none

/-- Two groups, one in the other, and two messages. -/
def sampleItems : List (Item × List Byte) :=
  [(.open (txt "Exception"), txt "\n"), (.open (txt "Blob"), []), (.message (txt "Open file") (txt "  ") (txt "unable to open") (txt "\n "), txt "\n"), (.close (txt "Blob"), []),
   (.message [] [] (txt "failed") [], []), (.close (txt "Exception"), [])]

instance (b : Byte) : Decidable (Space b) := by unfold Space; infer_instance
instance (a b : List Byte) : Decidable (SameTag a b) := inferInstanceAs (Decidable (a.map low = b.map low))
instance (b : Byte) : Decidable (Letter b) := by unfold Letter; infer_instance
instance (b : Byte) : Decidable (AlNum b) := by unfold AlNum; infer_instance

theorem sampleItems_ok : WellFormed [] sampleItems := by
  have sp : ∀ s : List Byte, (∀ b ∈ s, Space b) → Spaces s := fun _ h => h
  have g1 : GroupName (txt "Exception") := ⟨⟨69, txt "xception", rfl, by decide, by decide⟩, by decide, by decide, by decide⟩
  have g2 : GroupName (txt "Blob") := ⟨⟨66, txt "lob", rfl, by decide, by decide⟩, by decide, by decide, by decide⟩
  refine ⟨g1, by decide, sp _ (by decide), g2, by decide, sp _ (by decide), by decide, ?_, ⟨by decide, by decide, ?_, ?_⟩, sp _ (by decide), sp _ (by decide), by decide, sp _ (by decide), rfl, sp _ (by decide),
    by decide, ?_, ⟨by decide, by decide, ?_, ?_⟩, sp _ (by decide), sp _ (by decide), by decide, sp _ (by decide), rfl, sp _ (by decide), trivial⟩
  · show ∀ b ∈ txt "Open file", _; decide
  · rintro b h; cases h; decide
  · rintro b h; cases h; decide
  · intro b h; cases h
  · rintro b h; cases h; decide
  · rintro b h; cases h; decide

example : TextFor (messages [] sampleItems) (txt "EXCEPTION/blob/Open File") (txt "unable to open") :=
  ⟨[], [(txt "Exception/", txt "failed")], txt "Exception/Blob/Open file", rfl, (by decide +kernel), by
    intro m hm; rw [List.mem_singleton.mp hm]; decide +kernel⟩

example : messageAfter (file (txt "C") (txt "\n") [] sampleItems) (txt "EXCEPTION/blob/Open File") = some (txt "unable to open") := by decide +kernel

/-- **C139** (violated): if the text of a message has a slash in it, the messages behind it in the group get wrong tags. Here `Log/No` is not found:
its text can be had as `Log/Yes/No`. -/
theorem C139_slash_violated :
    let c := file (txt "C") [] [] [(.open (txt "Log"), []), (.message (txt "Yes") [] (txt "on/off") [], []), (.message (txt "No") [] (txt "off") [], []), (.close (txt "Log"), [])]
    messageAfter c (txt "Log/No") = some (txt "Log/No") ∧ messageAfter c (txt "Log/Yes/No") = some (txt "off") := by decide +kernel

/-- **C139** (violated): of messages in no group only the first is found. -/
theorem C139_outside_violated :
    let c := file (txt "C") [] [] [(.message (txt "Yes") [] (txt "on") [], []), (.message (txt "No") [] (txt "off") [], [])]
    messageAfter c (txt "Yes") = some (txt "on") ∧ messageAfter c (txt "No") = some (txt "No") ∧ messageAfter c (txt "/No") = some (txt "off") := by decide +kernel

/-- **C139** (violated): of a text of more than 255 bytes only the first 255 are found. -/
theorem C139_long_violated :
    let c := file (txt "C") [] [] [(.open (txt "Log"), []), (.message (txt "Yes") [] (List.replicate 300 97) [], []), (.close (txt "Log"), [])]
    messageAfter c (txt "Log/Yes") = some (List.replicate 255 97) := by decide +kernel

/-- **C139** (violated): white space before the `>` of a group, which XML allows, loses the last letter of its name. -/
theorem C139_blank_violated :
    let c := txt "<locale name=\"C\"><Log ><message name=\"Yes\">on</message></Log ></locale>"
    messageAfter c (txt "Log/Yes") = some (txt "Log/Yes") ∧ messageAfter c (txt "Lo/Yes") = some (txt "on") := by decide +kernel

/-- **C139** (violated): in a file with two `<locale>` elements the messages of the second get tags that begin with a slash. -/
theorem C139_second_violated :
    let c := txt "<localemap><locale name=\"C\"><Log><message name=\"Yes\">on</message></Log></locale><locale name=\"C\"><Pen><message name=\"Yes\">ink</message></Pen></locale></localemap>"
    messageAfter c (txt "Log/Yes") = some (txt "on") ∧ messageAfter c (txt "Pen/Yes") = some (txt "Pen/Yes") ∧ messageAfter c (txt "/Pen/Yes") = some (txt "ink") := by decide +kernel

end Wizard.Props

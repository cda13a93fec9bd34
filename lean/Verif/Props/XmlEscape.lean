import Verif.Props.Xml
import Verif.Props.Base64
/-! C53: escaping text for XML. -/
namespace Wizard.Props
open Wizard Wizard.XmlP Wizard.Spec.Utf Wizard.Spec.Xml

/-- The text that is read as Latin-1, in UTF-8. -/
theorem latin1_utf8 : ∀ (s : List Byte), latin1ToUtf8 s = s.flatMap (fun c => utf8Char c.toNat) := by
  have key : ∀ c : Byte, (if c.toNat < 0x80 then [c] else [(0xc0 ||| ((c >>> 6) &&& 0x3f)), (0x80 ||| (c &&& 0x3f))]) = utf8Char c.toNat := by decide +kernel
  intro s
  induction s with
  | nil => rfl
  | cons c s ih =>
    rw [List.flatMap_cons, ← key c, ← ih, latin1ToUtf8]
    split <;> rfl

/-- The escape of one byte. -/
def escapeByte (pedantic : Bool) (c : Byte) : List Byte := (xmlEscape pedantic c).1

theorem escape_length (pedantic : Bool) (c : Byte) : (xmlEscape pedantic c).1.length ≤ 6 := by
  have key : ∀ (b : Bool) (c : Byte), (xmlEscape b c).1.length ≤ 6 := by decide +kernel
  exact key pedantic c

theorem escape_no_nul (pedantic : Bool) (c : Byte) (h : c ≠ 0) : (0 : Byte) ∉ escapeByte pedantic c := by
  have key : ∀ (b : Bool) (c : Byte), c ≠ 0 → (0 : Byte) ∉ escapeByte b c := by decide +kernel
  exact key pedantic c h

theorem wrN_mid (pre rest b : List Byte) (h : b.length ≤ rest.length) : wrN (pre ++ rest) pre.length b = .ok (pre ++ b ++ rest.drop b.length) := by
  unfold wrN
  rw [if_pos (by simp; omega), List.take_left' rfl, drop_app]

theorem canonicalLoop_spec (junk : Nat → Byte) (pedantic : Bool) : ∀ (s pre rest : List Byte), pre.length + wizardPathExtent ≤ (pre ++ rest).length + 6 →
    ∃ rest', canonicalLoop junk pedantic s (pre ++ rest) pre.length (pre ++ rest).length = .ok (pre ++ s.flatMap (escapeByte pedantic) ++ 0 :: rest') := by
  intro s
  induction s with
  | nil =>
    intro pre rest h
    have hp : wizardPathExtent = 4096 := rfl
    cases rest with
    | nil => simp at h; omega
    | cons x rest =>
      refine ⟨rest, ?_⟩
      unfold canonicalLoop
      rw [wr_at]
      simp
  | cons c s ih =>
    intro pre rest h
    have hp : wizardPathExtent = 4096 := rfl
    unfold canonicalLoop
    simp only []
    -- the buffer after a possible extension
    obtain ⟨rest2, hbuf, hext, hroom⟩ : ∃ rest2,
        (if decide (pre.length + wizardPathExtent > (pre ++ rest).length) = true then
          reallocMem (pre ++ rest) (if decide (pre.length + wizardPathExtent > (pre ++ rest).length) = true then (pre ++ rest).length + wizardPathExtent else (pre ++ rest).length) junk
          else pre ++ rest) = pre ++ rest2 ∧
        (if decide (pre.length + wizardPathExtent > (pre ++ rest).length) = true then (pre ++ rest).length + wizardPathExtent else (pre ++ rest).length) = (pre ++ rest2).length ∧
        wizardPathExtent ≤ rest2.length := by
      by_cases hg : pre.length + wizardPathExtent > (pre ++ rest).length
      · refine ⟨rest ++ (List.range ((pre ++ rest).length + wizardPathExtent - (pre ++ rest).length)).map junk, ?_, ?_, ?_⟩
        · simp only [hg, decide_true, if_true]
          unfold reallocMem
          rw [List.take_of_length_le (by omega), List.append_assoc]
        · simp only [hg, decide_true, if_true]
          simp; omega
        · simp
      · refine ⟨rest, ?_, ?_, ?_⟩
        · simp only [hg, decide_false, Bool.false_eq_true, if_false]
        · simp only [hg, decide_false, Bool.false_eq_true, if_false]
        · simp at hg; omega
    rw [hbuf, hext]
    have hel := escape_length pedantic c
    generalize hw : (if (xmlEscape pedantic c).2 = true then (xmlEscape pedantic c).1 ++ [0] else (xmlEscape pedantic c).1) = w
    have hwl : w.length ≤ 7 ∧ ∃ z, w = (xmlEscape pedantic c).1 ++ z := by
      rw [← hw]
      split
      · exact ⟨by simp; omega, [0], rfl⟩
      · exact ⟨by omega, [], by simp⟩
    obtain ⟨hwl, z, hz⟩ := hwl
    rw [wrN_mid pre rest2 w (by omega), Res.ok_bind]
    have e : pre ++ w ++ rest2.drop w.length = (pre ++ (xmlEscape pedantic c).1) ++ (z ++ rest2.drop w.length) := by rw [hz]; simp
    have hlen : ((pre ++ (xmlEscape pedantic c).1) ++ (z ++ rest2.drop w.length)).length = (pre ++ rest2).length := by
      rw [← e]; simp; omega
    obtain ⟨rest', hr⟩ := ih (pre ++ (xmlEscape pedantic c).1) (z ++ rest2.drop w.length) (by rw [hlen]; simp; omega)
    rw [hlen] at hr
    refine ⟨rest', ?_⟩
    rw [e, show pre.length + (xmlEscape pedantic c).1.length = (pre ++ (xmlEscape pedantic c).1).length by simp, hr]
    simp [escapeByte]

theorem flatMap_no_nul (pedantic : Bool) : ∀ (s : List Byte), (0 : Byte) ∉ s → (0 : Byte) ∉ s.flatMap (escapeByte pedantic) := by
  intro s h hm
  obtain ⟨c, hc, h0⟩ := List.mem_flatMap.mp hm
  exact escape_no_nul pedantic c (fun e => h (e ▸ hc)) h0

theorem latin1_no_nul (s : List Byte) (h : (0 : Byte) ∉ s) : (0 : Byte) ∉ latin1ToUtf8 s := by
  rw [latin1_utf8]
  intro hm
  obtain ⟨c, hc, h0⟩ := List.mem_flatMap.mp hm
  have hc0 : c ≠ 0 := fun e => h (e ▸ hc)
  exact utf8_no_nul c.toNat (fun e => hc0 (BitVec.eq_of_toNat_eq (by simpa using e))) (by have := c.isLt; omega) h0

/-- A text without control characters: tab, line feed and carriage return are allowed. -/
def Printable (s : List Byte) : Prop := ∀ c ∈ s, 32 ≤ c.toNat ∨ c = 9 ∨ c = 10 ∨ c = 13

theorem printable_no_nul {s : List Byte} (h : Printable s) : (0 : Byte) ∉ s := by
  intro h0; have := h 0 h0; revert this; decide

theorem utf8_printable {s : List Byte} (h : Printable s) : ∀ x ∈ latin1ToUtf8 s, isControl x = false := by
  intro x hx
  rw [latin1_utf8] at hx
  obtain ⟨c, hc, hxc⟩ := List.mem_flatMap.mp hx
  have key : ∀ c : Byte, (32 ≤ c.toNat ∨ c = 9 ∨ c = 10 ∨ c = 13) → ∀ x ∈ utf8Char c.toNat, isControl x = false := by decide +kernel
  exact key c (h c hc) x hxc

theorem canonical_text (junk : Nat → Byte) (s : List Byte) (pedantic : Bool) (h : Printable s) :
    canonicalXMLContent junk s pedantic = .ok ((latin1ToUtf8 s).flatMap (escapeByte pedantic)) := by
  unfold canonicalXMLContent
  simp only []
  have hany : (latin1ToUtf8 s).any isControl = false := by
    rw [List.any_eq_false]
    intro x hx
    rw [utf8_printable h x hx]; simp
  rw [hany]
  simp only [Bool.false_eq_true, if_false]
  obtain ⟨rest', hr⟩ := canonicalLoop_spec junk pedantic (latin1ToUtf8 s) [] ((List.range wizardPathExtent).map junk) (by simp)
  simp only [List.nil_append, List.length_nil, List.length_map, List.length_range] at hr
  rw [hr, Res.ok_bind, textOf_text _ _ (flatMap_no_nul pedantic _ (latin1_no_nul s (printable_no_nul h)))]

theorem means_escape (pedantic : Bool) (c : Byte) (hc : c ≠ 0) {r o : List Byte} (h : Means content [] r o) : Means content [] (escapeByte pedantic c ++ r) (c :: o) := by
  unfold escapeByte xmlEscape
  by_cases h1 : c = asc '&'
  · subst h1; rw [if_pos rfl]; exact .known (name := bytes "amp") (c := 38) (by decide +kernel) h
  rw [if_neg h1]
  by_cases h2 : c = asc '<'
  · subst h2; rw [if_pos rfl]; exact .known (name := bytes "lt") (c := 60) (by decide +kernel) h
  rw [if_neg h2]
  by_cases h3 : c = asc '>'
  · subst h3; rw [if_pos rfl]; exact .known (name := bytes "gt") (c := 62) (by decide +kernel) h
  rw [if_neg h3]
  by_cases h4 : c = asc '"'
  · subst h4; rw [if_pos rfl]; exact .known (name := bytes "quot") (c := 34) (by decide +kernel) h
  rw [if_neg h4]
  by_cases h5 : c = 0x0a
  · subst h5; rw [if_pos rfl]
    cases pedantic with
    | false => exact .plain (by decide) (by decide) h
    | true => exact .hex (bs := bytes "A") (n := 10) ⟨[10], by decide +kernel, by decide, by decide, by decide⟩ (by decide) (by decide) h
  rw [if_neg h5]
  by_cases h6 : c = 0x09
  · subst h6; rw [if_pos rfl]
    cases pedantic with
    | false => exact .plain (by decide) (by decide) h
    | true => exact .hex (bs := bytes "9") (n := 9) ⟨[9], by decide +kernel, by decide, by decide, by decide⟩ (by decide) (by decide) h
  rw [if_neg h6]
  by_cases h7 : c = 0x0d
  · subst h7; rw [if_pos rfl]
    exact .hex (bs := bytes "D") (n := 13) ⟨[13], by decide +kernel, by decide, by decide, by decide⟩ (by decide) (by decide) h
  rw [if_neg h7]
  exact .plain h1 hc h

theorem means_escaped (pedantic : Bool) : ∀ (s : List Byte), (0 : Byte) ∉ s → Means content [] (s.flatMap (escapeByte pedantic)) s := by
  intro s
  induction s with
  | nil => intro _; exact .done
  | cons c s ih =>
    intro h
    simp only [List.mem_cons, not_or] at h
    rw [List.flatMap_cons]
    exact means_escape pedantic c (fun e => h.1 e.symm) (ih h.2)

theorem escaped_no_cr (pedantic : Bool) (s : List Byte) : (13 : Byte) ∉ s.flatMap (escapeByte pedantic) := by
  intro hm
  obtain ⟨c, _, h⟩ := List.mem_flatMap.mp hm
  have key : ∀ (b : Bool) (c : Byte), (13 : Byte) ∉ escapeByte b c := by decide +kernel
  exact key pedantic c h

/-- **C53** (partial) A text without control characters is written as content that entity decoding turns into the text again, provided
it is ASCII; a text with bytes above 127 comes back in UTF-8, read as Latin-1.  Missing: such texts themselves (`C53_utf8_violated`)
and texts with control characters (`C53_binary_violated`). -/
theorem C53_roundtrip_partial (junk : Nat → Byte) (s after : List Byte) (pedantic : Bool) (h : Printable s) :
    ∃ c, canonicalXMLContent junk s pedantic = .ok c ∧
      (∃ f0, ∀ f ≥ f0, parseEntities junk f (c ++ 0 :: after) predefinedEntities .general = .ok (s.flatMap (fun b => utf8Char b.toNat))) ∧
      ((∀ b ∈ s, b.toNat < 128) → s.flatMap (fun b => utf8Char b.toNat) = s) := by
  refine ⟨_, canonical_text junk s pedantic h, ?_, ?_⟩
  · have h0 := latin1_no_nul s (printable_no_nul h)
    have hcr := escaped_no_cr pedantic (latin1ToUtf8 s)
    have := C84_decode_partial junk [] (fun d hd => by simp at hd) (fun d hd => by simp at hd) ((latin1ToUtf8 s).flatMap (escapeByte pedantic)) (latin1ToUtf8 s) after
      (flatMap_no_nul pedantic _ h0) (endsWell_of _ hcr) (by rw [lines_id _ hcr]; exact means_escaped pedantic _ h0)
    rw [← latin1_utf8]
    simpa [entTable] using this
  · intro ha
    clear h
    induction s with
    | nil => rfl
    | cons c s ih =>
      rw [List.flatMap_cons, ih (fun b hb => ha b (List.mem_cons_of_mem _ hb))]
      have hc := ha c List.mem_cons_self
      unfold utf8Char
      rw [if_pos (by omega)]
      simp

/-- **C53** The escaped text has no `<`, `>` or `"`, and `&` only where one of these seven references begins. -/
theorem C53_safe (junk : Nat → Byte) (s : List Byte) (pedantic : Bool) (h : Printable s) :
    ∃ c, canonicalXMLContent junk s pedantic = .ok c ∧ asc '<' ∉ c ∧ asc '>' ∉ c ∧ asc '"' ∉ c ∧
      ∀ a b, c = a ++ asc '&' :: b → ∃ e ∈ [bytes "amp;", bytes "lt;", bytes "gt;", bytes "quot;", bytes "#xA;", bytes "#x9;", bytes "#xD;"], e <+: b := by
  refine ⟨_, canonical_text junk s pedantic h, ?_, ?_, ?_, ?_⟩
  · intro hm
    obtain ⟨c, _, hc⟩ := List.mem_flatMap.mp hm
    have key : ∀ (b : Bool) (c : Byte), asc '<' ∉ escapeByte b c := by decide +kernel
    exact key pedantic c hc
  · intro hm
    obtain ⟨c, _, hc⟩ := List.mem_flatMap.mp hm
    have key : ∀ (b : Bool) (c : Byte), asc '>' ∉ escapeByte b c := by decide +kernel
    exact key pedantic c hc
  · intro hm
    obtain ⟨c, _, hc⟩ := List.mem_flatMap.mp hm
    have key : ∀ (b : Bool) (c : Byte), asc '"' ∉ escapeByte b c := by decide +kernel
    exact key pedantic c hc
  · generalize latin1ToUtf8 s = l
    induction l with
    | nil => intro a b e; simp at e
    | cons c l ih =>
      intro a b e
      rw [List.flatMap_cons] at e
      have key : ∀ (p : Bool) (c : Byte), asc '&' ∉ escapeByte p c ∨
          ([bytes "amp;", bytes "lt;", bytes "gt;", bytes "quot;", bytes "#xA;", bytes "#x9;", bytes "#xD;"].any (fun x => escapeByte p c == asc '&' :: x && !x.contains (asc '&'))) = true := by decide +kernel
      rcases key pedantic c with hno | hyes
      · rcases List.append_eq_append_iff.mp e with ⟨a', h1, h2⟩ | ⟨c', h1, h2⟩
        · exact ih a' b h2
        · cases c' with
          | nil => exact ih [] b (by simpa using h2.symm)
          | cons x c' =>
            simp only [List.cons_append, List.cons.injEq] at h2
            exact absurd (by rw [h1, h2.1]; simp) hno
      · obtain ⟨x, hx, hxe⟩ := List.any_eq_true.mp hyes
        simp only [Bool.and_eq_true, beq_iff_eq, Bool.not_eq_true', List.contains_eq_mem, decide_eq_false_iff_not] at hxe
        rw [hxe.1] at e
        cases a with
        | nil =>
          simp only [List.cons_append, List.nil_append, List.cons.injEq] at e
          exact ⟨x, hx, ⟨_, e.2⟩⟩
        | cons y a =>
          simp only [List.cons_append, List.cons.injEq] at e
          rcases List.append_eq_append_iff.mp e.2 with ⟨a', h1, h2⟩ | ⟨c', h1, h2⟩
          · exact ih a' b h2
          · cases c' with
            | nil => exact ih [] b (by simpa using h2.symm)
            | cons z c' =>
              simp only [List.cons_append, List.cons.injEq] at h2
              exact absurd (by rw [h1, h2.1]; simp) hxe.2

theorem utf8_longer : ∀ (s : List Byte), s.length ≤ (s.flatMap (fun b => utf8Char b.toNat)).length ∧
    ((∃ b ∈ s, 128 ≤ b.toNat) → s.length < (s.flatMap (fun b => utf8Char b.toNat)).length) := by
  have key : ∀ c : Byte, 1 ≤ (utf8Char c.toNat).length ∧ (128 ≤ c.toNat → 2 ≤ (utf8Char c.toNat).length) := by decide +kernel
  intro s
  induction s with
  | nil => exact ⟨Nat.le_refl _, by rintro ⟨b, hb, _⟩; simp at hb⟩
  | cons c s ih =>
    rw [List.flatMap_cons, List.length_append, List.length_cons]
    have := key c
    refine ⟨by omega, ?_⟩
    rintro ⟨b, hb, h⟩
    rcases List.mem_cons.mp hb with rfl | hb
    · have := this.2 h; omega
    · have := ih.2 ⟨b, hb, h⟩; omega

/-- **C53** A text with a byte above 127 — any text in UTF-8 that is not ASCII — does not come back. -/
theorem C53_utf8_violated (junk : Nat → Byte) (s after : List Byte) (pedantic : Bool) (h : Printable s) (hb : ∃ b ∈ s, 128 ≤ b.toNat) :
    ∃ c o, canonicalXMLContent junk s pedantic = .ok c ∧ (∃ f0, ∀ f ≥ f0, parseEntities junk f (c ++ 0 :: after) predefinedEntities .general = .ok o) ∧ o ≠ s := by
  obtain ⟨c, h1, h2, _⟩ := C53_roundtrip_partial junk s after pedantic h
  refine ⟨c, _, h1, h2, fun e => ?_⟩
  have := (utf8_longer s).2 hb
  rw [e] at this
  omega

/-- **C53** A text with a control character is written as an element: the escaped text has `<` and `>`. -/
theorem C53_binary_violated (junk : Nat → Byte) (s : List Byte) (pedantic : Bool) (hb : ∃ b ∈ s, isControl b = true) :
    ∃ c, canonicalXMLContent junk s pedantic = .ok c ∧ asc '<' ∈ c ∧ asc '>' ∈ c := by
  have hany : (latin1ToUtf8 s).any isControl = true := by
    obtain ⟨b, hb, hc⟩ := hb
    rw [List.any_eq_true, latin1_utf8]
    refine ⟨b, List.mem_flatMap.mpr ⟨b, hb, ?_⟩, hc⟩
    have key : ∀ b : Byte, isControl b = true → b ∈ utf8Char b.toNat := by decide +kernel
    exact key b hc
  have hne : latin1ToUtf8 s ≠ [] := by
    intro e; rw [e] at hany; simp at hany
  obtain ⟨t, ht, _⟩ := C07_encode _ hne
  refine ⟨ascText "<base64>" ++ t ++ ascText "</base64>", ?_, ?_, ?_⟩
  · unfold canonicalXMLContent
    simp only []
    rw [hany]
    simp only [if_true]
    rw [ht]
    rfl
  · rw [List.append_assoc]; exact List.mem_append_left _ (by decide)
  · rw [List.append_assoc]; exact List.mem_append_left _ (by decide)

/-- A text with everything that is escaped. -/
example : Printable (bytes "a<b> & \"c\"\r\n\td") := by
  have key : ∀ c ∈ bytes "a<b> & \"c\"\r\n\td", 32 ≤ c.toNat ∨ c = 9 ∨ c = 10 ∨ c = 13 := by decide +kernel
  exact key

end Wizard.Props

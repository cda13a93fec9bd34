import Verif.Lemmas.XmlWrite
import Verif.Props.XmlDoc
/-! C112, C113: writing XML trees. -/
namespace Wizard.Props
open Wizard Wizard.Spec.Xml Wizard.XmlP

/-- An element that can be written: its name, attributes and content, and all those below it, are in ASCII where XML does not say otherwise
(see `AttrsOK`, `Ascii` and `KidsOK`); the offsets of children ascend and lie in the content. -/
structure Writable (n : XmlOpen) (tag : List Byte) : Prop where
  has : n.tag = some tag
  name : Name tag ∧ ¬ skipped tag
  attrs : AttrsOK n.attrs
  content : Ascii n.content
  length : n.content.length < 2 ^ 63
  offset : n.offset < 4096
  kids : KidsOK n.content.length 0 n.kids

/-- The cut of the empty text. -/
theorem cut_empty (junk : Nat → Byte) (k : Nat) (hk : k < 4096) : cutSource junk [] (some k) = .ok [] := by
  unfold cutSource
  have hw : wr ([] ++ 0 :: (List.range (wizardPathExtent - 1)).map junk) k 0 = .ok (([] ++ 0 :: (List.range (wizardPathExtent - 1)).map junk).set k 0) := by
    unfold wr
    have : wizardPathExtent = 4096 := rfl
    rw [if_pos (by simp; omega)]
  simp only []
  rw [hw, Res.ok_bind]
  cases k with
  | zero => rfl
  | succ k => rfl

/-- What is written for the body of an element. -/
theorem body_write (junk : Nat → Byte) (kids : XmlKids) (content : List Byte) (hc : Ascii content) (hl : content.length < 2 ^ 63) (hk : KidsOK content.length 0 kids) (o : XmlOut) :
    ∃ o', (if kids = .nil then encodeEntities junk content none false o else tagToXML junk [] kids content 0 o) = .ok o' ∧ o'.text = o.text ++ (itemsOf kids content 0).render := by
  by_cases h : kids = .nil
  · rw [if_pos h, h]
    obtain ⟨o', e, t, _⟩ := encode_ok junk content content none false o rfl hc
    refine ⟨o', e, ?_⟩
    rw [t]
    unfold itemsOf
    rw [text_render]
    simp [Items.render]
  · rw [if_neg h]
    exact tag_write junk kids content 0 o h hc hl (Nat.zero_le _) hk

/-- What is written for an element on its own. -/
theorem root_write (junk : Nat → Byte) (n : XmlOpen) (tag : List Byte) (h : Writable n tag) (o : XmlOut) :
    ∃ o', tagToXML junk [] (.cons tag n.attrs n.content n.offset n.kids .nil) [] 0 o = .ok o' ∧
      o'.text = o.text ++ ((bytes "<" ++ tag ++ renderAtts (n.attrs.map attOf) ++ (if n.content = [] then bytes "/>" else bytes ">")) ++ (itemsOf n.kids n.content 0).render ++
        (if n.content = [] then [] else bytes "</" ++ tag ++ bytes ">")) := by
  unfold tagToXML
  have hA : Ascii [] := fun c hc => absurd hc (by simp)
  have hso : signedOffset n.offset 0 = some n.offset := by
    unfold signedOffset
    have := h.offset
    rw [if_pos ⟨Nat.zero_le _, by omega⟩, Nat.sub_zero]
  obtain ⟨o1, e1, t1, _⟩ := encode_ok junk (([] : List Byte).drop 0) [] (signedOffset n.offset 0) false o (by rw [hso]; exact cut_empty junk _ h.offset) hA
  obtain ⟨o2, e2, t2⟩ := open_write junk tag n.attrs n.content h.attrs o1
  obtain ⟨o3, e3, t3⟩ := body_write junk n.kids n.content h.content h.length h.kids o2
  obtain ⟨o4, e4, t4⟩ := close_write tag n.content o3
  obtain ⟨o5, e5, t5, _⟩ := encode_ok junk (([] : List Byte).drop (min n.offset ([] : List Byte).length)) [] none false o4 (by unfold cutSource; simp) hA
  rw [e1, Res.ok_bind, e2, Res.ok_bind, e3, Res.ok_bind, e4, Res.ok_bind]
  refine ⟨o5, e5, ?_⟩
  rw [t5, t4, t3, t2, t1]
  simp [esc]

/-- The document written for an element on its own. -/
def written (n : XmlOpen) (tag : List Byte) : Items := elemItem tag n.attrs n.content (itemsOf n.kids n.content 0) .done

theorem written_render {n : XmlOpen} {tag : List Byte} (hne : n.kids ≠ .nil → n.content ≠ []) :
    (written n tag).render = (bytes "<" ++ tag ++ renderAtts (n.attrs.map attOf) ++ (if n.content = [] then bytes "/>" else bytes ">")) ++ (itemsOf n.kids n.content 0).render ++
      (if n.content = [] then [] else bytes "</" ++ tag ++ bytes ">") := by
  unfold written
  rw [elem_render]
  · simp [Items.render]
  · intro hce
    have hcn : n.kids = .nil := by
      cases hk : n.kids with
      | nil => rfl
      | cons _ _ _ _ _ _ => exact absurd hce (hne (by rw [hk]; simp))
    rw [hcn, hce]
    rfl

theorem written_ok {n : XmlOpen} {tag : List Byte} (h : Writable n tag) (hne : n.kids ≠ .nil → n.content ≠ []) :
    (written n tag).WF ∧ Simple (written n tag) ∧ IsRoot (written n tag) ∧ Denotes noDtd (written n tag) [] [] [(0, treeOf n)] := by
  have hb := items_ok n.kids n.content 0 h.content h.kids
  have he := elem_ok (content := n.content) (rest := .done) h.name h.attrs hb ⟨trivial, trivial⟩
  refine ⟨he.1, he.2.1, ?_, ?_⟩
  · unfold written elemItem
    split <;> trivial
  · have hd := items_denote n.kids n.content 0 h.content (Nat.zero_le _) h.kids
    have ha := (atts_ok h.attrs).2.2
    unfold written elemItem treeOf
    rw [h.has]
    by_cases hce : n.content = []
    · rw [if_pos hce, hce]
      have hcn : n.kids = .nil := by
        cases hk : n.kids with
        | nil => rfl
        | cons _ _ _ _ _ _ => exact absurd hce (hne (by rw [hk]; simp))
      rw [hcn]
      exact .empty (ha _) .done
    · rw [if_neg hce]
      exact .elem (ha _) hd .done

/-- **C112**, partial: an element is written as text that reads as that element.  What is missing: see `Writable`; elements that have children
but no content are lost, see `C112_nesting_violated`; characters beyond ASCII and control characters, see C53; default attributes and
processing instructions, see `C112_instructions_violated`. -/
theorem C112_round_trip_partial (e : XmlEnv) (junk : Nat → Byte) (n : XmlOpen) (tag : List Byte) (h : Writable n tag) (hne : n.kids ≠ .nil → n.content ≠ []) :
    ∃ text, elementToXML junk [] [] n = .ok (some text) ∧
      ∃ r n', (∃ N, ∀ f ≥ N, newXMLTree e f text = .ok (some (r, true))) ∧ r.tree = some n' ∧ treeOf n' = treeOf n := by
  obtain ⟨o', e', t'⟩ := root_write junk n tag h ⟨[], wizardPathExtent⟩
  obtain ⟨w1, w2, w3, w4⟩ := written_ok h hne
  refine ⟨o'.text, ?_, ?_⟩
  · unfold elementToXML
    rw [h.has]
    simp only [writePIs, Res.ok_bind, e']
  · rw [t', ← written_render hne]
    have := C110_document_partial e ⟨none, .done, written n tag, .done⟩ ⟨fun x hx => (by cases hx), trivial, trivial, w1, w3, trivial, trivial⟩ w2 (treeOf n) w4
    simpa [Document.render, Items.render] using this

theorem name_a : Name (bytes "a") := name_ok (c := 97) (r := []) (by unfold NameStart Letter; decide) (by unfold NameByte NameStart Letter; decide)
theorem name_b : Name (bytes "b") := name_ok (c := 98) (r := []) (by unfold NameStart Letter; decide) (by unfold NameByte NameStart Letter; decide)
theorem name_c : Name (bytes "c") := name_ok (c := 99) (r := []) (by unfold NameStart Letter; decide) (by unfold NameByte NameStart Letter; decide)
theorem name_x : Name (bytes "x") := name_ok (c := 120) (r := []) (by unfold NameStart Letter; decide) (by unfold NameByte NameStart Letter; decide)

/-- `<a x="1&lt;2">t&amp;<b>u</b>v<c/></a>`, as a tree. -/
def sampleElement : XmlOpen :=
  ⟨some (bytes "a"), [(bytes "x", some (bytes "1<2"))], bytes "t&v", 3, .cons (bytes "b") [] (bytes "u") 2 .nil (.cons (bytes "c") [] [] 3 .nil .nil)⟩

example : Writable sampleElement (bytes "a") ∧ (sampleElement.kids ≠ .nil → sampleElement.content ≠ []) := by
  have w : ∀ s : List Byte, ((∀ c ∈ s, (32 ≤ c.toNat ∨ c = 9 ∨ c = 10 ∨ c = 13) ∧ c.toNat < 128) → Ascii s) := fun s h => h
  have a0 : AttrsOK [] := ⟨by simp, by simp, by simp⟩
  refine ⟨⟨rfl, ⟨name_a, by unfold skipped; decide +kernel⟩, ⟨?_, by simp [sampleElement], ?_⟩,
    w _ (by decide +kernel), by decide +kernel, by decide, ?_⟩, fun _ => by decide +kernel⟩
  · intro a ha
    simp [sampleElement] at ha
    subst ha
    exact ⟨name_x, _, rfl, w _ (by decide +kernel)⟩
  · intro a ha
    cases ha
    exact ⟨120, [], rfl, by unfold Letter; decide⟩
  · refine ⟨⟨name_b, by unfold skipped; decide +kernel⟩, a0, w _ (by decide +kernel), fun h => absurd rfl h, by decide +kernel,
      by decide, by decide +kernel, trivial, ?_⟩
    exact ⟨⟨name_c, by unfold skipped; decide +kernel⟩, a0, w _ (by decide +kernel), fun h => absurd rfl h, by decide +kernel,
      by decide, by decide +kernel, trivial, trivial⟩

/-- **C112 is false** for elements with children but no content of their own (xml-tree.c:2763 and 2776): the element is written as if it were
empty, and its children stand behind it.  An element `<a><b/></a>` is written `<a/><b/>`, which is not a document. -/
theorem C112_nesting_violated (junk : Nat → Byte) (n : XmlOpen) (tag : List Byte) (h : Writable n tag) (hc : n.content = []) :
    elementToXML junk [] [] n = .ok (some (bytes "<" ++ tag ++ renderAtts (n.attrs.map attOf) ++ bytes "/>" ++ (itemsOf n.kids [] 0).render)) := by
  obtain ⟨o', e', t'⟩ := root_write junk n tag h ⟨[], wizardPathExtent⟩
  unfold elementToXML
  rw [h.has]
  simp only [writePIs, Res.ok_bind, e']
  rw [t', hc]
  simp

/-- The element `<a><b/></a>`, read and written. -/
theorem C112_nesting_read_violated : ∃ n n' r r' f, newXMLTree plainEnv f (bytes "<a><b/></a>") = .ok (some (r, true)) ∧ r.tree = some n ∧
    elementToXML (fun _ => 0) [] [] n = .ok (some (bytes "<a/><b/>")) ∧ newXMLTree plainEnv f (bytes "<a/><b/>") = .ok (some (r', false)) ∧ r'.tree = some n' ∧
    treeOf n = .node (bytes "a") [] [] [(0, .node (bytes "b") [] [] [])] ∧ treeOf n' = .node (bytes "a") [] [] [] := by
  refine ⟨⟨some (bytes "a"), [], [], 0, .cons (bytes "b") [] [] 0 .nil .nil⟩, ⟨some (bytes "a"), [], [], 0, .nil⟩, 
    ⟨[], some ⟨some (bytes "a"), [], [], 0, .cons (bytes "b") [] [] 0 .nil .nil⟩, false, [], predefinedEntities, [], 0⟩,
    ⟨[], some ⟨some (bytes "a"), [], [], 0, .nil⟩, false, [], predefinedEntities, [], 0⟩, 50, by decide +kernel, rfl, ?_, by decide +kernel, rfl, rfl, rfl⟩
  have b1 : bytes "<a/><b/>" = bytes "<" ++ bytes "a" ++ renderAtts ([].map attOf) ++ bytes "/>" ++ (itemsOf (.cons (bytes "b") [] [] 0 .nil .nil) [] 0).render := by decide +kernel
  rw [b1]
  have hA : Ascii [] := fun c hc => absurd hc (by simp)
  have a0 : AttrsOK [] := ⟨by simp, by simp, by simp⟩
  exact C112_nesting_violated _ ⟨some (bytes "a"), [], [], 0, .cons (bytes "b") [] [] 0 .nil .nil⟩ (bytes "a")
    ⟨rfl, ⟨name_a, by unfold skipped; decide +kernel⟩, a0, hA, by decide, by decide,
      ⟨name_b, by unfold skipped; decide +kernel⟩, a0, hA, fun h => absurd rfl h, by decide, by decide, by decide, trivial, trivial⟩ rfl

/-! ### Processing instructions -/

theorem pi_item_write (o : XmlOut) (p item : List Byte) (n : Nat) (h : item.length ≤ p.length + n + 100) : ∃ o', (o.room (p.length + n)).emit item = .ok o' ∧ o'.text = o.text ++ item := by
  obtain ⟨h1, h2⟩ := room_ok o (p.length + n)
  obtain ⟨o', h3, h4, _⟩ := emit_ok (o := o.room (p.length + n)) (s := item) 0 (by rw [h1]; omega)
  exact ⟨o', h3, by rw [h4, h1]⟩

theorem pi_length (t b : List Byte) : (piText t b).length ≤ b.length + t.length + 10 := by
  unfold piText
  split <;> simp <;> omega

/-- The instructions written before the root, for one instruction before the root. -/
theorem pis_before (t b : List Byte) (o : XmlOut) : ∃ o', writePIs true [⟨t, [(b, true)]⟩] o = .ok o' ∧ o'.text = o.text ++ (piText t b ++ [0x0a] ++ (piText t b ++ [0x0a])) := by
  obtain ⟨o1, e1, t1⟩ := pi_item_write o b (piText t b ++ [0x0a]) t.length (by have := pi_length t b; simp; omega)
  obtain ⟨o2, e2, t2⟩ := pi_item_write o1 b (piText t b ++ [0x0a]) t.length (by have := pi_length t b; simp; omega)
  refine ⟨o2, ?_, by rw [t2, t1]; simp⟩
  have f1 : asc '<' ≠ asc '>' := by decide
  have f2 : ¬ (0#8 : Byte) = asc '>' := by decide
  have e1 : (o.room (b.length + t.length)).emit (piText t b ++ [10#8]) = .ok o1 := e1
  have e2 : (o1.room (b.length + t.length)).emit (piText t b ++ [10#8]) = .ok o2 := e2
  simp [writePIs, piLoop, piFlags, rd, f1, f2, e1, e2, Res.ok_bind]

/-- The instructions written behind the root, for one instruction before the root. -/
theorem pis_behind (t b : List Byte) (o : XmlOut) : ∃ o', writePIs false [⟨t, [(b, true)]⟩] o = .ok o' ∧ o'.text = o.text ++ (0x0a :: piText t b) := by
  obtain ⟨o1, e1, t1⟩ := pi_item_write o b (0x0a :: piText t b) t.length (by have := pi_length t b; simp; omega)
  refine ⟨o1, ?_, t1⟩
  have f2 : ¬ (0#8 : Byte) = asc '<' := by decide
  have e1 : (o.room (b.length + t.length)).emit (10#8 :: piText t b) = .ok o1 := e1
  simp [writePIs, piLoop, piFlags, rd, f2, e1, Res.ok_bind]

theorem items_no_pis : ∀ (kids : XmlKids) (parent : List Byte) (start : Nat), (itemsOf kids parent start).pis = [] := by
  intro kids
  induction kids with
  | nil => intro parent start; unfold itemsOf textItem; split <;> rfl
  | cons tag attrs content offset child ordered ihc iho =>
    intro parent start
    unfold itemsOf textItem elemItem
    split <;> split <;> simp [Items.pis, ihc, iho]

theorem written_no_pis (n : XmlOpen) (tag : List Byte) : (written n tag).pis = [] := by
  unfold written elemItem
  split <;> simp [Items.pis, items_no_pis]

/-- **C112 is false** for processing instructions (xml-tree.c:2837-2856 and 2871-2890): an instruction that stands before the root is written
three times, twice before the root and once behind it: read again, the document has three. -/
theorem C112_instructions_violated (e : XmlEnv) (junk : Nat → Byte) (n : XmlOpen) (tag t b : List Byte) (h : Writable n tag) (hne : n.kids ≠ .nil → n.content ≠ [])
    (hpi : (Items.pi t (if b = [] then [] else [32]) b .done).WF) :
    ∃ text, elementToXML junk [] [⟨t, [(b, true)]⟩] n = .ok (some text) ∧ ∃ r, (∃ N, ∀ f ≥ N, newXMLTree e f text = .ok (some (r, true))) ∧ getPIs r t = [b, b, b] := by
  obtain ⟨o1, e1, t1⟩ := pis_before t b ⟨[], wizardPathExtent⟩
  obtain ⟨o2, e2, t2⟩ := root_write junk n tag h o1
  obtain ⟨o3, e3, t3⟩ := pis_behind t b o2
  obtain ⟨w1, w2, w3, w4⟩ := written_ok h hne
  refine ⟨o3.text, ?_, ?_⟩
  · unfold elementToXML
    rw [h.has]
    simp only [e1, e2, e3, Res.ok_bind]
  · have hnl : Chars [0x0a] ∧ (60 : Byte) ∉ [(0x0a : Byte)] ∧ Blank [0x0a] := by unfold Chars Blank; decide
    obtain ⟨p1, p2, p3, p4, p5, p6, p7, _⟩ := hpi
    let pi := fun (rest : Items) => Items.pi t (if b = [] then [] else [32]) b rest
    have hp : ∀ rest : Items, rest.WF → (pi rest).WF := fun rest hr => ⟨p1, p2, p3, p4, p5, p6, p7, hr⟩
    let d : Document := ⟨none, pi (.text [0x0a] (pi (.text [0x0a] .done))), written n tag, .text [0x0a] (pi .done)⟩
    have hd : d.WF := by
      refine ⟨fun x hx => (by cases hx), hp _ ⟨by simp, hnl.1, hnl.2.1, rfl, hp _ ⟨by simp, hnl.1, hnl.2.1, rfl, trivial⟩⟩, ⟨hnl.2.2, hnl.2.2, trivial⟩, w1, w3, ⟨by simp, hnl.1, hnl.2.1, rfl, hp _ trivial⟩, hnl.2.2, trivial⟩
    have hr : d.render = o3.text := by
      have b1 : bytes "<?" = [asc '<', asc '?'] := by decide +kernel
      have b2 : bytes "?>" = [asc '?', asc '>'] := by decide +kernel
      have hx : (Items.pi t (if b = [] then [] else [32]) b .done).render = piText t b := by
        unfold piText
        rw [Items.render, b1, b2]
        have : asc ' ' = 32 := by decide
        simp [Items.render, this]
      have hy : ∀ rest, (pi rest).render = piText t b ++ rest.render := by
        intro rest
        rw [← hx, Items.render]
        simp [pi, Items.render]
      show [] ++ (pi _).render ++ (written n tag).render ++ (Items.text _ (pi .done)).render = _
      rw [hy, Items.render, hy, Items.render, Items.render, Items.render, hy, Items.render, t3, t2, t1, ← written_render hne]
      simp [Items.render]
    obtain ⟨r, r1, r2⟩ := C111_instructions_partial e d hd w2 (treeOf n) w4
    rw [hr] at r1
    refine ⟨r, r1, ?_⟩
    rw [r2]
    have hi : d.root.pis = [] := written_no_pis n tag
    rw [hi]
    simp [d, pi, Items.pis]

/-! ### Safety -/

/-- Children that can be written safely: no attribute value is NULL, and no child lies 4096 bytes or more behind the content that is left. -/
def SafeKids : List Byte → Nat → XmlKids → Prop
  | _, _, .nil => True
  | parent, start, .cons _ attrs content offset child ordered =>
    (∀ a ∈ attrs, a.2.isSome = true) ∧ offset < max start parent.length + 4096 ∧ SafeKids content 0 child ∧ SafeKids parent (min offset parent.length) ordered

theorem canonical_total (junk : Nat → Byte) (s : List Byte) (pedantic : Bool) : ∃ c, canonicalXMLContent junk s pedantic = .ok c := by
  by_cases h : ∃ b ∈ s, isControl b = true
  · obtain ⟨c, hc, _⟩ := C53_binary_violated junk s pedantic h
    exact ⟨c, hc⟩
  · refine ⟨_, canonical_text junk s pedantic (fun b hb => ?_)⟩
    have key : ∀ b : Byte, isControl b = false → 32 ≤ b.toNat ∨ b = 9 ∨ b = 10 ∨ b = 13 := by decide +kernel
    refine key b ?_
    cases hx : isControl b with
    | false => rfl
    | true => exact absurd ⟨b, hb, hx⟩ h

theorem cut_total (junk : Nat → Byte) (s : List Byte) (k : Option Nat) (h : ∀ x, k = some x → x < s.length + 4096) : ∃ c, cutSource junk s k = .ok c := by
  cases k with
  | none => exact ⟨s, rfl⟩
  | some k =>
    unfold cutSource
    have : wizardPathExtent = 4096 := rfl
    have hk := h k rfl
    have hw : wr (s ++ 0 :: (List.range (wizardPathExtent - 1)).map junk) k 0 = .ok ((s ++ 0 :: (List.range (wizardPathExtent - 1)).map junk).set k 0) := by
      unfold wr
      rw [if_pos (by simp; omega)]
    simp only []
    rw [hw, Res.ok_bind]
    exact ⟨_, rfl⟩

theorem encode_total (junk : Nat → Byte) (source : List Byte) (k : Option Nat) (pedantic : Bool) (o : XmlOut) (h : ∀ x, k = some x → x < source.length + 4096) :
    ∃ o', encodeEntities junk source k pedantic o = .ok o' ∧ o'.text.length + 4096 ≤ o'.extent := by
  obtain ⟨s, hs⟩ := cut_total junk source k h
  obtain ⟨c, hc⟩ := canonical_total junk s pedantic
  unfold encodeEntities
  rw [hs, Res.ok_bind, hc, Res.ok_bind]
  obtain ⟨h1, h2⟩ := room_ok o c.length
  obtain ⟨o', h3, _, h5⟩ := emit_ok (o := o.room c.length) (s := c) 4095 (by rw [h1]; omega)
  exact ⟨o', h3, h5⟩

theorem attr_total (junk : Nat → Byte) (a : List Byte × Option (List Byte)) (h : a.2.isSome = true) (o : XmlOut) : ∃ o', writeAttr junk a o = .ok o' ∧ o'.text.length + 4095 ≤ o'.extent := by
  obtain ⟨n, v⟩ := a
  cases v with
  | none => exact absurd h (by simp)
  | some v =>
    unfold writeAttr
    obtain ⟨h1, h2⟩ := room_ok o n.length
    obtain ⟨o1, h3, _, _⟩ := emit_ok (o := o.room n.length) (s := asc ' ' :: n ++ [asc '=', asc '"']) 4092 (by rw [h1]; simp; omega)
    simp only []
    rw [h3, Res.ok_bind]
    obtain ⟨o2, h6, h7⟩ := encode_total junk v none true o1 (fun x hx => (by cases hx))
    obtain ⟨o3, h9, _, h11⟩ := emit_ok (o := o2) (s := [asc '"']) 4094 (by simp; omega)
    rw [h6, Res.ok_bind, h9]
    exact ⟨o3, rfl, h11⟩

theorem attrs_total (junk : Nat → Byte) : ∀ (as before : XmlAttrs) (o : XmlOut), (∀ a ∈ as, a.2.isSome = true) → o.text.length + 4095 ≤ o.extent →
    ∃ o', writeAttrs junk before as o = .ok o' ∧ o'.text.length + 4095 ≤ o'.extent := by
  intro as
  induction as with
  | nil => intro before o _ h; exact ⟨o, rfl, h⟩
  | cons a as ih =>
    intro before o hv ho
    unfold writeAttrs
    have : ∃ o1, (if firstOf before a then writeAttr junk a o else .ok o) = .ok o1 ∧ o1.text.length + 4095 ≤ o1.extent := by
      split
      · exact attr_total junk a (hv a List.mem_cons_self) o
      · exact ⟨o, rfl, ho⟩
    obtain ⟨o1, h1, h2⟩ := this
    rw [h1, Res.ok_bind]
    exact ih _ o1 (fun x hx => hv x (List.mem_cons_of_mem _ hx)) h2

theorem defaults_total (junk : Nat → Byte) (attrs : XmlAttrs) : ∀ (ds : List (List Byte × Option (List Byte) × XmlState)) (seen : List (List Byte)) (o : XmlOut), o.text.length + 4095 ≤ o.extent →
    ∃ o', writeDefaults junk attrs seen ds o = .ok o' ∧ o'.text.length + 4095 ≤ o'.extent := by
  intro ds
  induction ds with
  | nil => intro seen o h; exact ⟨o, rfl, h⟩
  | cons d ds ih =>
    intro seen o ho
    obtain ⟨n, v, st⟩ := d
    unfold writeDefaults
    have : ∃ o1, (if v.isSome && attrs.all (fun a => a.1 != n) && !seen.contains n then writeAttr junk (n, v) o else .ok o) = .ok o1 ∧ o1.text.length + 4095 ≤ o1.extent := by
      split
      · rename_i hc
        simp only [Bool.and_eq_true] at hc
        exact attr_total junk (n, v) hc.1.1 o
      · exact ⟨o, rfl, ho⟩
    obtain ⟨o1, h1, h2⟩ := this
    rw [h1, Res.ok_bind]
    exact ih _ o1 h2

theorem open_total (junk : Nat → Byte) (defaults : List XmlDefaults) (tag : List Byte) (attrs : XmlAttrs) (content : List Byte) (ha : ∀ a ∈ attrs, a.2.isSome = true) (o : XmlOut) :
    ∃ o', writeOpen junk defaults tag attrs content o = .ok o' := by
  unfold writeOpen
  obtain ⟨h1, h2⟩ := room_ok o tag.length
  obtain ⟨o1, h3, _, h5⟩ := emit_ok (o := o.room tag.length) (s := asc '<' :: tag) 4094 (by rw [h1]; simp; omega)
  obtain ⟨o2, h6, h8⟩ := attrs_total junk attrs [] o1 ha h5
  obtain ⟨o3, h9, h10⟩ := defaults_total junk attrs (((defaults.find? (fun d => d.tag == tag)).map (·.list)).getD []) [] o2 h8
  obtain ⟨o4, h11, _, _⟩ := emit_ok (o := o3) (s := if content = [] then [asc '/', asc '>'] else [asc '>']) 4000 (by split <;> simp <;> omega)
  rw [h3, Res.ok_bind, h6, Res.ok_bind, h9, Res.ok_bind]
  exact ⟨o4, h11⟩

theorem tag_total (junk : Nat → Byte) (defaults : List XmlDefaults) : ∀ (kids : XmlKids) (parent : List Byte) (start : Nat) (o : XmlOut), SafeKids parent start kids → ∃ o', tagToXML junk defaults kids parent start o = .ok o' := by
  intro kids
  induction kids with
  | nil => intro parent start o _; exact ⟨o, rfl⟩
  | cons tag attrs content offset child ordered ihc iho =>
    intro parent start o hk
    obtain ⟨ha, hoff, hkc, hko⟩ := hk
    unfold tagToXML
    obtain ⟨o1, e1, _⟩ := encode_total junk (parent.drop start) (signedOffset offset start) false o (by
      intro x hx
      unfold signedOffset at hx
      split at hx
      · cases hx
        rw [List.length_drop]
        omega
      · cases hx)
    obtain ⟨o2, e2⟩ := open_total junk defaults tag attrs content ha o1
    have hb : ∃ o3, (if child = .nil then encodeEntities junk content none false o2 else tagToXML junk defaults child content 0 o2) = .ok o3 := by
      split
      · obtain ⟨o3, e3, _⟩ := encode_total junk content none false o2 (fun x hx => (by cases hx))
        exact ⟨o3, e3⟩
      · exact ihc content 0 o2 hkc
    obtain ⟨o3, e3⟩ := hb
    obtain ⟨o4, e4, _⟩ := close_write tag content o3
    have hr : ∃ o5, (if ordered = .nil then encodeEntities junk (parent.drop (min offset parent.length)) none false o4 else tagToXML junk defaults ordered parent (min offset parent.length) o4) = .ok o5 := by
      split
      · obtain ⟨o5, e5, _⟩ := encode_total junk (parent.drop (min offset parent.length)) none false o4 (fun x hx => (by cases hx))
        exact ⟨o5, e5⟩
      · exact iho parent _ o4 hko
    obtain ⟨o5, e5⟩ := hr
    rw [e1, Res.ok_bind, e2, Res.ok_bind, e3, Res.ok_bind, e4, Res.ok_bind]
    exact ⟨o5, e5⟩

theorem pi_loop_total (bodies : List (List Byte)) (flags : List Byte) (skip : Byte) (item : List Byte → List Byte) (n : Nat) (hf : bodies.length < flags.length) (hi : ∀ p, (item p).length ≤ p.length + n + 100) :
    ∀ (fuel j : Nat) (p : Option (List Byte)) (o : XmlOut), 1 ≤ j → (p.isSome = true → j ≤ bodies.length + 1) → j ≤ bodies.length + 2 → bodies.length + 2 < fuel + j → ∃ o', piLoop bodies flags skip item n fuel j p o = .ok o' := by
  intro fuel
  induction fuel with
  | zero =>
    intro j p o hj hp hj2 hlt
    omega
  | succ fuel ih =>
    intro j p o hj hp hj2 hlt
    cases p with
    | none => exact ⟨o, rfl⟩
    | some p =>
      have hp := hp rfl
      unfold piLoop
      have hr : rd flags (j - 1) = .ok (flags[j - 1]'(by omega)) := by
        unfold rd
        rw [List.getElem?_eq_getElem (by omega)]
      rw [hr, Res.ok_bind]
      have hnext : (bodies[j - 1]?).isSome = true → j + 1 ≤ bodies.length + 1 := by
        intro h
        have := List.getElem?_eq_some_iff.mp (Option.some_get h).symm
        obtain ⟨hlt, _⟩ := this
        omega
      split
      · exact ih (j + 1) _ o (by omega) hnext (by omega) (by omega)
      · obtain ⟨o1, e1, _⟩ := pi_item_write o p (item p) n (hi p)
        rw [e1, Res.ok_bind]
        exact ih (j + 1) _ o1 (by omega) hnext (by omega) (by omega)

theorem pis_total (pre : Bool) : ∀ (ps : List XmlPI) (o : XmlOut), ∃ o', writePIs pre ps o = .ok o' := by
  intro ps
  induction ps with
  | nil => intro o; exact ⟨o, rfl⟩
  | cons p ps ih =>
    intro o
    unfold writePIs
    simp only []
    have := pi_loop_total (p.bodies.map (·.1)) (piFlags p) (if pre then asc '>' else asc '<') (fun b => if pre then piText p.target b ++ [0x0a] else 0x0a :: piText p.target b) p.target.length
      (by unfold piFlags; simp) (by intro b; have := pi_length p.target b; split <;> simp <;> omega) ((p.bodies.map (·.1)).length + 2) 1 (p.bodies.map (·.1))[0]? o (by omega) (fun _ => by omega) (by omega) (by omega)
    obtain ⟨o1, e1⟩ := this
    rw [e1, Res.ok_bind]
    exact ih o1

/-- **C113**, partial: writing an element of a tree, with any default attributes and processing instructions and any bytes in its texts, stays
within its buffers and dereferences no NULL, if no attribute value is NULL, the element lies less than 4096 bytes into the content of its
parent, and the elements below it lie less than 4096 bytes behind the content of theirs. -/
theorem C113_writing_safe_partial (junk : Nat → Byte) (defaults : List XmlDefaults) (pis : List XmlPI) (n : XmlOpen)
    (ha : ∀ a ∈ n.attrs, a.2.isSome = true) (ho : n.offset < 4096) (hk : SafeKids n.content 0 n.kids) : ∃ t, elementToXML junk defaults pis n = .ok t := by
  unfold elementToXML
  cases ht : n.tag with
  | none => exact ⟨none, rfl⟩
  | some tag =>
    simp only []
    obtain ⟨o1, e1⟩ := pis_total true pis ⟨[], wizardPathExtent⟩
    obtain ⟨o2, e2⟩ := tag_total junk defaults (.cons tag n.attrs n.content n.offset n.kids .nil) [] 0 o1 ⟨ha, by simpa using ho, hk, trivial⟩
    obtain ⟨o3, e3⟩ := pis_total false pis o2
    rw [e1, Res.ok_bind, e2, Res.ok_bind, e3, Res.ok_bind]
    exact ⟨_, rfl⟩

example : (∀ a ∈ sampleElement.attrs, a.2.isSome = true) ∧ sampleElement.offset < 4096 ∧ SafeKids sampleElement.content 0 sampleElement.kids := by
  refine ⟨by decide +kernel, by decide, ?_⟩
  unfold sampleElement
  simp only [SafeKids]
  have : (bytes "t&v").length = 3 := by decide +kernel
  refine ⟨?_, ?_, ?_, ?_⟩ <;> simp [SafeKids, this]

/-- **C113 is false** for an element that lies 4096 bytes or more into the content of its parent (xml-tree.c:2706 and 2664): written on its
own it has no parent, but its offset is kept: a NUL is written that far behind an empty string, outside its buffer of 4096 bytes. -/
theorem C113_offset_violated (junk : Nat → Byte) (defaults : List XmlDefaults) (n : XmlOpen) (tag : List Byte) (ht : n.tag = some tag) (ho : 4096 ≤ n.offset) (hs : n.offset < 2 ^ 63) :
    elementToXML junk defaults [] n = .ub := by
  unfold elementToXML
  rw [ht]
  simp only [writePIs, Res.ok_bind]
  unfold tagToXML encodeEntities cutSource signedOffset
  rw [if_pos ⟨Nat.zero_le _, by omega⟩]
  have hw : wr (([] : List Byte).drop 0 ++ 0 :: (List.range (wizardPathExtent - 1)).map junk) (n.offset - 0) 0 = .ub := by
    unfold wr
    have : wizardPathExtent = 4096 := rfl
    rw [if_neg (by simp; omega)]
  simp only []
  rw [hw]
  rfl

/-- **C113 is false** for documents that are not well-formed but are read without a warning (xml-tree.c:2107-2118 and 2730): an
attribute without quotes gets the value NULL, which writing the tree dereferences.  `<a b=c></a>` is one. -/
theorem C113_null_value_violated (junk : Nat → Byte) : ∃ r n f, newXMLTree plainEnv f (bytes "<a b=c></a>") = .ok (some (r, true)) ∧ r.tree = some n ∧ xmlTreeInfoToXML junk r n = .ub := by
  refine ⟨⟨[], some ⟨some (bytes "a"), [(bytes "b", none), ([], none)], [], 0, .nil⟩, false, [], predefinedEntities, [], 0⟩, ⟨some (bytes "a"), [(bytes "b", none), ([], none)], [], 0, .nil⟩, 50, by decide +kernel, rfl, ?_⟩
  have key : ∀ (tag name : List Byte) (as : XmlAttrs) (o : XmlOut) (kids : XmlKids), tagToXML junk [] (.cons tag ((name, none) :: as) [] 0 kids .nil) [] 0 o = .ub := by
    intro tag name as o kids
    unfold tagToXML
    obtain ⟨o1, e1, _⟩ := encode_total junk (([] : List Byte).drop 0) (signedOffset 0 0) false o (by intro x hx; unfold signedOffset at hx; simp at hx; simp; omega)
    rw [e1, Res.ok_bind]
    unfold writeOpen
    obtain ⟨h1, h2⟩ := room_ok o1 tag.length
    obtain ⟨o2, h3, _, h5⟩ := emit_ok (o := o1.room tag.length) (s := asc '<' :: tag) 4094 (by rw [h1]; simp; omega)
    rw [h3, Res.ok_bind]
    unfold writeAttrs
    have : writeAttr junk (name, none) o2 = .ub := by
      unfold writeAttr
      obtain ⟨h1, h2⟩ := room_ok o2 name.length
      obtain ⟨o3, h3, _, _⟩ := emit_ok (o := o2.room name.length) (s := asc ' ' :: name ++ [asc '=', asc '"']) 4092 (by rw [h1]; simp; omega)
      simp only []
      rw [h3]
      rfl
    rw [show firstOf [] (name, none) = true from rfl, if_pos rfl, this]
    rfl
  unfold xmlTreeInfoToXML elementToXML
  simp only [writePIs, Res.ok_bind]
  rw [key]
  rfl

end Wizard.Props

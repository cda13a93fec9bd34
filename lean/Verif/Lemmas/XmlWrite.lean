import Verif.Lemmas.XmlDoc
import Verif.Model.XmlWrite
import Verif.Props.XmlEscape
/-! Lemmas about `XMLTreeInfoToXML`. -/
namespace Wizard.XmlP
open Wizard Wizard.Spec.Xml Wizard.Props

/-- ASCII text without control characters other than tab, line feed and carriage return. -/
def Ascii (s : List Byte) : Prop := ∀ c ∈ s, (32 ≤ c.toNat ∨ c = 9 ∨ c = 10 ∨ c = 13) ∧ c.toNat < 128

/-- The attributes of an element that can be written: names that differ and values in ASCII; the first name starts with an ASCII letter or `_`. -/
def AttrsOK (as : XmlAttrs) : Prop :=
  (∀ a ∈ as, Name a.1 ∧ ∃ v, a.2 = some v ∧ Ascii v) ∧ (as.map (·.1)).Nodup ∧ ∀ a, as.head? = some a → ∃ c r, a.1 = c :: r ∧ (Letter c ∨ c = 95)

/-- The children of an element with `len` bytes of content, the first not before `start`: the offsets ascend and do not exceed `len`; every
child has a name, attributes and content that can be written; a child that has children itself has content too. -/
def KidsOK (len : Nat) : Nat → XmlKids → Prop
  | _, .nil => True
  | start, .cons tag attrs content offset child ordered =>
    (Name tag ∧ ¬ skipped tag) ∧ AttrsOK attrs ∧ Ascii content ∧ (child ≠ .nil → content ≠ []) ∧ content.length < 2 ^ 63 ∧ start ≤ offset ∧ offset ≤ len ∧
      KidsOK content.length 0 child ∧ KidsOK len offset ordered

/-! ### Texts -/

/-- The text as it is written. -/
def esc (pedantic : Bool) (s : List Byte) : List Byte := s.flatMap (escapeByte pedantic)

theorem latin1_ascii : ∀ (s : List Byte), Ascii s → latin1ToUtf8 s = s := by
  intro s
  induction s with
  | nil => intro _; rfl
  | cons c s ih =>
    intro h
    unfold latin1ToUtf8
    rw [if_pos (h c List.mem_cons_self).2, ih (fun x hx => h x (List.mem_cons_of_mem _ hx))]

theorem canonical_ascii (junk : Nat → Byte) (s : List Byte) (pedantic : Bool) (h : Ascii s) : canonicalXMLContent junk s pedantic = .ok (esc pedantic s) := by
  rw [canonical_text junk s pedantic (fun c hc => (h c hc).1), latin1_ascii s h]
  rfl

theorem ascii_no_nul {s : List Byte} (h : Ascii s) : (0 : Byte) ∉ s := fun h0 => by
  have := (h 0 h0).1
  revert this
  decide

theorem esc_chars (pedantic : Bool) {s : List Byte} (h : Ascii s) : Chars (esc pedantic s) ∧ (60 : Byte) ∉ esc pedantic s ∧ (34 : Byte) ∉ esc pedantic s := by
  have k1 : ∀ (b : Bool) (c : Byte), (32 ≤ c.toNat ∨ c = 9 ∨ c = 10 ∨ c = 13) → ∀ x ∈ escapeByte b c, 32 ≤ x.toNat ∨ x = 9 ∨ x = 10 ∨ x = 13 := by decide +kernel
  have k2 : ∀ (b : Bool) (c : Byte), (60 : Byte) ∉ escapeByte b c ∧ (34 : Byte) ∉ escapeByte b c := by decide +kernel
  refine ⟨fun x hx => ?_, fun hx => ?_, fun hx => ?_⟩
  · obtain ⟨c, hc, hx⟩ := List.mem_flatMap.mp hx
    exact k1 pedantic c (h c hc).1 x hx
  · obtain ⟨c, hc, hx⟩ := List.mem_flatMap.mp hx
    exact (k2 pedantic c).1 hx
  · obtain ⟨c, hc, hx⟩ := List.mem_flatMap.mp hx
    exact (k2 pedantic c).2 hx

theorem esc_empty (pedantic : Bool) {s : List Byte} (h : s ≠ []) : esc pedantic s ≠ [] := by
  have k : ∀ (b : Bool) (c : Byte), escapeByte b c ≠ [] := by decide +kernel
  cases s with
  | nil => exact absurd rfl h
  | cons c s =>
    unfold esc
    rw [List.flatMap_cons]
    intro hx
    exact k pedantic c (List.append_eq_nil_iff.mp hx).1

theorem esc_means {s : List Byte} (h : Ascii s) : Means content [] (lines (esc false s)) s := by
  have hl : lines (esc false s) = esc false s := lines_id _ (escaped_no_cr false s)
  rw [hl]
  exact means_escaped false s (ascii_no_nul h)

theorem esc_ends (pedantic : Bool) (s : List Byte) : EndsWell (esc pedantic s) := endsWell_of _ (escaped_no_cr pedantic s)

theorem value_escape (c : Byte) (hc : c ≠ 0) {r o : List Byte} (h : Means attValue [] r o) : Means attValue [] (escapeByte true c ++ r) (c :: o) := by
  unfold escapeByte xmlEscape
  by_cases h1 : c = asc '&'
  · subst h1; rw [if_pos rfl]; exact .known (name := bytes "amp") (c := 38) (by decide +kernel) h
  rw [if_neg h1]
  by_cases h2 : c = asc '<'
  · subst h2; rw [if_pos rfl]; exact .known (name := bytes "lt") (c := 60) (by decide +kernel) h
  rw [if_neg h2]
  by_cases h3 : c = asc '>'
  · subst h3; rw [if_pos rfl]; exact .known (name := bytes "gt") (c := 62) (by decide +kernel) h
  rw [if_neg h3]
  by_cases h4 : c = asc '"'
  · subst h4; rw [if_pos rfl]; exact .known (name := bytes "quot") (c := 34) (by decide +kernel) h
  rw [if_neg h4]
  by_cases h5 : c = 0x0a
  · subst h5; rw [if_pos rfl]
    exact .hex (bs := bytes "A") (n := 10) ⟨[10], by decide +kernel, by decide, by decide, by decide⟩ (by decide) (by decide) h
  rw [if_neg h5]
  by_cases h6 : c = 0x09
  · subst h6; rw [if_pos rfl]
    exact .hex (bs := bytes "9") (n := 9) ⟨[9], by decide +kernel, by decide, by decide, by decide⟩ (by decide) (by decide) h
  rw [if_neg h6]
  by_cases h7 : c = 0x0d
  · subst h7; rw [if_pos rfl]
    exact .hex (bs := bytes "D") (n := 13) ⟨[13], by decide +kernel, by decide, by decide, by decide⟩ (by decide) (by decide) h
  rw [if_neg h7]
  have hv : attValue c = c := by
    unfold attValue
    rw [if_neg (by intro h; rcases h with h | h | h; exact h6 h; exact h5 h; exact h7 h)]
  have := Means.plain (lit := attValue) (decls := []) (c := c) h1 hc h
  rw [hv] at this
  exact this

theorem value_means {s : List Byte} (h : Ascii s) : Means attValue [] (lines (esc true s)) s := by
  have hl : lines (esc true s) = esc true s := lines_id _ (escaped_no_cr true s)
  rw [hl]
  have h0 := ascii_no_nul h
  clear h hl
  induction s with
  | nil => exact .done
  | cons c s ih =>
    simp only [List.mem_cons, not_or] at h0
    unfold esc
    rw [List.flatMap_cons]
    exact value_escape c (fun e => h0.1 e.symm) (ih h0.2)

/-! ### The document written -/

/-- The attribute as it is written. -/
def attOf (a : List Byte × Option (List Byte)) : Att := ⟨[32], a.1, [], [], 34, esc true (a.2.getD [])⟩

/-- A text as it is written: nothing for the empty text. -/
def textItem (s : List Byte) (rest : Items) : Items := if s = [] then rest else .text (esc false s) rest

/-- The element as it is written. -/
def elemItem (tag : List Byte) (attrs : XmlAttrs) (content : List Byte) (body rest : Items) : Items :=
  if content = [] then .empty tag (attrs.map attOf) [] rest else .elem tag (attrs.map attOf) [] body [] rest

/-- What is written for children and the content around them, from `start` on. -/
def itemsOf : XmlKids → List Byte → Nat → Items
  | .nil, parent, start => textItem (parent.drop start) .done
  | .cons tag attrs content offset child ordered, parent, start =>
    textItem ((parent.drop start).take (offset - start)) (elemItem tag attrs content (itemsOf child content 0) (itemsOf ordered parent (min offset parent.length)))

theorem atts_ok {as : XmlAttrs} (h : AttrsOK as) : (∀ a ∈ as.map attOf, a.WF) ∧ attsSimple (as.map attOf) ∧ ∀ tag, AttsMean noDtd tag (as.map attOf) as := by
  obtain ⟨h1, h2, h3⟩ := h
  refine ⟨?_, ⟨?_, ?_⟩, ?_⟩
  · intro a ha
    obtain ⟨b, hb, rfl⟩ := List.mem_map.mp ha
    obtain ⟨hn, v, hv, hA⟩ := h1 b hb
    have := esc_chars true hA
    have bl : Blank [32] ∧ Blank [] := by unfold Blank; decide
    refine ⟨List.cons_ne_nil _ _, bl.1, hn, bl.2, bl.2, .inl rfl, ?_, ?_, ?_⟩
    · show Chars (esc true (b.2.getD [])); rw [hv]; exact this.1
    · show (34 : Byte) ∉ esc true (b.2.getD []); rw [hv]; exact this.2.2
    · show (60 : Byte) ∉ esc true (b.2.getD []); rw [hv]; exact this.2.1
  · intro a ha
    obtain ⟨b, hb, rfl⟩ := List.mem_map.mp ha
    exact esc_ends _ _
  · intro a ha
    cases as with
    | nil => cases ha
    | cons b as =>
      simp at ha
      subst ha
      exact h3 b rfl
  · clear h3 h2
    intro tag
    induction as with
    | nil => exact .none
    | cons b as ih =>
      obtain ⟨hn, v, hv, hA⟩ := h1 b List.mem_cons_self
      have hm : Means attValue [] (lines (attOf b).raw) v := by
        show Means attValue [] (lines (esc true (b.2.getD []))) v
        rw [hv]; exact value_means hA
      have := AttsMean.some (a := attOf b) (value_plain hm tag b.1) (ih (fun a ha => h1 a (List.mem_cons_of_mem _ ha)))
      have e : ((attOf b).name, some v) = b := by show (b.1, some v) = b; rw [← hv]
      rw [e] at this
      exact this

theorem elem_ok {tag : List Byte} {attrs : XmlAttrs} {content : List Byte} {body rest : Items} (hn : Name tag ∧ ¬ skipped tag) (ha : AttrsOK attrs)
    (hb : body.WF ∧ Simple body) (hr : rest.WF ∧ Simple rest) : (elemItem tag attrs content body rest).WF ∧ Simple (elemItem tag attrs content body rest) ∧ (elemItem tag attrs content body rest).startsText = false := by
  obtain ⟨a1, a2, _⟩ := atts_ok ha
  have bl : Blank [] := by unfold Blank; decide
  unfold elemItem
  split
  · exact ⟨⟨hn.1, a1, bl, hr.1⟩, ⟨hn.2, a2, hr.2⟩, rfl⟩
  · exact ⟨⟨hn.1, a1, bl, hb.1, bl, hr.1⟩, ⟨hn.2, a2, hb.2, hr.2⟩, rfl⟩

theorem text_ok {s : List Byte} {rest : Items} (h : Ascii s) (hr : rest.WF ∧ Simple rest) (hs : rest.startsText = false) : (textItem s rest).WF ∧ Simple (textItem s rest) := by
  unfold textItem
  by_cases hne : s = []
  · rw [if_pos hne]; exact hr
  · rw [if_neg hne]
    have := esc_chars false h
    exact ⟨⟨esc_empty _ hne, this.1, this.2.1, hs, hr.1⟩, ⟨esc_ends _ _, hr.2⟩⟩

theorem ascii_part {s : List Byte} (h : Ascii s) (a b : Nat) : Ascii ((s.drop a).take b) := fun c hc => h c (List.mem_of_mem_drop (List.mem_of_mem_take hc))

theorem ascii_drop {s : List Byte} (h : Ascii s) (a : Nat) : Ascii (s.drop a) := fun c hc => h c (List.mem_of_mem_drop hc)

theorem items_ok : ∀ (kids : XmlKids) (parent : List Byte) (start : Nat), Ascii parent → KidsOK parent.length start kids → (itemsOf kids parent start).WF ∧ Simple (itemsOf kids parent start) := by
  intro kids
  induction kids with
  | nil => intro parent start hp _; exact text_ok (ascii_drop hp _) ⟨trivial, trivial⟩ rfl
  | cons tag attrs content offset child ordered ihc iho =>
    intro parent start hp hk
    obtain ⟨hn, ha, hc, _, _, h1, h2, hkc, hko⟩ := hk
    have hb := ihc content 0 hc hkc
    have hr := iho parent (min offset parent.length) hp (by rw [Nat.min_eq_left h2]; exact hko)
    have he := elem_ok (content := content) hn ha hb hr
    exact text_ok (ascii_part hp _ _) ⟨he.1, he.2.1⟩ he.2.2

theorem text_denotes {s v c : List Byte} {rest : Items} {ks : List (Nat × Tree)} (h : Ascii v) (hd : Denotes noDtd rest (s ++ v) c ks) : Denotes noDtd (textItem v rest) s c ks := by
  unfold textItem
  by_cases hv : v = []
  · rw [if_pos hv]; rw [hv, List.append_nil] at hd; exact hd
  · rw [if_neg hv]; exact .text (esc_means h) hd

theorem items_denote : ∀ (kids : XmlKids) (parent : List Byte) (start : Nat), Ascii parent → start ≤ parent.length → KidsOK parent.length start kids →
    Denotes noDtd (itemsOf kids parent start) (parent.take start) parent (kidsOf kids) := by
  intro kids
  induction kids with
  | nil =>
    intro parent start hp _ _
    refine text_denotes (ascii_drop hp _) ?_
    rw [List.take_append_drop]
    exact .done
  | cons tag attrs content offset child ordered ihc iho =>
    intro parent start hp hs hk
    obtain ⟨hn, ha, hc, hne, _, h1, h2, hkc, hko⟩ := hk
    have hb := ihc content 0 hc (Nat.zero_le _) hkc
    have hr := iho parent offset hp h2 hko
    refine text_denotes (ascii_part hp _ _) ?_
    have e : parent.take start ++ (parent.drop start).take (offset - start) = parent.take offset := by
      rw [← List.take_add, Nat.add_sub_cancel' h1]
    have el : (parent.take offset).length = offset := by rw [List.length_take]; omega
    rw [e, Nat.min_eq_left h2]
    unfold elemItem
    by_cases hce : content = []
    · rw [if_pos hce]
      have hcn : child = .nil := by
        cases child with
        | nil => rfl
        | cons _ _ _ _ _ _ => exact absurd hce (hne (by simp))
      subst hcn
      subst hce
      have := Denotes.empty (tag := tag) (gap := []) ((atts_ok ha).2.2 _) hr
      rw [el] at this
      exact this
    · rw [if_neg hce]
      have := Denotes.elem (tag := tag) (gap := []) (gap' := []) ((atts_ok ha).2.2 _) hb hr
      rw [el] at this
      exact this

/-! ### The writing -/

theorem room_ok (o : XmlOut) (n : Nat) : (o.room n).text = o.text ∧ o.text.length + n + 4096 ≤ (o.room n).extent := by
  unfold XmlOut.room
  have : wizardPathExtent = 4096 := rfl
  split
  · exact ⟨rfl, by simp only []; omega⟩
  · exact ⟨rfl, by omega⟩

theorem emit_ok {o : XmlOut} {s : List Byte} (k : Nat) (h : o.text.length + s.length + (k + 1) ≤ o.extent) :
    ∃ o', o.emit s = .ok o' ∧ o'.text = o.text ++ s ∧ o'.text.length + (k + 1) ≤ o'.extent := by
  unfold XmlOut.emit
  rw [if_pos (by omega)]
  refine ⟨_, rfl, rfl, ?_⟩
  simp only [List.length_append]
  omega

theorem cut_ok (junk : Nat → Byte) (s : List Byte) (k : Nat) (h0 : (0 : Byte) ∉ s) (hk : k ≤ s.length) : cutSource junk s (some k) = .ok (s.take k) := by
  unfold cutSource
  have hw : wr (s ++ 0 :: (List.range (wizardPathExtent - 1)).map junk) k 0 = .ok ((s ++ 0 :: (List.range (wizardPathExtent - 1)).map junk).set k 0) := by
    unfold wr
    rw [if_pos (by simp; omega)]
  simp only []
  rw [hw, Res.ok_bind]
  congr 1
  have : ∃ t, (s ++ 0 :: (List.range (wizardPathExtent - 1)).map junk).set k 0 = s.take k ++ 0 :: t := by
    rcases Nat.lt_or_ge k s.length with h | h
    · refine ⟨s.drop (k + 1) ++ 0 :: (List.range (wizardPathExtent - 1)).map junk, ?_⟩
      rw [List.set_append_left _ _ h, List.set_eq_take_append_cons_drop, if_pos h]
      simp
    · have hk : k = s.length := by omega
      refine ⟨(List.range (wizardPathExtent - 1)).map junk, ?_⟩
      rw [hk, List.set_append_right _ _ (Nat.le_refl _), Nat.sub_self, List.take_length]
      rfl
  obtain ⟨t, ht⟩ := this
  rw [ht, textOf_text _ _ (fun h => h0 (List.mem_of_mem_take h))]

theorem encode_ok (junk : Nat → Byte) (source s : List Byte) (offset : Option Nat) (pedantic : Bool) (o : XmlOut) (hc : cutSource junk source offset = .ok s) (hs : Ascii s) :
    ∃ o', encodeEntities junk source offset pedantic o = .ok o' ∧ o'.text = o.text ++ esc pedantic s ∧ o'.text.length + 4096 ≤ o'.extent := by
  unfold encodeEntities
  rw [hc, Res.ok_bind, canonical_ascii junk s pedantic hs, Res.ok_bind]
  obtain ⟨h1, h2⟩ := room_ok o (esc pedantic s).length
  obtain ⟨o', h3, h4, h5⟩ := emit_ok (o := o.room (esc pedantic s).length) (s := esc pedantic s) 4095 (by rw [h1]; omega)
  exact ⟨o', h3, by rw [h4, h1], h5⟩

theorem attr_ok (junk : Nat → Byte) (a : List Byte × Option (List Byte)) (v : List Byte) (hv : a.2 = some v) (hA : Ascii v) (o : XmlOut) :
    ∃ o', writeAttr junk a o = .ok o' ∧ o'.text = o.text ++ (attOf a).render ∧ o'.text.length + 4095 ≤ o'.extent := by
  unfold writeAttr
  obtain ⟨h1, h2⟩ := room_ok o a.1.length
  obtain ⟨o1, h3, h4, h5⟩ := emit_ok (o := o.room a.1.length) (s := asc ' ' :: a.1 ++ [asc '=', asc '"']) 4092 (by rw [h1]; simp; omega)
  rw [h3, Res.ok_bind, hv]
  simp only []
  obtain ⟨o2, h6, h7, h8⟩ := encode_ok junk v v none true o1 rfl hA
  obtain ⟨o3, h9, h10, h11⟩ := emit_ok (o := o2) (s := [asc '"']) 4094 (by simp; omega)
  rw [h6, Res.ok_bind, h9]
  refine ⟨o3, rfl, ?_, h11⟩
  rw [h10, h7, h4, h1]
  unfold attOf Att.render
  rw [hv]
  simp
  exact ⟨rfl, rfl, rfl⟩

theorem attrs_write (junk : Nat → Byte) : ∀ (as before : XmlAttrs) (o : XmlOut), (∀ a ∈ as, ∃ v, a.2 = some v ∧ Ascii v) → ((before ++ as).map (·.1)).Nodup → o.text.length + 4095 ≤ o.extent →
    ∃ o', writeAttrs junk before as o = .ok o' ∧ o'.text = o.text ++ renderAtts (as.map attOf) ∧ o'.text.length + 4095 ≤ o'.extent := by
  intro as
  induction as with
  | nil => intro before o _ _ h; exact ⟨o, rfl, by simp [renderAtts], h⟩
  | cons a as ih =>
    intro before o hv hd ho
    obtain ⟨v, hav, hA⟩ := hv a List.mem_cons_self
    have hf : firstOf before a = true := by
      unfold firstOf
      cases hb : before.find? (fun b => b.1 == a.1) with
      | none => rfl
      | some b =>
        exfalso
        have h1 := List.mem_of_find?_eq_some hb
        have h2 := List.find?_some hb
        rw [List.map_append, List.nodup_append] at hd
        exact hd.2.2 b.1 (List.mem_map.mpr ⟨b, h1, rfl⟩) a.1 (List.mem_map.mpr ⟨a, List.mem_cons_self, rfl⟩) (by simpa using h2)
    unfold writeAttrs
    rw [hf]
    obtain ⟨o1, h1, h2, h3⟩ := attr_ok junk a v hav hA o
    rw [if_pos rfl, h1, Res.ok_bind]
    obtain ⟨o2, h4, h5, h6⟩ := ih (before ++ [a]) o1 (fun x hx => hv x (List.mem_cons_of_mem _ hx)) (by simpa using hd) h3
    refine ⟨o2, h4, ?_, h6⟩
    rw [h5, h2]
    unfold renderAtts
    rw [List.map_cons, List.flatMap_cons]
    simp

theorem open_write (junk : Nat → Byte) (tag : List Byte) (attrs : XmlAttrs) (content : List Byte) (ha : AttrsOK attrs) (o : XmlOut) :
    ∃ o', writeOpen junk [] tag attrs content o = .ok o' ∧ o'.text = o.text ++ (bytes "<" ++ tag ++ renderAtts (attrs.map attOf) ++ (if content = [] then bytes "/>" else bytes ">")) := by
  unfold writeOpen
  obtain ⟨h1, h2⟩ := room_ok o tag.length
  obtain ⟨o1, h3, h4, h5⟩ := emit_ok (o := o.room tag.length) (s := asc '<' :: tag) 4094 (by rw [h1]; simp; omega)
  obtain ⟨o2, h6, h7, h8⟩ := attrs_write junk attrs [] o1 (fun a h => (ha.1 a h).2) ha.2.1 h5
  obtain ⟨o3, h9, h10, h11⟩ := emit_ok (o := o2) (s := if content = [] then [asc '/', asc '>'] else [asc '>']) 4000 (by split <;> simp <;> omega)
  rw [h3, Res.ok_bind, h6, Res.ok_bind]
  refine ⟨o3, h9, ?_⟩
  rw [h10, h7, h4, h1]
  have b1 : bytes "<" = [asc '<'] := by decide +kernel
  have b2 : bytes ">" = [asc '>'] := by decide +kernel
  have b4 : bytes "/>" = [asc '/', asc '>'] := by decide +kernel
  rw [b1, b2, b4]
  simp

theorem close_write (tag content : List Byte) (o : XmlOut) :
    ∃ o', writeClose tag content o = .ok o' ∧ o'.text = o.text ++ (if content = [] then [] else bytes "</" ++ tag ++ bytes ">") := by
  unfold writeClose
  obtain ⟨h1, h2⟩ := room_ok o tag.length
  simp only []
  split
  · exact ⟨_, rfl, by rw [h1]; simp⟩
  · obtain ⟨o1, h3, h4, _⟩ := emit_ok (o := o.room tag.length) (s := asc '<' :: asc '/' :: tag ++ [asc '>']) 4000 (by rw [h1]; simp; omega)
    refine ⟨o1, h3, ?_⟩
    rw [h4, h1, show bytes "</" = [asc '<', asc '/'] by decide +kernel, show bytes ">" = [asc '>'] by decide +kernel]
    simp

theorem elem_render (tag : List Byte) (attrs : XmlAttrs) (content : List Byte) (body rest : Items) (hb : content = [] → body.render = []) :
    (elemItem tag attrs content body rest).render = (bytes "<" ++ tag ++ renderAtts (attrs.map attOf) ++ (if content = [] then bytes "/>" else bytes ">")) ++ body.render ++
      (if content = [] then [] else bytes "</" ++ tag ++ bytes ">") ++ rest.render := by
  unfold elemItem
  by_cases h : content = []
  · rw [if_pos h, if_pos h, if_pos h, hb h, Items.render]
    simp
  · rw [if_neg h, if_neg h, if_neg h, Items.render]
    simp

theorem text_render (s : List Byte) (rest : Items) : (textItem s rest).render = esc false s ++ rest.render := by
  unfold textItem
  split
  · rename_i h; rw [h]; rfl
  · rfl

theorem tag_write (junk : Nat → Byte) : ∀ (kids : XmlKids) (parent : List Byte) (start : Nat) (o : XmlOut), kids ≠ .nil → Ascii parent → parent.length < 2 ^ 63 → start ≤ parent.length → KidsOK parent.length start kids →
    ∃ o', tagToXML junk [] kids parent start o = .ok o' ∧ o'.text = o.text ++ (itemsOf kids parent start).render := by
  intro kids
  induction kids with
  | nil => intro parent start o h; exact absurd rfl h
  | cons tag attrs content offset child ordered ihc iho =>
    intro parent start o _ hp hl hs hk
    obtain ⟨hn, ha, hc, hne, hcl, h1, h2, hkc, hko⟩ := hk
    unfold tagToXML
    have hso : signedOffset offset start = some (offset - start) := by unfold signedOffset; rw [if_pos ⟨h1, by omega⟩]
    have hcut : cutSource junk (parent.drop start) (signedOffset offset start) = .ok ((parent.drop start).take (offset - start)) := by
      rw [hso]
      exact cut_ok junk _ _ (fun h => ascii_no_nul hp (List.mem_of_mem_drop h)) (by rw [List.length_drop]; omega)
    obtain ⟨o1, e1, t1, _⟩ := encode_ok junk (parent.drop start) _ _ false o hcut (ascii_part hp _ _)
    obtain ⟨o2, e2, t2⟩ := open_write junk tag attrs content ha o1
    have hbody : ∃ o3, (if child = .nil then encodeEntities junk content none false o2 else tagToXML junk [] child content 0 o2) = .ok o3 ∧ o3.text = o2.text ++ (itemsOf child content 0).render := by
      by_cases hch : child = .nil
      · rw [if_pos hch, hch]
        obtain ⟨o3, e3, t3, _⟩ := encode_ok junk content content none false o2 rfl hc
        refine ⟨o3, e3, ?_⟩
        rw [t3]
        unfold itemsOf
        rw [text_render]
        simp [Items.render]
      · rw [if_neg hch]
        exact ihc content 0 o2 hch hc hcl (Nat.zero_le _) hkc
    obtain ⟨o3, e3, t3⟩ := hbody
    obtain ⟨o4, e4, t4⟩ := close_write tag content o3
    have hrest : ∃ o5, (if ordered = .nil then encodeEntities junk (parent.drop (min offset parent.length)) none false o4 else tagToXML junk [] ordered parent (min offset parent.length) o4) = .ok o5 ∧
        o5.text = o4.text ++ (itemsOf ordered parent (min offset parent.length)).render := by
      by_cases hor : ordered = .nil
      · rw [if_pos hor, hor]
        obtain ⟨o5, e5, t5, _⟩ := encode_ok junk (parent.drop (min offset parent.length)) _ none false o4 rfl (ascii_drop hp _)
        refine ⟨o5, e5, ?_⟩
        rw [t5]
        unfold itemsOf
        rw [text_render]
        simp [Items.render]
      · rw [if_neg hor]
        exact iho parent _ o4 hor hp hl (Nat.min_le_right _ _) (by rw [Nat.min_eq_left h2]; exact hko)
    obtain ⟨o5, e5, t5⟩ := hrest
    rw [e1, Res.ok_bind, e2, Res.ok_bind, e3, Res.ok_bind, e4, Res.ok_bind]
    refine ⟨o5, e5, ?_⟩
    rw [t5, t4, t3, t2, t1]
    show _ = o.text ++ (textItem _ (elemItem tag attrs content (itemsOf child content 0) _)).render
    rw [text_render, elem_render]
    · simp only [List.append_assoc]
    · intro hce
      have hcn : child = .nil := by
        cases child with
        | nil => rfl
        | cons _ _ _ _ _ _ => exact absurd hce (hne (by simp))
      rw [hcn, hce]
      rfl

end Wizard.XmlP

import Verif.Props.XmlDoc
import Verif.Spec.XmlTags
/-! C121: documents whose tags do not match are reported. -/
namespace Wizard.Props
open Wizard Wizard.Spec.Xml Wizard.XmlP

/-- What is open behind a tag: `none`: the root has not begun; the outer `none`: the tag does not fit. -/
def advance : Option (List (List Byte)) → Tag → Option (Option (List (List Byte)))
  | none, .start n => some (some [n])
  | none, .empty _ => some (some [])
  | none, .stop _ => none
  | some [], _ => none
  | some (t :: up), .start n => some (some (n :: t :: up))
  | some (t :: up), .empty _ => some (some (t :: up))
  | some (t :: up), .stop n => if t = n then some (some up) else none

/-- Whether the tags fit, and nothing is open in the end. -/
def nests : Option (List (List Byte)) → List Tag → Bool
  | st, [] => st == some []
  | st, t :: l => match advance st t with
    | none => false
    | some st => nests st l

/-- What closes the elements that are open. -/
inductive Closes : List (List Byte) → List Tag → Prop
  | none : Closes [] []
  | one {n up inner l} : Elements inner → Closes up l → Closes (n :: up) (inner ++ .stop n :: l)

theorem Elements.append {a b : List Tag} (ha : Elements a) (hb : Elements b) : Elements (a ++ b) := by
  induction ha with
  | none => exact hb
  | empty _ ih => exact .empty ih
  | node h1 _ _ ih2 =>
    rw [List.cons_append, List.append_assoc, List.cons_append]
    exact .node h1 ih2

theorem nests_closes : ∀ (l : List Tag) (st : List (List Byte)), nests (some st) l = true → Closes st l := by
  intro l
  induction l with
  | nil =>
    intro st h
    simp [nests] at h
    subst h
    exact .none
  | cons t l ih =>
    intro st h
    cases st with
    | nil => cases t <;> simp [nests, advance] at h
    | cons o up =>
      cases t with
      | start n =>
        have := ih (n :: o :: up) (by simpa [nests, advance] using h)
        cases this with
        | @one _ _ i1 _ h1 h2 =>
          cases h2 with
          | @one _ _ i2 l2 h3 h4 =>
            have e : Tag.start n :: (i1 ++ Tag.stop n :: (i2 ++ Tag.stop o :: l2)) = (Tag.start n :: (i1 ++ Tag.stop n :: i2)) ++ Tag.stop o :: l2 := by simp
            rw [e]
            exact .one (.node h1 h3) h4
      | stop n =>
        simp only [nests, advance] at h
        split at h
        · cases h
        · rename_i x hx
          split at hx
          · rename_i hn
            cases hx
            subst hn
            exact .one (inner := []) .none (ih up h)
          · cases hx
      | empty n =>
        have := ih (o :: up) (by simpa [nests, advance] using h)
        cases this with
        | one h1 h2 => exact .one (.empty h1) h2

theorem elements_nests {a : List Tag} (ha : Elements a) : ∀ (o : List Byte) (up : List (List Byte)) (l : List Tag),
    nests (some (o :: up)) (a ++ l) = nests (some (o :: up)) l := by
  induction ha with
  | none => intro o up l; rfl
  | empty _ ih => intro o up l; simp only [List.cons_append, nests, advance]; exact ih o up l
  | node _ _ ih1 ih2 =>
    intro o up l
    simp only [List.cons_append, List.append_assoc, nests, advance]
    rw [ih1]
    simp only [nests, advance, if_pos]
    exact ih2 o up l

theorem nests_one (l : List Tag) (hl : l ≠ []) : nests none l = true ↔ OneElement l := by
  constructor
  · intro h
    cases l with
    | nil => exact absurd rfl hl
    | cons t l =>
      cases t with
      | start n =>
        have := nests_closes l [n] (by simpa [nests, advance] using h)
        cases this with
        | one h1 h2 => cases h2; exact .inr ⟨n, _, h1, rfl⟩
      | stop n => simp [nests, advance] at h
      | empty n =>
        have := nests_closes l [] (by simpa [nests, advance] using h)
        cases this
        exact .inl ⟨n, rfl⟩
  · rintro (⟨n, rfl⟩ | ⟨n, inner, h, rfl⟩)
    · rfl
    · simp only [nests, advance]
      rw [elements_nests h]
      simp [nests, advance]

/-- The parser stands where the tags read so far have led. -/
structure Stands (r : XmlRoot) (st : Option (List (List Byte))) : Prop where
  stack : match st with
    | none => ∃ n, r.stack = [n] ∧ n.tag = none
    | some l => r.stack.map (·.tag) = l.map some
  ignore : r.ignore = 0
  entities : r.entities = predefinedEntities
  defaults : r.defaults = []

theorem Stands.text {e : XmlEnv} {r : XmlRoot} {st : Option (List (List Byte))} (h : Stands r st) {raw : List Byte} (aft : List Byte) (hc : Chars raw)
    (hew : EndsWell raw) (hm : ∃ v, Means content [] (lines raw) v) : ∃ r1, Stands r1 st ∧ ∃ N, ∀ f ≥ N, xmlText e f r raw aft = .ok r1 := by
  by_cases hne : raw = []
  · subst hne
    exact ⟨r, h, 0, fun f _ => text_none e f r aft⟩
  · cases st with
    | none =>
      obtain ⟨n, h1, h2⟩ := h.stack
      exact ⟨r, h, 0, fun f _ => quiet_text (.inr ⟨n, h1, h2⟩) raw aft⟩
    | some l =>
      cases l with
      | nil =>
        have := h.stack
        simp at this
        exact ⟨r, h, 0, fun f _ => quiet_text (.inl this) raw aft⟩
      | cons t up =>
        have hs := h.stack
        simp only [List.map_cons] at hs
        cases hst : r.stack with
        | nil => rw [hst] at hs; cases hs
        | cons n ns =>
          rw [hst] at hs
          simp only [List.map_cons, List.cons.injEq] at hs
          obtain ⟨v, hv⟩ := hm
          obtain ⟨N, hN⟩ := C84_decode_partial e.junk [] (fun d hd => by simp at hd) (fun d hd => by simp at hd) raw v aft (chars_no_nul hc) hew hv
          refine ⟨{ r with stack := { n with content := n.content ++ v } :: ns }, ⟨?_, h.ignore, h.entities, h.defaults⟩, N, fun f hf => ?_⟩
          · simp only [List.map_cons, hs.1, hs.2]
          · unfold xmlText
            rw [if_pos h.ignore]
            unfold parseCharacterContent
            rw [hst]
            simp only []
            rw [if_neg (by rw [hs.1]; simp [hne]), h.entities]
            have := hN f hf
            rw [show predefinedEntities ++ entTable [] = predefinedEntities by simp [entTable]] at this
            rw [this, Res.ok_bind]

/-- The tag without its `<` and `>`. -/
def TagText.body (t : TagText) : List Byte := match t.tag with
  | .start n => n ++ renderAtts t.atts ++ t.gap
  | .stop n => asc '/' :: (n ++ t.gap)
  | .empty n => n ++ renderAtts t.atts ++ t.gap ++ [asc '/']

theorem render_body (t : TagText) : t.render = asc '<' :: (TagText.body t ++ asc '>' :: t.text) := by
  have b1 : bytes "<" = [asc '<'] := by decide +kernel
  have b2 : bytes ">" = [asc '>'] := by decide +kernel
  have b3 : bytes "</" = [asc '<', asc '/'] := by decide +kernel
  have b4 : bytes "/>" = [asc '/', asc '>'] := by decide +kernel
  unfold TagText.render TagText.body
  cases t.tag <;> simp [b1, b2, b3, b4]

theorem parseOpen_stands {r : XmlRoot} {st st' : Option (List (List Byte))} (h : Stands r st) {n : List Byte} (ha : advance st (.start n) = some st') (vs : XmlAttrs) :
    Stands (parseOpenTag r n vs) st' := by
  unfold parseOpenTag
  cases st with
  | none =>
    simp only [advance, Option.some.injEq] at ha
    subst ha
    obtain ⟨m, h1, h2⟩ := h.stack
    rw [h1]
    simp only [h2, if_true]
    exact ⟨rfl, h.ignore, h.entities, h.defaults⟩
  | some l =>
    cases l with
    | nil => simp [advance] at ha
    | cons t up =>
      simp only [advance, Option.some.injEq] at ha
      subst ha
      have hs := h.stack
      cases hst : r.stack with
      | nil => rw [hst] at hs; cases hs
      | cons m ms =>
        rw [hst] at hs
        simp only [List.map_cons, List.cons.injEq] at hs
        simp only [hs.1]
        refine ⟨?_, h.ignore, h.entities, h.defaults⟩
        simp [hs.1, hs.2]

theorem parseClose_stands {r : XmlRoot} {st : Option (List (List Byte))} (h : Stands r st) (n : List Byte) :
    match advance st (.stop n) with
    | none => parseCloseTag r n = none
    | some st' => ∃ r', parseCloseTag r n = some r' ∧ Stands r' st' := by
  unfold parseCloseTag
  cases st with
  | none =>
    obtain ⟨m, h1, h2⟩ := h.stack
    simp only [advance, h1, h2]
    rfl
  | some l =>
    cases l with
    | nil =>
      have := h.stack
      simp at this
      simp only [advance, this]
    | cons t up =>
      have hs := h.stack
      cases hst : r.stack with
      | nil => rw [hst] at hs; cases hs
      | cons m ms =>
        rw [hst] at hs
        simp only [List.map_cons, List.cons.injEq] at hs
        simp only [advance]
        by_cases e : t = n
        · subst e
          simp only [if_true]
          rw [if_neg (by rw [hs.1]; simp)]
          cases ms with
          | nil =>
            refine ⟨_, rfl, ⟨?_, h.ignore, h.entities, h.defaults⟩⟩
            have := hs.2
            simp only [List.map_nil] at this ⊢
            exact this
          | cons m2 ms =>
            refine ⟨_, rfl, ⟨?_, h.ignore, h.entities, h.defaults⟩⟩
            have := hs.2
            simp only [List.map_cons] at this ⊢
            exact this
        · simp only [if_neg e]
          rw [if_pos (by rw [hs.1]; simpa using e)]

theorem stands_nonempty {r : XmlRoot} {st st' : Option (List (List Byte))} (h : Stands r st) {t : Tag} (ha : advance st t = some st') : r.stack ≠ [] := by
  intro e
  have hs := h.stack
  cases st with
  | none => obtain ⟨n, h1, _⟩ := hs; rw [e] at h1; cases h1
  | some l =>
    rw [e] at hs
    cases l with
    | nil => cases t <;> simp [advance] at ha
    | cons _ _ => cases hs

theorem stands_empty {r : XmlRoot} {st : Option (List (List Byte))} (h : Stands r st) : r.stack.isEmpty = (st == some []) := by
  have hs := h.stack
  cases st with
  | none => obtain ⟨n, h1, _⟩ := hs; rw [h1]; rfl
  | some l =>
    cases l with
    | nil => simp at hs; rw [hs]; rfl
    | cons a l =>
      cases hst : r.stack with
      | nil => rw [hst] at hs; cases hs
      | cons _ _ => rfl

/-- The tag is one that `NewXMLTree` does not skip, its first attribute starts with an ASCII letter or `_`, and no value and no text
ends in a carriage return. -/
def TagText.Plain (t : TagText) : Prop := ¬ skipped t.tag.name ∧ attsSimple t.atts ∧ EndsWell t.text

theorem tag_construct (e : XmlEnv) (terminal : Byte) {r : XmlRoot} {st : Option (List (List Byte))} (h : Stands r st) (t : TagText) (hw : t.WF) (hp : TagText.Plain t)
    (w : List Byte) (hd : Due terminal w) :
    match advance st t.tag with
    | none => ∃ r' N, ∀ f ≥ N, xmlConstruct e f terminal r (TagText.body t ++ w) = .ok (r', none)
    | some st' => ∃ r', Stands r' st' ∧ ∃ N, ∀ f ≥ N, xmlConstruct e f terminal r (TagText.body t ++ w) = .ok (r', some w) := by
  obtain ⟨vs, hvs⟩ := hw.values
  obtain ⟨hk, hs, _⟩ := hp
  have hname := hw.name
  have hwz : ∀ z, w.head? = some z → z = asc '/' ∨ z = asc '>' := by
    intro z hz
    rcases hd with h' | ⟨h', _⟩
    · rw [h'] at hz; cases hz; exact .inr rfl
    · rw [h'] at hz; cases hz
  have hnoroot : ∀ (n x : List Byte) (f : Nat), Name n → r.stack = [] → xmlConstruct e f terminal r (n ++ x) = .ok (r, none) := by
    intro n x f hn he
    obtain ⟨c, nr, hc, hcs⟩ := hn.1
    rw [hc]
    show xmlConstruct e f terminal r (c :: (nr ++ x)) = _
    unfold xmlConstruct
    simp only []
    rw [if_pos (name_start c hcs)]
    unfold xmlTag
    rw [if_pos he]
  have hend : ∀ n, advance st (.start n) = none → r.stack = [] := by
    intro n ha
    have hs := h.stack
    cases st with
    | none => simp [advance] at ha
    | some l =>
      cases l with
      | nil => simpa using hs
      | cons _ _ => simp [advance] at ha
  cases ht : t.tag with
  | start n =>
    rw [ht] at hk hname
    have hb : TagText.body t ++ w = n ++ renderAtts t.atts ++ t.gap ++ w := by simp [TagText.body, ht]
    cases ha : advance st (.start n) with
    | none =>
      refine ⟨r, 0, fun f _ => ?_⟩
      rw [hb, List.append_assoc, List.append_assoc]
      exact hnoroot n _ f hname (hend n ha)
    | some st' =>
      obtain ⟨N, hN⟩ := tag_read e r (follows_none h.entities h.defaults) h.ignore (stands_nonempty h ha) terminal n t.gap hname hw.gap w hwz t.atts vs hw.atts hs (by rw [ht] at hvs; exact hvs)
      refine ⟨parseOpenTag r n vs, parseOpen_stands h ha vs, N, fun f hf => ?_⟩
      rw [hb, hN f hf]
      unfold tagEnd
      rw [if_neg (by
        rcases hd with h' | ⟨h', _⟩
        · rw [h']; decide
        · rw [h']; decide), if_pos (by
        rcases hd with h' | ⟨h', h''⟩
        · exact .inl h'
        · exact .inr ⟨h', h''⟩), if_pos ⟨h.ignore, by cases hx : isSkipTag n; rfl; exact absurd (skip_tag hx) hk⟩]
  | empty n =>
    rw [ht] at hk hname
    have hb : TagText.body t ++ w = n ++ renderAtts t.atts ++ t.gap ++ asc '/' :: w := by simp [TagText.body, ht]
    cases ha : advance st (.empty n) with
    | none =>
      refine ⟨r, 0, fun f _ => ?_⟩
      rw [hb, List.append_assoc, List.append_assoc]
      refine hnoroot n _ f hname (hend n ?_)
      cases st with
      | none => simp [advance] at ha
      | some l => cases l with
        | nil => rfl
        | cons _ _ => simp [advance] at ha
    | some st' =>
      have hst := stands_nonempty h ha
      obtain ⟨st1, h1, h2⟩ : ∃ st1, advance st (.start n) = some st1 ∧ advance st1 (.stop n) = some st' := by
        cases st with
        | none => exact ⟨some [n], rfl, by simp [advance] at ha ⊢; exact ha⟩
        | some l => cases l with
          | nil => simp [advance] at ha
          | cons a l => exact ⟨some (n :: a :: l), rfl, by simp [advance] at ha ⊢; exact ha⟩
      have h3 := parseClose_stands (parseOpen_stands h h1 vs) n
      rw [h2] at h3
      obtain ⟨r', h4, h5⟩ := h3
      obtain ⟨N, hN⟩ := empty_read e r (follows_none h.entities h.defaults) h.ignore hst terminal n t.gap hname hk hw.gap w hd t.atts vs hw.atts hs (by rw [ht] at hvs; exact hvs) r' h4
      exact ⟨r', h5, N, fun f hf => by rw [hb]; exact hN f hf⟩
  | stop n =>
    rw [ht] at hk hname
    have hb : TagText.body t ++ w = asc '/' :: (n ++ t.gap ++ w) := by simp [TagText.body, ht]
    have h3 := parseClose_stands h n
    cases ha : advance st (.stop n) with
    | none =>
      rw [ha] at h3
      refine ⟨r, 0, fun f _ => ?_⟩
      rw [hb]
      unfold xmlConstruct
      simp only []
      rw [if_neg (by decide), if_pos trivial]
      have ht : (n ++ (t.gap ++ w)).takeWhile (fun c => !(isXmlSpace c || c == asc '>')) = n :=
        (scan_stop (fun c hc => by obtain ⟨q1, _, _, _, q5, _⟩ := name_byte c (hname.2 c hc); simp [q1, q5])
          (fun c hc => by
            rcases head_blank_or hc with h | h
            · simp [(blank_xml c (hw.gap c h)).1]
            · rcases hd with h' | ⟨h', _⟩
              · rw [h'] at h; simp at h; simp [← h]
              · rw [h'] at h; cases h)).1
      unfold xmlClose
      simp only [List.append_assoc]
      rw [ht, h3]
      split
      · rfl
      · rw [if_pos h.ignore]
    | some st' =>
      rw [ha] at h3
      obtain ⟨r', h4, h5⟩ := h3
      exact ⟨r', h5, 0, fun f _ => by rw [hb]; exact close_read e r h.ignore terminal n t.gap hname hw.gap w hd r' h4 f⟩

theorem goes_stop {e : XmlEnv} {terminal : Byte} {r r' : XmlRoot} {p : List Byte}
    (h : ∃ N, ∀ f ≥ N, xmlConstruct e f terminal r p = .ok (r', none)) : Goes e terminal r (asc '<' :: p) (r', false) := by
  obtain ⟨N1, h1⟩ := h
  refine ⟨N1 + 1, fun f hf => ?_⟩
  obtain ⟨f, rfl⟩ : ∃ k, f = k + 1 := ⟨f - 1, by omega⟩
  rw [after_lt]
  show (xmlConstruct e f terminal r p >>= _) = _
  rw [h1 f (by omega), Res.ok_bind]

/-- From behind a tag on. -/
theorem tags_go (e : XmlEnv) (terminal : Byte) : ∀ (d : List TagText), (∀ t ∈ d, t.WF) → (∀ t ∈ d, TagText.Plain t) → ∀ (text : List Byte), Chars text → (60 : Byte) ∉ text →
    (∃ v, Means content [] (lines text) v) → EndsWell text → ∀ (r : XmlRoot) (st : Option (List (List Byte))), Stands r st →
    (asc '>' :: (text ++ d.flatMap TagText.render)).getLast? = some terminal →
    ∃ r', Tail e terminal r (asc '>' :: (text ++ d.flatMap TagText.render)).dropLast (r', nests st (d.map (·.tag))) := by
  intro d
  induction d with
  | nil =>
    intro _ _ text hc hlt hm hew r st hst _
    refine ⟨r, ?_⟩
    have hf : xmlFinish r = (r, nests st []) := by
      unfold xmlFinish nests
      rw [stands_empty hst]
    simp only [List.flatMap_nil, List.append_nil, List.map_nil]
    rw [← hf]
    cases htx : text with
    | nil => rfl
    | cons c text' =>
      rw [← htx]
      have : (asc '>' :: text).dropLast = asc '>' :: text.dropLast := by rw [htx]; rfl
      rw [this]
      show Goes e terminal r text.dropLast (xmlFinish r)
      exact Goes.nothing (fun h => hlt ((List.dropLast_sublist text).subset h))
  | cons t d ih =>
    intro hw hp text hc hlt hm hew r st hst hlast
    have ht := hw t List.mem_cons_self
    have htp := hp t List.mem_cons_self
    have e0 : text ++ (t :: d).flatMap TagText.render = (text ++ asc '<' :: TagText.body t) ++ asc '>' :: (t.text ++ d.flatMap TagText.render) := by
      rw [List.flatMap_cons, render_body]; simp
    rw [e0] at hlast ⊢
    rw [last_split] at hlast
    rw [tail_split]
    have hdue := tail_due hlast
    obtain ⟨r1, hs1, htext⟩ := hst.text (e := e) ((TagText.body t ++ (asc '>' :: (t.text ++ d.flatMap TagText.render)).dropLast) ++ [0]) hc hew hm
    have hcon := tag_construct e terminal hs1 t ht htp _ hdue
    have main : ∀ out, Goes e terminal r1 (asc '<' :: (TagText.body t ++ (asc '>' :: (t.text ++ d.flatMap TagText.render)).dropLast)) out →
        Tail e terminal r (asc '>' :: ((text ++ asc '<' :: TagText.body t) ++ (asc '>' :: (t.text ++ d.flatMap TagText.render)).dropLast)) out := by
      intro out hg
      show Goes e terminal r ((text ++ asc '<' :: TagText.body t) ++ _) out
      rw [List.append_assoc, List.cons_append]
      exact Goes.text hlt htext hg
    simp only [List.map_cons, nests]
    cases ha : advance st t.tag with
    | none =>
      rw [ha] at hcon
      obtain ⟨r', hN⟩ := hcon
      exact ⟨r', main _ (goes_stop hN)⟩
    | some st' =>
      rw [ha] at hcon
      obtain ⟨r2, hs2, hN⟩ := hcon
      obtain ⟨r', hg⟩ := ih (fun x hx => hw x (List.mem_cons_of_mem _ hx)) (fun x hx => hp x (List.mem_cons_of_mem _ hx)) t.text ht.chars ht.plain ht.refs htp.2.2 r2 st' hs2 hlast
      exact ⟨r', main _ (Goes.mixed hN hg)⟩

theorem body_chars {t : TagText} (h : t.WF) : Chars t.render := by
  unfold TagText.render
  have hn := chars_name h.name
  have hc : ∀ s : String, s = "<" ∨ s = ">" ∨ s = "</" ∨ s = "/>" → Chars (bytes s) := by
    rintro s (rfl | rfl | rfl | rfl) <;> (unfold Chars; decide +kernel)
  cases ht : t.tag with
  | start n =>
    rw [ht] at hn
    exact chars_append (chars_append (chars_append (chars_append (chars_append (hc _ (by simp)) hn) (chars_atts h.atts)) (chars_blank h.gap)) (hc _ (by simp))) h.chars
  | stop n =>
    rw [ht] at hn
    exact chars_append (chars_append (chars_append (chars_append (hc _ (by simp)) hn) (chars_blank h.gap)) (hc _ (by simp))) h.chars
  | empty n =>
    rw [ht] at hn
    exact chars_append (chars_append (chars_append (chars_append (chars_append (hc _ (by simp)) hn) (chars_atts h.atts)) (chars_blank h.gap)) (hc _ (by simp))) h.chars

/-- **C121** A sequence of tags with text between them, each by itself well-formed, is read without a warning if and only if the tags are
those of one element: a closing tag that does not match, an element that is not closed and a second root are reported.  (Left out, as in
C110: tags called rdf:Bag or rdf:Seq, and what `TagText.Plain` says.) -/
theorem C121_tags_partial (e : XmlEnv) (d : List TagText) (hne : d ≠ []) (hw : ∀ t ∈ d, t.WF) (hp : ∀ t ∈ d, TagText.Plain t) :
    ∃ (r : XmlRoot) (good : Bool), (good = true ↔ OneElement (d.map (·.tag))) ∧
      ∃ N, ∀ f ≥ N, newXMLTree e f (d.flatMap TagText.render) = .ok (some (r, good)) := by
  cases d with
  | nil => exact absurd rfl hne
  | cons t d =>
    have ht := hw t List.mem_cons_self
    have e0 : (t :: d).flatMap TagText.render = asc '<' :: (TagText.body t ++ asc '>' :: (t.text ++ d.flatMap TagText.render)) := by
      rw [List.flatMap_cons, render_body]; simp
    obtain ⟨terminal, hterm⟩ : ∃ x, (asc '>' :: (t.text ++ d.flatMap TagText.render)).getLast? = some x := by
      cases h : (asc '>' :: (t.text ++ d.flatMap TagText.render)).getLast? with
      | none => rw [List.getLast?_eq_none_iff] at h; cases h
      | some x => exact ⟨x, rfl⟩
    have h0 : (0 : Byte) ∉ (t :: d).flatMap TagText.render := by
      refine chars_no_nul ?_
      intro c hc
      obtain ⟨x, hx, hcx⟩ := List.mem_flatMap.mp hc
      exact body_chars (hw x hx) c hcx
    have hlast : ((t :: d).flatMap TagText.render).getLast? = some terminal := by
      rw [e0, ← List.cons_append, last_append (by simp), hterm]
    have hdrop : ((t :: d).flatMap TagText.render).dropLast = asc '<' :: (TagText.body t ++ (asc '>' :: (t.text ++ d.flatMap TagText.render)).dropLast) := by
      rw [e0, ← List.cons_append, List.dropLast_append_of_ne_nil (by simp)]
      rfl
    have hst : Stands newRoot none := ⟨⟨_, rfl, rfl⟩, rfl, rfl, rfl⟩
    have hgo : ∃ r', Goes e terminal newRoot ((t :: d).flatMap TagText.render).dropLast (r', nests none ((t :: d).map (·.tag))) := by
      rw [hdrop]
      have hcon := tag_construct e terminal hst t ht (hp t List.mem_cons_self) _ (tail_due hterm)
      simp only [List.map_cons, nests]
      cases ha : advance none t.tag with
      | none =>
        rw [ha] at hcon
        obtain ⟨r', hN⟩ := hcon
        exact ⟨r', goes_stop hN⟩
      | some st' =>
        rw [ha] at hcon
        obtain ⟨r2, hs2, hN⟩ := hcon
        obtain ⟨r', hg⟩ := tags_go e terminal d (fun x hx => hw x (List.mem_cons_of_mem _ hx)) (fun x hx => hp x (List.mem_cons_of_mem _ hx)) t.text ht.chars ht.plain ht.refs
          (hp t List.mem_cons_self).2.2 r2 st' hs2 hterm
        exact ⟨r', Goes.mixed hN hg⟩
    obtain ⟨r', hgo⟩ := hgo
    refine ⟨r', nests none ((t :: d).map (·.tag)), nests_one _ (by simp), ?_⟩
    obtain ⟨N, hN⟩ := parse_goes h0 hlast (by rw [hdrop]; simp) hgo
    refine ⟨N, fun f hf => ?_⟩
    have hN := hN f hf
    rw [e0] at h0 hN ⊢
    unfold newXMLTree
    rw [if_neg (by simp)]
    have hconv := convert_chars e.junk _ _ (by decide) h0
    rw [hconv, Res.ok_bind]
    simp only []
    have hr : rdN (asc '<' :: (TagText.body t ++ asc '>' :: (t.text ++ d.flatMap TagText.render)) ++ [0]) 0 (asc '<' :: (TagText.body t ++ asc '>' :: (t.text ++ d.flatMap TagText.render))).length =
        .ok (asc '<' :: (TagText.body t ++ asc '>' :: (t.text ++ d.flatMap TagText.render))) := by
      unfold rdN
      rw [if_pos (by rw [List.length_append]; omega), List.drop_zero, List.take_left' rfl]
    rw [hr, Res.ok_bind, hN]

theorem name_of {s : List Byte} (h : ∃ c r, s = c :: r ∧ NameStart c) (h' : ∀ c ∈ s, NameByte c) : Name s := ⟨h, h'⟩

theorem plain_means : ∀ (s : List Byte), (38 : Byte) ∉ s → (0 : Byte) ∉ s → Means content [] s s := by
  intro s
  induction s with
  | nil => intro _ _; exact .done
  | cons c s ih =>
    intro h1 h2
    refine .plain (fun e => h1 (by rw [e]; exact List.mem_cons_self)) (fun e => h2 (by rw [e]; exact List.mem_cons_self)) (ih (fun h => h1 (List.mem_cons_of_mem _ h)) (fun h => h2 (List.mem_cons_of_mem _ h)))

/-- The tag is `a` or `b`, without attributes, and behind it is text without references and carriage returns. -/
theorem simple_tag {t : TagText} (hn : t.tag.name = bytes "a" ∨ t.tag.name = bytes "b") (ha : t.atts = []) (hg : t.gap = []) (hc : Chars t.text)
    (h60 : (60 : Byte) ∉ t.text) (h38 : (38 : Byte) ∉ t.text) (h13 : (13 : Byte) ∉ t.text) : t.WF ∧ TagText.Plain t := by
  have hl : lines t.text = t.text := by
    have : ∀ s : List Byte, (13 : Byte) ∉ s → lines s = s := by
      intro s
      induction s with
      | nil => intro _; rfl
      | cons c s ih => intro h; rw [lines_other c s (fun e => h (by rw [e]; exact List.mem_cons_self)), ih (fun h' => h (List.mem_cons_of_mem _ h'))]
    exact this _ h13
  refine ⟨⟨?_, (by rw [hg]; intro c h; cases h), fun _ => ha, (by rw [ha]; intro c h; cases h), ⟨[], by rw [ha]; exact .none⟩, hc, h60,
    ⟨t.text, by rw [hl]; exact plain_means _ h38 (chars_no_nul hc)⟩⟩, ?_, ?_, ?_⟩
  · rcases hn with h | h <;> rw [h]
    · exact ⟨⟨97, [], by decide +kernel, by unfold NameStart Letter; decide⟩, by rw [show bytes "a" = [97] by decide +kernel]; unfold NameByte NameStart Letter; decide⟩
    · exact ⟨⟨98, [], by decide +kernel, by unfold NameStart Letter; decide⟩, by rw [show bytes "b" = [98] by decide +kernel]; unfold NameByte NameStart Letter; decide⟩
  · rcases hn with h | h <;> rw [h] <;> (unfold skipped; decide +kernel)
  · rw [ha]
    exact ⟨fun a h => (nomatch h), fun a h => (nomatch h)⟩
  · constructor
    · rintro ⟨x, hx⟩
      exact h13 (by rw [← hx]; simp)
    · rintro ⟨x, hx⟩
      exact h13 (by rw [← hx]; simp)

/-- The documents `<a>t<b/></a>` and `<a>t<b></a>`: the first is one element, the second is not. -/
example : let d (x : Tag) : List TagText := [⟨.start (bytes "a"), [], [], bytes "t"⟩, ⟨x, [], [], []⟩, ⟨.stop (bytes "a"), [], [], []⟩]
    (∀ t ∈ d (.empty (bytes "b")), t.WF ∧ TagText.Plain t) ∧ (∀ t ∈ d (.start (bytes "b")), t.WF ∧ TagText.Plain t) ∧
    (d (.empty (bytes "b"))).flatMap TagText.render = bytes "<a>t<b/></a>" ∧ (d (.start (bytes "b"))).flatMap TagText.render = bytes "<a>t<b></a>" ∧
    OneElement ((d (.empty (bytes "b"))).map (·.tag)) ∧ ¬ OneElement ((d (.start (bytes "b"))).map (·.tag)) := by
  intro d
  refine ⟨?_, ?_, by decide +kernel, by decide +kernel, (nests_one _ (by simp [d])).1 (by decide +kernel), fun h => ?_⟩
  · intro t ht
    simp only [d, List.mem_cons, List.not_mem_nil, or_false] at ht
    rcases ht with rfl | rfl | rfl <;> exact simple_tag (by simp [Tag.name]) rfl rfl (by unfold Chars; decide +kernel) (by decide +kernel) (by decide +kernel) (by decide +kernel)
  · intro t ht
    simp only [d, List.mem_cons, List.not_mem_nil, or_false] at ht
    rcases ht with rfl | rfl | rfl <;> exact simple_tag (by simp [Tag.name]) rfl rfl (by unfold Chars; decide +kernel) (by decide +kernel) (by decide +kernel) (by decide +kernel)
  · have := (nests_one _ (by simp [d])).2 h
    revert this
    decide +kernel

/-- **C121 is false** for text outside the root, which is no part of a document but is dropped without a warning (xml-tree.c:1579 and
2041-2043): `<a/>text` is read as `<a/>`, whatever the text. -/
theorem C121_behind_violated (e : XmlEnv) (text : List Byte) (hc : Chars text) (h60 : (60 : Byte) ∉ text) (h38 : (38 : Byte) ∉ text) (h13 : (13 : Byte) ∉ text) :
    ∃ (r : XmlRoot), ∃ N, ∀ f ≥ N, newXMLTree e f (bytes "<a/>" ++ text) = .ok (some (r, true)) := by
  have hs := simple_tag (t := ⟨.empty (bytes "a"), [], [], text⟩) (by simp [Tag.name]) rfl rfl hc h60 h38 h13
  obtain ⟨r, good, h1, N, h2⟩ := C121_tags_partial e [⟨.empty (bytes "a"), [], [], text⟩] (by simp) (by simpa using hs.1) (by simpa using hs.2)
  have hg : good = true := h1.2 (.inl ⟨_, rfl⟩)
  subst hg
  refine ⟨r, N, fun f hf => ?_⟩
  rw [← h2 f hf]
  have : [(⟨.empty (bytes "a"), [], [], text⟩ : TagText)].flatMap TagText.render = bytes "<a/>" ++ text := by
    simp only [List.flatMap_cons, List.flatMap_nil, List.append_nil, TagText.render]
    rw [show bytes "<a/>" = bytes "<" ++ bytes "a" ++ bytes "/>" by decide +kernel]
    simp [renderAtts]
  rw [this]

/-- **C121 is false** for what stands behind the name in a closing tag, which is dropped without a warning (xml-tree.c:2217-2237):
`<a></a b='1'>` is read as `<a></a>`. -/
theorem C121_closing_violated : ∃ (r : XmlRoot) (f : Nat), newXMLTree plainEnv f (bytes "<a></a b='1'>") = .ok (some (r, true)) := by
  refine ⟨_, 30, rfl⟩

end Wizard.Props

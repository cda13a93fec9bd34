import Verif.Model.XmlParse
import Verif.Spec.XmlDoc
import Verif.Props.XmlEntity
import Verif.Props.XmlAttribute
/-! Lemmas about `NewXMLTree`. -/
namespace Wizard.XmlP
open Wizard Wizard.Spec.Xml Wizard.Props

/-- Restrictions of the theorems on the attributes of a tag: the name of the first starts with an ASCII letter or `_`; no value ends with a
line end that has a carriage return. -/
def attsSimple (as : List Att) : Prop := (∀ a ∈ as, EndsWell a.raw) ∧ ∀ a, as.head? = some a → ∃ c r, a.name = c :: r ∧ (Letter c ∨ c = 95)

/-- The tags that `NewXMLTree` skips: `rdf:Bag` and `rdf:Seq` in any case. -/
def skipped (tag : List Byte) : Prop :=
  tag.map (fun c => if 65 ≤ c.toNat ∧ c.toNat ≤ 90 then c + 32 else c) = bytes "rdf:bag" ∨ tag.map (fun c => if 65 ≤ c.toNat ∧ c.toNat ≤ 90 then c + 32 else c) = bytes "rdf:seq"

theorem fold_small : ∀ c : Byte, (asciiMap c).toNat < 128 → (if 65 ≤ c.toNat ∧ c.toNat ≤ 90 then c + 32 else c) = asciiMap c := by decide +kernel

theorem fold_eq : ∀ (tag l : List Byte), (∀ c ∈ l, c.toNat < 128) → tag.map asciiMap = l → tag.map (fun c => if 65 ≤ c.toNat ∧ c.toNat ≤ 90 then c + 32 else c) = l := by
  intro tag l hl h
  subst h
  rw [List.map_inj_left]
  intro c hc
  exact fold_small c (hl _ (List.mem_map.mpr ⟨c, hc, rfl⟩))

theorem skip_tag {tag : List Byte} (h : isSkipTag tag = true) : skipped tag := by
  unfold isSkipTag at h
  rw [Bool.or_eq_true, beq_iff_eq, beq_iff_eq] at h
  rcases h with h | h
  · rw [show (ascText "rdf:Bag").map asciiMap = bytes "rdf:bag" by decide +kernel] at h
    exact .inl (fold_eq _ _ (by decide +kernel) h)
  · rw [show (ascText "rdf:Seq").map asciiMap = bytes "rdf:seq" by decide +kernel] at h
    exact .inr (fold_eq _ _ (by decide +kernel) h)

/-- Restrictions of the theorems on content: no element is one of those skipped, no text, CDATA section or attribute value ends with a line
end that has a carriage return, and the name of the first attribute of a tag starts with an ASCII letter or `_`. -/
def Simple : Items → Prop
  | .done => True
  | .text raw rest => EndsWell raw ∧ Simple rest
  | .cdata raw rest => EndsWell raw ∧ Simple rest
  | .comment _ rest => Simple rest
  | .pi _ _ _ rest => Simple rest
  | .doctype _ rest => Simple rest
  | .elem tag atts _ body _ rest => ¬ skipped tag ∧ attsSimple atts ∧ Simple body ∧ Simple rest
  | .empty tag atts _ rest => ¬ skipped tag ∧ attsSimple atts ∧ Simple rest

/-! ### Scanning -/

theorem scan_stop {p : Byte → Bool} {a b : List Byte} (ha : ∀ c ∈ a, p c = true) (hb : ∀ c, b.head? = some c → p c = false) :
    (a ++ b).takeWhile p = a ∧ (a ++ b).dropWhile p = b := by
  induction a with
  | nil =>
    cases b with
    | nil => exact ⟨rfl, rfl⟩
    | cons c b =>
      have := hb c rfl
      simp [this]
  | cons c a ih =>
    have h1 := ha c List.mem_cons_self
    have h2 := ih (fun d hd => ha d (List.mem_cons_of_mem _ hd))
    simp only [List.cons_append, List.takeWhile_cons, List.dropWhile_cons, h1, if_true, h2]
    exact ⟨trivial, trivial⟩

theorem drop_left {a b : List Byte} : (a ++ b).drop a.length = b := List.drop_left' rfl

theorem blank_xml : ∀ c : Byte, (c = 9 ∨ c = 10 ∨ c = 13 ∨ c = 32) → isXmlSpace c = true ∧ isSpaceC c = true := by decide +kernel

theorem name_byte (c : Byte) (h : NameByte c) : isXmlSpace c = false ∧ isSpaceC c = false ∧ c ≠ asc '=' ∧ c ≠ asc '/' ∧ c ≠ asc '>' ∧ c ≠ asc '<' ∧ c ≠ 0 ∧ c ≠ asc '?' := by
  have key : ∀ c : Byte, ((((65 ≤ c.toNat ∧ c.toNat ≤ 90) ∨ (97 ≤ c.toNat ∧ c.toNat ≤ 122)) ∨ c = 95 ∨ c = 58 ∨ 128 ≤ c.toNat) ∨ c = 45 ∨ c = 46 ∨ (48 ≤ c.toNat ∧ c.toNat ≤ 57)) →
      isXmlSpace c = false ∧ isSpaceC c = false ∧ c ≠ asc '=' ∧ c ≠ asc '/' ∧ c ≠ asc '>' ∧ c ≠ asc '<' ∧ c ≠ 0 ∧ c ≠ asc '?' := by decide +kernel
  exact key c h

theorem name_start (c : Byte) (h : NameStart c) : isAlphaC c = true ∨ c = asc '_' ∨ c = asc ':' ∨ 128 ≤ c.toNat := by
  have key : ∀ c : Byte, (((65 ≤ c.toNat ∧ c.toNat ≤ 90) ∨ (97 ≤ c.toNat ∧ c.toNat ≤ 122)) ∨ c = 95 ∨ c = 58 ∨ 128 ≤ c.toNat) → isAlphaC c = true ∨ c = asc '_' ∨ c = asc ':' ∨ 128 ≤ c.toNat := by decide +kernel
  exact key c h

theorem letter_start (c : Byte) (h : Letter c ∨ c = 95) : isAlphaC c = true ∨ c = asc '_' := by
  have key : ∀ c : Byte, (((65 ≤ c.toNat ∧ c.toNat ≤ 90) ∨ (97 ≤ c.toNat ∧ c.toNat ≤ 122)) ∨ c = 95) → isAlphaC c = true ∨ c = asc '_' := by decide +kernel
  exact key c h

theorem chars_no_nul {s : List Byte} (h : Chars s) : (0 : Byte) ∉ s := by
  intro h0; have := h 0 h0; revert this; decide

theorem chars_clean {s : List Byte} (h : Chars s) : Clean (lines s) := by
  have key : ∀ c : Byte, (32 ≤ c.toNat ∨ c = 9 ∨ c = 10 ∨ c = 13) → c ≠ 11 ∧ c ≠ 12 := by decide +kernel
  have hl : ∀ (s : List Byte), Chars s → Chars (lines s) := by
    intro s
    induction s using lines.induct with
    | case1 => intro h; exact h
    | case2 => intro h; unfold lines; intro c hc; simp at hc; subst hc; exact .inr (.inr (.inl rfl))
    | case3 c hc => intro h; unfold lines; rw [if_neg hc]; exact h
    | case4 c x s hc ih =>
      intro h
      unfold lines; rw [if_pos hc]
      intro d hd
      rcases List.mem_cons.mp hd with rfl | hd
      · exact .inr (.inr (.inl rfl))
      · exact ih (fun d hd => h d (List.mem_cons_of_mem _ (List.mem_cons_of_mem _ hd))) d hd
    | case5 x s hc ih =>
      intro h
      unfold lines; rw [if_neg hc, if_pos rfl]
      intro d hd
      rcases List.mem_cons.mp hd with rfl | hd
      · exact .inr (.inr (.inl rfl))
      · exact ih (fun d hd => h d (List.mem_cons_of_mem _ hd)) d hd
    | case6 c x s hc hc' ih =>
      intro h
      unfold lines; rw [if_neg hc, if_neg hc']
      intro d hd
      rcases List.mem_cons.mp hd with rfl | hd
      · exact h d List.mem_cons_self
      · exact ih (fun d hd => h d (List.mem_cons_of_mem _ hd)) d hd
  intro c hc
  exact key c (hl s h c hc)

/-! ### Attributes -/

/-- The entities the theorems are about. -/
structure Texts (decls : List (List Byte × List Byte)) : Prop where
  sensible : Sensible decls
  nonempty : ∀ d ∈ decls, d.2 ≠ []
  clean : ∀ d ∈ decls, Clean d.2

/-- What the reading knows is what is declared. -/
structure Follows (dtd : Dtd) (r : XmlRoot) : Prop where
  texts : Texts dtd.entities
  entities : r.entities = predefinedEntities ++ entTable dtd.entities
  types : ∀ tag name, attrState (r.defaults.find? (fun x => x.tag == tag)) name = if dtd.tokens tag name then .token else .attribute

theorem follows_none {r : XmlRoot} (hr : r.entities = predefinedEntities) (hd : r.defaults = []) : Follows noDtd r :=
  ⟨⟨fun d hd => (by cases hd), fun d hd => (by cases hd), fun d hd => (by cases hd)⟩, (by rw [hr]; rfl), (by rw [hd]; intro _ _; rfl)⟩

theorem value_plain {raw v : List Byte} (h : Means attValue [] (lines raw) v) (tag name : List Byte) : Value noDtd.entities (noDtd.tokens tag name) raw v := ⟨v, h, rfl⟩

theorem value_parse (junk : Nat → Byte) {decls : List (List Byte × List Byte)} (ht : Texts decls) (tok : Bool) (raw v q : List Byte) (hc : Chars raw) (hw : EndsWell raw) (h : Value decls tok raw v) :
    ∃ f0, ∀ f ≥ f0, parseEntities junk f (raw ++ 0 :: q) (predefinedEntities ++ entTable decls) (if tok then .token else .attribute) = .ok v := by
  obtain ⟨o, hm, h⟩ := h
  cases tok with
  | false =>
    have h : v = o := h
    subst h
    exact C86_value_partial junk decls ht.sensible ht.nonempty ht.clean raw v q (chars_no_nul hc) hw (chars_clean hc) hm
  | true =>
    obtain ⟨ws, hws, rfl⟩ : ∃ ws, Words o ws ∧ v = List.intercalate [32] ws := h
    exact C86_token_partial junk decls ht.sensible ht.nonempty ht.clean raw o q ws (chars_no_nul hc) hw (chars_clean hc) hm hws

theorem attribute_read (e : XmlEnv) (r : XmlRoot) {dtd : Dtd} (hfo : Follows dtd r) (tag : List Byte) (a : Att) (hw : a.WF) (hs : EndsWell a.raw) (v : List Byte)
    (hv : Value dtd.entities (dtd.tokens tag a.name) a.raw v) (tail : List Byte) :
    ∃ N, ∀ f ≥ N, xmlAttribute e f r (r.defaults.find? (fun x => x.tag == tag)) (a.name ++ a.left ++ [61] ++ a.right ++ [a.quote] ++ a.raw ++ [a.quote] ++ tail) = .ok (some ((a.name, some v), tail.dropWhile isSpaceC)) := by
  obtain ⟨_, _, ⟨hn1, hn2⟩, hl, hrt, hq, hch, hqr, _⟩ := hw
  obtain ⟨N, hN⟩ := value_parse e.junk hfo.texts _ a.raw v (tail ++ [0]) hch hs hv
  refine ⟨N, fun f hf => ?_⟩
  have hp := hN f hf
  rw [← hfo.entities, ← hfo.types] at hp
  unfold xmlAttribute
  have e1 : (a.name ++ a.left ++ [61] ++ a.right ++ [a.quote] ++ a.raw ++ [a.quote] ++ tail) = a.name ++ (a.left ++ 61 :: (a.right ++ a.quote :: (a.raw ++ a.quote :: tail))) := by simp
  rw [e1]
  have hsep : ∀ c, (a.left ++ 61 :: (a.right ++ a.quote :: (a.raw ++ a.quote :: tail))).head? = some c → (c = asc '=' ∨ isXmlSpace c = true ∧ isSpaceC c = true) := by
    intro c hc
    cases hleft : a.left with
    | nil => rw [hleft] at hc; simp at hc; left; exact hc.symm
    | cons x xs =>
      rw [hleft] at hc; simp at hc; subst hc
      right; exact blank_xml x (hl x (by rw [hleft]; exact List.mem_cons_self))
  obtain ⟨t1, _⟩ := scan_stop (p := fun c => !(isXmlSpace c || c == asc '=' || c == asc '/' || c == asc '>')) (a := a.name) (b := a.left ++ 61 :: (a.right ++ a.quote :: (a.raw ++ a.quote :: tail)))
    (fun c hc => by obtain ⟨q1, _, q3, q4, q5, _⟩ := name_byte c (hn2 c hc); simp [q1, q3, q4, q5])
    (fun c hc => by rcases hsep c hc with h | h <;> simp [h])
  simp only [t1, drop_left]
  have hquote : ∀ c, (a.quote :: (a.raw ++ a.quote :: tail)).head? = some c → (isXmlSpace c || c == asc '=') = false := by
    intro c hc; simp at hc; subst hc
    rcases hq with h | h <;> rw [h] <;> decide
  have main : ∀ (x : Byte) (m : List Byte), (x = asc '=' ∨ isXmlSpace x = true ∧ isSpaceC x = true) → (∀ c ∈ m, (isXmlSpace c || c == asc '=') = true) →
      (if x ≠ asc '=' ∧ isSpaceC x = false then Res.ok (some ((([] : List Byte), (none : Option (List Byte))), x :: (m ++ a.quote :: (a.raw ++ a.quote :: tail))))
      else match (m ++ a.quote :: (a.raw ++ a.quote :: tail)).dropWhile (fun c => isXmlSpace c || c == asc '=') with
      | [] => .ok (some ((a.name, none), []))
      | q :: p =>
        if q = asc '"' ∨ q = asc '\'' then
          let value := p.takeWhile (· != q)
          match p.drop value.length with
          | [] => .ok none
          | _ :: p => do
            let v ← parseEntities e.junk f (value ++ 0 :: p ++ [0]) r.entities (attrState (r.defaults.find? (fun x => x.tag == tag)) a.name)
            .ok (some ((a.name, some v), p.dropWhile isSpaceC))
        else .ok (some ((a.name, none), (q :: p).dropWhile isSpaceC))) = .ok (some ((a.name, some v), tail.dropWhile isSpaceC)) := by
    intro x m hx hm
    rw [if_neg (by rcases hx with h | h <;> simp [h])]
    rw [(scan_stop hm hquote).2]
    simp only []
    rw [if_pos (by rcases hq with h | h <;> rw [h] <;> decide)]
    have t3 := scan_stop (p := fun c => c != a.quote) (a := a.raw) (b := a.quote :: tail) (fun c hc => by simp; intro h; exact hqr (h ▸ hc)) (fun c hc => by simp at hc; simp [hc])
    simp only [t3.1, drop_left]
    have e2 : a.raw ++ 0 :: tail ++ [0] = a.raw ++ 0 :: (tail ++ [0]) := by simp
    rw [e2]
    show (parseEntities e.junk f (a.raw ++ 0 :: (tail ++ [0])) r.entities (attrState (r.defaults.find? (fun x => x.tag == tag)) a.name) >>= _) = _
    rw [hp, Res.ok_bind]
  cases hleft : a.left with
  | nil =>
    refine main 61 a.right (.inl rfl) (fun c hc => ?_)
    simp [blank_xml c (hrt c hc)]
  | cons x xs =>
    have hxl : ∀ c ∈ x :: xs, isXmlSpace c = true ∧ isSpaceC c = true := fun c hc => blank_xml c (hl c (by rw [hleft]; exact hc))
    have := main x (xs ++ 61 :: a.right) (.inr (hxl x List.mem_cons_self)) (fun c hc => by
      rcases List.mem_append.mp hc with h | h
      · simp [hxl c (List.mem_cons_of_mem _ h)]
      · rcases List.mem_cons.mp h with rfl | h
        · decide
        · simp [blank_xml c (hrt c h)])
    simp only [List.cons_append, List.append_assoc] at this ⊢
    exact this

theorem drop_blank {b t : List Byte} (hb : Blank b) (ht : ∀ c, t.head? = some c → isSpaceC c = false) : (b ++ t).dropWhile isSpaceC = t :=
  (scan_stop (fun c hc => (blank_xml c (hb c hc)).2) ht).2

theorem attributes_read (e : XmlEnv) (r : XmlRoot) {dtd : Dtd} (hfo : Follows dtd r) (tag : List Byte) (gap : List Byte) (hg : Blank gap) (w : List Byte) (hz : ∀ z, w.head? = some z → z = asc '/' ∨ z = asc '>') :
    ∀ (atts : List Att) (vs : List (List Byte × Option (List Byte))), (∀ a ∈ atts, a.WF) → (∀ a ∈ atts, EndsWell a.raw) → AttsMean dtd tag atts vs →
      ∃ N, ∀ f ≥ N, ∀ acc, xmlAttributes e r (r.defaults.find? (fun x => x.tag == tag)) f ((renderAtts atts ++ gap ++ w).dropWhile isSpaceC) acc = .ok (some (acc ++ vs, w)) := by
  have hzs : ∀ z, w.head? = some z → isSpaceC z = false := by intro z h; rcases hz z h with h | h <;> rw [h] <;> decide
  intro atts
  induction atts with
  | nil =>
    intro vs _ _ hm
    cases hm
    refine ⟨1, fun f hf acc => ?_⟩
    show xmlAttributes e r (r.defaults.find? (fun x => x.tag == tag)) f ((gap ++ w).dropWhile isSpaceC) acc = _
    rw [drop_blank hg hzs]
    obtain ⟨f, rfl⟩ : ∃ k, f = k + 1 := ⟨f - 1, by omega⟩
    unfold xmlAttributes
    cases w with
    | nil => rw [List.append_nil]
    | cons z tail =>
      simp only []
      rw [if_pos (hz z rfl), List.append_nil]
  | cons a as ih =>
    intro vs hw hs hm
    cases hm with
    | some hv hvs =>
      rename_i v vs
      obtain ⟨N1, h1⟩ := ih vs (fun x hx => hw x (List.mem_cons_of_mem _ hx)) (fun x hx => hs x (List.mem_cons_of_mem _ hx)) hvs
      obtain ⟨N2, h2⟩ := attribute_read e r hfo tag a (hw a List.mem_cons_self) (hs a List.mem_cons_self) v hv (renderAtts as ++ gap ++ w)
      refine ⟨max N1 N2 + 1, fun f hf acc => ?_⟩
      obtain ⟨f, rfl⟩ : ∃ k, f = k + 1 := ⟨f - 1, by omega⟩
      obtain ⟨hb1, hb2, ⟨⟨c, nr, hn1, hns⟩, hn2⟩, _⟩ := hw a List.mem_cons_self
      have hname : ∀ x, (a.name ++ x) = c :: (nr ++ x) := by intro x; rw [hn1]; rfl
      have e1 : renderAtts (a :: as) ++ gap ++ w = a.before ++ (a.name ++ a.left ++ [61] ++ a.right ++ [a.quote] ++ a.raw ++ [a.quote] ++ (renderAtts as ++ gap ++ w)) := by
        unfold renderAtts Att.render
        simp
      rw [e1, drop_blank hb2]
      · have h2' := h2 f (by omega)
        have h1' := h1 f (by omega) (acc ++ [(a.name, some v)])
        have e3 : a.name ++ a.left ++ [61] ++ a.right ++ [a.quote] ++ a.raw ++ [a.quote] ++ (renderAtts as ++ gap ++ w) =
            c :: (nr ++ a.left ++ [61] ++ a.right ++ [a.quote] ++ a.raw ++ [a.quote] ++ (renderAtts as ++ gap ++ w)) := by rw [hn1]; simp
        rw [e3] at h2' ⊢
        unfold xmlAttributes
        have hc := name_byte c (hn2 c (by rw [hn1]; exact List.mem_cons_self))
        rw [if_neg (by intro h; rcases h with h | h; exact hc.2.2.2.1 h; exact hc.2.2.2.2.1 h), h2', Res.ok_bind]
        simp only []
        rw [h1']
        simp
      · intro d hd
        rw [hn1] at hd; simp at hd; subst hd
        exact (name_byte c (hn2 c (by rw [hn1]; exact List.mem_cons_self))).2.1

/-- What may follow where a `>` is due. -/
def Due (terminal : Byte) (tail : List Byte) : Prop := tail.head? = some (asc '>') ∨ (tail = [] ∧ terminal = asc '>')

theorem due_ok {terminal : Byte} {tail : List Byte} (h : Due terminal tail) : ¬ ((tail ≠ [] ∧ tail.head? ≠ some (asc '>')) ∨ (tail = [] ∧ terminal ≠ asc '>')) := by
  rcases h with h | ⟨h, h'⟩
  · intro hx
    rcases hx with hx | hx
    · exact hx.2 h
    · rw [hx.1] at h; cases h
  · intro hx
    rcases hx with hx | hx
    · exact hx.1 h
    · exact hx.2 h'

theorem due_end {terminal : Byte} {tail : List Byte} (h : Due terminal tail) : ¬ (tail = [] ∧ terminal ≠ asc '>') := fun hx => due_ok h (.inr hx)

/-! ### Tags -/

theorem head_blank_or {b t : List Byte} {c : Byte} (h : (b ++ t).head? = some c) : c ∈ b ∨ t.head? = some c := by
  cases b with
  | nil => exact .inr h
  | cons x b => simp at h; exact .inl (by rw [← h]; exact List.mem_cons_self)

theorem att_head {as : List Att} {t : List Byte} {c : Byte} (hw : ∀ a ∈ as, a.WF) (h : (renderAtts as ++ t).head? = some c) :
    (isXmlSpace c = true ∧ isSpaceC c = true) ∨ t.head? = some c := by
  cases as with
  | nil => exact .inr h
  | cons a as =>
    obtain ⟨hb1, hb2, _⟩ := hw a List.mem_cons_self
    left
    apply blank_xml
    cases hb : a.before with
    | nil => exact absurd hb hb1
    | cons x xs =>
      have : c = x := by
        unfold renderAtts Att.render at h
        rw [List.flatMap_cons, hb] at h
        simp at h
        exact h.symm
      rw [this]
      exact hb2 x (by rw [hb]; exact List.mem_cons_self)

theorem tag_attributes (e : XmlEnv) (r : XmlRoot) {dtd : Dtd} (hfo : Follows dtd r) (hi : r.ignore = 0) (tag gap : List Byte) (hg : Blank gap) (w : List Byte)
    (hz : ∀ z, w.head? = some z → z = asc '/' ∨ z = asc '>') (atts : List Att) (vs : List (List Byte × Option (List Byte))) (hw : ∀ a ∈ atts, a.WF) (hs : attsSimple atts) (hm : AttsMean dtd tag atts vs) :
    ∃ N, ∀ f ≥ N, tagAttributes e f r tag ((renderAtts atts ++ gap ++ w).dropWhile isSpaceC) = .ok (some (vs, w)) := by
  obtain ⟨N, hN⟩ := attributes_read e r hfo tag gap hg w hz atts vs hw hs.1 hm
  have hzs : ∀ z, w.head? = some z → isSpaceC z = false := by intro z h; rcases hz z h with h | h <;> rw [h] <;> decide
  refine ⟨N, fun f hf => ?_⟩
  have hx := hN f hf []
  cases hatts : atts with
  | nil =>
    rw [hatts] at hm
    cases hm
    show tagAttributes e f r tag ((gap ++ w).dropWhile isSpaceC) = _
    rw [drop_blank hg hzs]
    unfold tagAttributes
    cases w with
    | nil => rfl
    | cons z tail =>
      have hz := hz z rfl
      simp only []
      rw [if_neg (by rintro ⟨h, _⟩; clear hx hN; rcases hz with rfl | rfl <;> revert h <;> decide)]
      rcases hz with rfl | rfl <;> rfl
  | cons a as =>
    rw [hatts] at hx hw hs
    obtain ⟨hb1, hb2, ⟨_, hn2⟩, _⟩ := hw a List.mem_cons_self
    obtain ⟨c, nr, hn1, hcl⟩ := hs.2 a rfl
    have hnb := name_byte c (hn2 c (by rw [hn1]; exact List.mem_cons_self))
    have e1 : renderAtts (a :: as) ++ gap ++ w = a.before ++ (c :: (nr ++ a.left ++ [61] ++ a.right ++ [a.quote] ++ a.raw ++ [a.quote] ++ (renderAtts as ++ gap ++ w))) := by
      unfold renderAtts Att.render
      rw [List.flatMap_cons, hn1]
      simp
    rw [e1, drop_blank hb2 (fun d hd => by simp at hd; rw [← hd]; exact hnb.2.1)] at hx ⊢
    unfold tagAttributes
    simp only []
    rw [if_pos ⟨letter_start c hcl, hi⟩]
    exact hx

theorem tag_split (tag : List Byte) (hn : Name tag) (t : List Byte) (ht : ∀ c, t.head? = some c → isXmlSpace c = true ∨ c = asc '/' ∨ c = asc '>') :
    (tag ++ t).takeWhile (fun c => !(isXmlSpace c || c == asc '/' || c == asc '>')) = tag :=
  (scan_stop (fun c hc => by obtain ⟨q1, _, q3, q4, q5, _⟩ := name_byte c (hn.2 c hc); simp [q1, q4, q5])
    (fun c hc => by rcases ht c hc with h | h | h <;> simp [h])).1

theorem tag_read (e : XmlEnv) (r : XmlRoot) {dtd : Dtd} (hfo : Follows dtd r) (hi : r.ignore = 0) (hst : r.stack ≠ []) (terminal : Byte) (tag gap : List Byte) (hn : Name tag) (hg : Blank gap) (w : List Byte)
    (hz : ∀ z, w.head? = some z → z = asc '/' ∨ z = asc '>') (atts : List Att) (vs : List (List Byte × Option (List Byte))) (hw : ∀ a ∈ atts, a.WF) (hs : attsSimple atts) (hm : AttsMean dtd tag atts vs) :
    ∃ N, ∀ f ≥ N, xmlConstruct e f terminal r (tag ++ renderAtts atts ++ gap ++ w) = .ok (tagEnd terminal r tag vs (w)) := by
  obtain ⟨N, hN⟩ := tag_attributes e r hfo hi tag gap hg w hz atts vs hw hs hm
  refine ⟨N, fun f hf => ?_⟩
  have hx := hN f hf
  have e0 : tag ++ renderAtts atts ++ gap ++ w = tag ++ (renderAtts atts ++ gap ++ w) := by simp
  have ht := tag_split tag hn (renderAtts atts ++ gap ++ w) (fun c hc => by
    rw [List.append_assoc] at hc
    rcases att_head hw hc with h | h
    · exact .inl h.1
    · rcases head_blank_or h with h | h
      · exact .inl (blank_xml c (hg c h)).1
      · exact .inr (hz c h))
  obtain ⟨c, nr, hc, hcs⟩ := hn.1
  have e1 : tag ++ (renderAtts atts ++ gap ++ w) = c :: (nr ++ (renderAtts atts ++ gap ++ w)) := by rw [hc]; rfl
  rw [e0]
  have hcon : xmlConstruct e f terminal r (tag ++ (renderAtts atts ++ gap ++ w)) = xmlTag e f terminal r (tag ++ (renderAtts atts ++ gap ++ w)) := by
    rw [e1]
    unfold xmlConstruct
    simp only []
    rw [if_pos (name_start c hcs)]
  rw [hcon]
  unfold xmlTag
  simp only []
  rw [if_neg hst, ht, drop_left, hx, Res.ok_bind]

theorem open_read (e : XmlEnv) (r : XmlRoot) {dtd : Dtd} (hfo : Follows dtd r) (hi : r.ignore = 0) (hst : r.stack ≠ []) (terminal : Byte) (tag gap : List Byte) (hn : Name tag) (hk : ¬ skipped tag) (hg : Blank gap)
    (tail : List Byte) (atts : List Att) (vs : List (List Byte × Option (List Byte))) (hw : ∀ a ∈ atts, a.WF) (hs : attsSimple atts) (hm : AttsMean dtd tag atts vs) :
    ∃ N, ∀ f ≥ N, xmlConstruct e f terminal r (tag ++ renderAtts atts ++ gap ++ asc '>' :: tail) = .ok (parseOpenTag r tag vs, some (asc '>' :: tail)) := by
  obtain ⟨N, hN⟩ := tag_read e r hfo hi hst terminal tag gap hn hg (asc '>' :: tail) (by simp) atts vs hw hs hm
  refine ⟨N, fun f hf => ?_⟩
  rw [hN f hf]
  unfold tagEnd
  rw [if_neg (by simp; decide), if_pos (.inl rfl), if_pos ⟨hi, by cases hx : isSkipTag tag; rfl; exact absurd (skip_tag hx) hk⟩]

theorem open_close (r : XmlRoot) (hst : r.stack ≠ []) (tag : List Byte) (vs : XmlAttrs) : ∃ r', parseCloseTag (parseOpenTag r tag vs) tag = some r' := by
  unfold parseOpenTag
  cases hs : r.stack with
  | nil => exact absurd hs hst
  | cons n up =>
    simp only []
    split
    · unfold parseCloseTag
      simp only [ne_eq, not_true, if_false]
      cases up <;> exact ⟨_, rfl⟩
    · unfold parseCloseTag
      simp only [ne_eq, not_true, if_false]
      exact ⟨_, rfl⟩

theorem empty_read (e : XmlEnv) (r : XmlRoot) {dtd : Dtd} (hfo : Follows dtd r) (hi : r.ignore = 0) (hst : r.stack ≠ []) (terminal : Byte) (tag gap : List Byte) (hn : Name tag) (hk : ¬ skipped tag) (hg : Blank gap)
    (tail : List Byte) (htail : Due terminal tail) (atts : List Att) (vs : List (List Byte × Option (List Byte))) (hw : ∀ a ∈ atts, a.WF) (hs : attsSimple atts) (hm : AttsMean dtd tag atts vs)
    (r' : XmlRoot) (hc : parseCloseTag (parseOpenTag r tag vs) tag = some r') :
    ∃ N, ∀ f ≥ N, xmlConstruct e f terminal r (tag ++ renderAtts atts ++ gap ++ asc '/' :: tail) = .ok (r', some tail) := by
  obtain ⟨N, hN⟩ := tag_read e r hfo hi hst terminal tag gap hn hg (asc '/' :: tail) (by simp) atts vs hw hs hm
  refine ⟨N, fun f hf => ?_⟩
  rw [hN f hf]
  unfold tagEnd
  rw [if_pos (by rfl)]
  simp only [List.drop_succ_cons, List.drop_zero]
  rw [if_neg (due_ok htail), if_neg (by intro h; rcases h with h | h; exact h hi; exact hk (skip_tag h)), hc]
  rfl

theorem close_read (e : XmlEnv) (r : XmlRoot) (hi : r.ignore = 0) (terminal : Byte) (tag gap : List Byte) (hn : Name tag) (hg : Blank gap) (tail : List Byte)
    (htail : Due terminal tail) (r' : XmlRoot) (hc : parseCloseTag r tag = some r') (f : Nat) :
    xmlConstruct e f terminal r (asc '/' :: (tag ++ gap ++ tail)) = .ok (r', some tail) := by
  have hcon : xmlConstruct e f terminal r (asc '/' :: (tag ++ gap ++ tail)) = .ok (xmlClose terminal r (tag ++ gap ++ tail)) := by
    unfold xmlConstruct
    simp only []
    rw [if_neg (by decide), if_pos trivial]
  rw [hcon]
  have ht : (tag ++ (gap ++ tail)).takeWhile (fun c => !(isXmlSpace c || c == asc '>')) = tag :=
    (scan_stop (fun c hc => by obtain ⟨q1, _, _, _, q5, _⟩ := name_byte c (hn.2 c hc); simp [q1, q5])
      (fun c hc => by
        rcases head_blank_or hc with h | h
        · simp [(blank_xml c (hg c h)).1]
        · rcases htail with h' | ⟨h', _⟩
          · rw [h'] at h; simp at h; simp [← h]
          · rw [h'] at h; cases h)).1
  unfold xmlClose
  simp only [List.append_assoc]
  rw [ht, drop_left, if_neg, if_pos hi, hc]
  · simp only []
    rw [(scan_stop (p := isXmlSpace) (a := gap) (b := tail) (fun c hc => (blank_xml c (hg c hc)).1) (fun c hc => by
      rcases htail with h' | ⟨h', _⟩
      · rw [h'] at hc; simp at hc; rw [← hc]; decide
      · rw [h'] at hc; cases hc)).2]
  · rintro ⟨h1, h2⟩
    rcases htail with h' | ⟨_, h'⟩
    · cases tail with
      | nil => cases h'
      | cons _ _ => simp at h1
    · exact h2 h'

/-! ### Comments, CDATA sections, document types -/

theorem strstr_first (pat : List Byte) (hp : pat ≠ []) : ∀ (a b : List Byte), ¬ pat <:+: a ++ pat.dropLast → strstrC pat (a ++ (pat ++ b)) = some (a, pat ++ b) := by
  intro a
  induction a with
  | nil =>
    intro b _
    cases pat with
    | nil => exact absurd rfl hp
    | cons x pat =>
      show strstrC (x :: pat) (x :: (pat ++ b)) = _
      unfold strstrC
      rw [if_pos]
      · rfl
      · rw [List.isPrefixOf_iff_prefix]; exact ⟨b, rfl⟩
  | cons c a ih =>
    intro b h
    show strstrC pat (c :: (a ++ (pat ++ b))) = _
    unfold strstrC
    rw [if_neg, ih b]
    · intro hi
      exact h (hi.trans ⟨[c], [], by simp⟩)
    · intro hpre
      rw [List.isPrefixOf_iff_prefix] at hpre
      apply h
      refine List.IsPrefix.isInfix ?_
      have hlen : pat.length ≤ (c :: a ++ pat.dropLast).length := by
        simp only [List.cons_append, List.length_cons, List.length_append, List.length_dropLast]
        omega
      have e1 : c :: (a ++ (pat ++ b)) = (c :: a ++ pat.dropLast) ++ (pat.drop (pat.length - 1) ++ b) := by
        have : pat = pat.dropLast ++ pat.drop (pat.length - 1) := by rw [List.dropLast_eq_take]; exact (List.take_append_drop _ _).symm
        conv => lhs; rw [this]
        simp
      rw [e1] at hpre
      exact List.prefix_of_prefix_length_le hpre ⟨_, rfl⟩ hlen

theorem infix_snoc {pat s : List Byte} {c x : Byte} {q : List Byte} (hp : pat = q ++ [x]) (hx : x ≠ c) (h : pat <:+: s ++ [c]) : pat <:+: s := by
  obtain ⟨a, b, e⟩ := h
  rcases List.eq_nil_or_concat b with rfl | ⟨b', d, rfl⟩
  · exfalso
    rw [hp, List.append_nil, ← List.append_assoc] at e
    have := List.append_inj' e rfl
    simp at this
    exact hx this.2
  · rw [List.concat_eq_append, ← List.append_assoc] at e
    exact ⟨a, b', (List.append_inj' e rfl).1⟩

theorem comment_read (e : XmlEnv) (r : XmlRoot) (terminal : Byte) (raw tail : List Byte) (h1 : ¬ bytes "--" <:+: raw) (h2 : ¬ [(45 : Byte)] <:+ raw)
    (htail : Due terminal tail) (f : Nat) :
    xmlConstruct e f terminal r (bytes "!--" ++ raw ++ bytes "--" ++ tail) = .ok (r, some tail) := by
  have hcon : xmlConstruct e f terminal r (bytes "!--" ++ raw ++ bytes "--" ++ tail) = .ok (xmlComment terminal r (raw ++ (bytes "--" ++ tail))) := by
    show xmlConstruct e f terminal r (33 :: 45 :: 45 :: (raw ++ bytes "--" ++ tail)) = _
    unfold xmlConstruct
    simp only []
    rw [if_neg (by decide), if_neg (by decide), if_pos (by rw [List.isPrefixOf_iff_prefix]; exact ⟨_, rfl⟩)]
    simp only [List.drop_succ_cons, List.drop_zero, List.append_assoc]
  rw [hcon]
  unfold xmlComment
  rw [show ascText "--" = bytes "--" by decide +kernel, strstr_first (bytes "--") (by decide +kernel) raw tail]
  · simp only []
    have : (bytes "--" ++ tail).drop 2 = tail := rfl
    rw [this, if_neg (due_ok htail)]
  · intro h
    rw [show (bytes "--").dropLast = [45] by decide +kernel] at h
    obtain ⟨a, b, he⟩ := h
    rcases List.eq_nil_or_concat b with rfl | ⟨b', d, rfl⟩
    · rw [List.append_nil, show bytes "--" = [45] ++ [45] by decide +kernel, ← List.append_assoc] at he
      exact h2 ⟨a, (List.append_inj' he rfl).1⟩
    · rw [List.concat_eq_append, ← List.append_assoc] at he
      exact h1 ⟨a, b', (List.append_inj' he rfl).1⟩

theorem cdata_split (raw tail : List Byte) (h : ¬ bytes "]]>" <:+: raw) : strstrC (ascText "]]>") (raw ++ (bytes "]]>" ++ tail)) = some (raw, bytes "]]>" ++ tail) := by
  rw [show ascText "]]>" = bytes "]]>" by decide +kernel]
  refine strstr_first (bytes "]]>") (by decide +kernel) raw tail (fun hi => h ?_)
  rw [show (bytes "]]>").dropLast = [93] ++ [93] by decide +kernel, ← List.append_assoc] at hi
  exact infix_snoc (q := [93, 93]) (x := 62) (by decide +kernel) (by decide) (infix_snoc (q := [93, 93]) (x := 62) (by decide +kernel) (by decide) hi)

theorem cdata_read (e : XmlEnv) (f : Nat) (r r' : XmlRoot) (hi : r.ignore = 0) (terminal : Byte) (raw tail : List Byte) (h : ¬ bytes "]]>" <:+: raw)
    (hp : parseCharacterContent e f r raw ((bytes "]]>" ++ tail).drop 1 ++ [0]) .cdata = .ok r') :
    xmlConstruct e f terminal r (bytes "![CDATA[" ++ raw ++ bytes "]]>" ++ tail) = .ok (r', some (asc '>' :: tail)) := by
  have hcon : xmlConstruct e f terminal r (bytes "![CDATA[" ++ raw ++ bytes "]]>" ++ tail) = xmlCdata e f r (raw ++ (bytes "]]>" ++ tail)) := by
    show xmlConstruct e f terminal r (33 :: 91 :: 67 :: 68 :: 65 :: 84 :: 65 :: 91 :: (raw ++ bytes "]]>" ++ tail)) = _
    unfold xmlConstruct
    simp only []
    rw [if_neg (by decide), if_neg (by decide), if_neg (by rw [List.isPrefixOf_iff_prefix]; rintro ⟨t, ht⟩; cases ht), if_pos (by rw [List.isPrefixOf_iff_prefix]; exact ⟨_, rfl⟩)]
    simp only [List.drop_succ_cons, List.drop_zero, List.append_assoc]
  rw [hcon]
  unfold xmlCdata
  rw [cdata_split raw tail h]
  simp only []
  rw [if_pos hi, hp, Res.ok_bind]
  rfl

theorem doctype_read (e : XmlEnv) (f : Nat) (r : XmlRoot) (terminal : Byte) (raw tail : List Byte) (h1 : (91 : Byte) ∉ raw) (h2 : (93 : Byte) ∉ raw) (h3 : (62 : Byte) ∉ raw)
    (htail : Due terminal tail) :
    xmlConstruct e f terminal r (bytes "!DOCTYPE" ++ raw ++ tail) = .ok (r, some tail) := by
  have hcon : xmlConstruct e f terminal r (bytes "!DOCTYPE" ++ raw ++ tail) = xmlDoctype e terminal r (bytes "!DOCTYPE" ++ raw ++ tail) := by
    show xmlConstruct e f terminal r (33 :: 68 :: 79 :: 67 :: 84 :: 89 :: 80 :: 69 :: (raw ++ tail)) = _
    unfold xmlConstruct
    simp only []
    rw [if_neg (by decide), if_neg (by decide), if_neg (by rw [List.isPrefixOf_iff_prefix]; rintro ⟨t, ht⟩; cases ht), if_neg (by rw [List.isPrefixOf_iff_prefix]; rintro ⟨t, ht⟩; cases ht),
      if_pos (by rw [List.isPrefixOf_iff_prefix]; exact ⟨_, rfl⟩)]
    rfl
  rw [hcon]
  have hend : doctypeEnd false (bytes "!DOCTYPE" ++ raw ++ tail) = (false, tail) := by
    show doctypeEnd false (33 :: (bytes "DOCTYPE" ++ raw ++ tail)) = _
    rw [doctypeEnd.eq_def]
    simp only []
    rw [if_pos (.inl ⟨trivial, by decide⟩)]
    have hd := (scan_stop (p := fun c => c != asc '[' && c != asc ']' && c != asc '>') (a := bytes "DOCTYPE" ++ raw) (b := tail)
      (fun c hc => by
        rcases List.mem_append.mp hc with h | h
        · have key : ∀ c ∈ bytes "DOCTYPE", (c != asc '[' && c != asc ']' && c != asc '>') = true := by decide +kernel
          exact key c h
        · have n1 : c ≠ asc '[' := fun e => h1 (by have : c = 91 := e; rw [← this]; exact h)
          have n2 : c ≠ asc ']' := fun e => h2 (by have : c = 93 := e; rw [← this]; exact h)
          have n3 : c ≠ asc '>' := fun e => h3 (by have : c = 62 := e; rw [← this]; exact h)
          simp [n1, n2, n3])
      (fun c hc => by
        rcases htail with h' | ⟨h', _⟩
        · rw [h'] at hc; simp at hc; rw [← hc]; decide
        · rw [h'] at hc; cases hc)).2
    rw [hd]
    rcases htail with h' | ⟨h', _⟩
    · cases tail with
      | nil => cases h'
      | cons x t =>
        simp at h'
        rw [if_neg (by rw [h']; simp; decide), doctypeEnd.eq_def]
        simp only []
        rw [if_neg (by rw [h']; simp)]
    · rw [h', if_neg (by simp), doctypeEnd.eq_def]
  unfold xmlDoctype
  rw [hend]
  simp only []
  rw [if_neg (due_end htail), if_neg (by decide)]

/-! ### Processing instructions -/

theorem piEnd_last (acc z : List Byte) (hz : z = [] ∨ z.head? = some (asc '>')) : piEnd acc z = some (acc, z) := by
  rcases hz with rfl | h
  · rw [piEnd.eq_def]
  · cases z with
    | nil => cases h
    | cons x z => simp at h; rw [piEnd.eq_def]; simp only []; rw [if_pos h]

theorem first_mark (t z : List Byte) : (asc '?' ∉ t ∧ (t ++ asc '?' :: z).takeWhile (· != asc '?') = t ∧ (t ++ asc '?' :: z).dropWhile (· != asc '?') = asc '?' :: z) ∨
    ∃ u w, t = u ++ asc '?' :: w ∧ (t ++ asc '?' :: z).takeWhile (· != asc '?') = u ∧ (t ++ asc '?' :: z).dropWhile (· != asc '?') = asc '?' :: (w ++ asc '?' :: z) := by
  by_cases h : asc '?' ∈ t
  · right
    obtain ⟨u, w, e, hu⟩ : ∃ u w, t = u ++ asc '?' :: w ∧ asc '?' ∉ u := by
      clear z
      induction t with
      | nil => cases h
      | cons c t ih =>
        by_cases hc : c = asc '?'
        · exact ⟨[], t, by rw [hc]; rfl, by simp⟩
        · rcases List.mem_cons.mp h with h | h
          · exact absurd h.symm hc
          · obtain ⟨u, w, e, hu⟩ := ih h
            refine ⟨c :: u, w, by rw [e]; rfl, ?_⟩
            simp only [List.mem_cons, not_or]
            exact ⟨fun h => hc h.symm, hu⟩
    have hs := scan_stop (p := fun c => c != asc '?') (a := u) (b := asc '?' :: (w ++ asc '?' :: z)) (fun c hc => by simp; intro e; exact hu (e ▸ hc)) (fun c hc => by simp at hc; simp [← hc])
    refine ⟨u, w, e, ?_⟩
    rw [e]
    simp only [List.append_assoc, List.cons_append]
    exact hs
  · left
    exact ⟨h, scan_stop (fun c hc => by simp; intro e; exact h (e ▸ hc)) (fun c hc => by simp at hc; simp [← hc])⟩

theorem piEnd_spec (z : List Byte) (hz : z = [] ∨ z.head? = some (asc '>')) : ∀ (n : Nat) (t acc : List Byte), t.length ≤ n → ¬ bytes "?>" <:+: t → t.head? ≠ some (asc '>') →
    piEnd acc (t ++ asc '?' :: z) = some (acc ++ asc '?' :: t, z) := by
  intro n
  induction n with
  | zero =>
    intro t acc hl _ _
    have : t = [] := List.eq_nil_of_length_eq_zero (by omega)
    subst this
    show piEnd acc (asc '?' :: z) = _
    rw [piEnd.eq_def]
    simp only []
    rw [if_neg (by decide)]
    split
    · rename_i h; simp at h
    · rename_i h
      simp at h
      rw [← h.2, piEnd_last _ _ hz]
      simp
  | succ n ih =>
    intro t acc hl hno hh
    cases t with
    | nil => exact ih [] acc (by simp) hno hh
    | cons c t =>
      show piEnd acc (c :: (t ++ asc '?' :: z)) = _
      rw [piEnd.eq_def]
      simp only []
      rw [if_neg (by intro e; rw [e] at hh; exact hh rfl)]
      have hf := first_mark (c :: t) z
      simp only [List.cons_append] at hf
      rcases hf with ⟨_, h1, h2⟩ | ⟨u, w, e, h1, h2⟩
      · split
        · rename_i h; rw [h2] at h; cases h
        · rename_i h; rw [h2] at h; cases h
          rw [h1, piEnd_last _ _ hz]
      · split
        · rename_i h; rw [h2] at h; cases h
        · rename_i h; rw [h2] at h; cases h
          rw [h1, ih]
          · rw [e]; simp
          · have := congrArg List.length e
            simp at this hl
            omega
          · intro hi
            exact hno (by rw [e]; exact hi.trans ⟨u ++ [asc '?'], [], by simp⟩)
          · intro hh'
            apply hno
            rw [e]
            cases w with
            | nil => cases hh'
            | cons x w =>
              simp at hh'
              subst hh'
              exact ⟨u, w, by simp [bytes]; exact ⟨rfl, rfl⟩⟩

theorem pi_split (target gap body : List Byte) (hn : Name target) (hg : Blank gap) (hb : body ≠ [] → gap ≠ []) (hh : ∀ c, body.head? = some c → ¬ Blank [c]) :
    splitPI (target ++ gap ++ body) = (target, body) := by
  have hbs : ∀ c, body.head? = some c → isXmlSpace c = false := by
    intro c hc
    have := hh c hc
    have key : ∀ c : Byte, ¬ (c = 9 ∨ c = 10 ∨ c = 13 ∨ c = 32) → isXmlSpace c = false := by decide +kernel
    apply key
    intro h
    exact this (by intro d hd; simp at hd; subst hd; exact h)
  have hstop : ∀ c, (gap ++ body).head? = some c → isXmlSpace c = true := by
    intro c hc
    cases gap with
    | nil =>
      have : body ≠ [] := by intro e; rw [e] at hc; cases hc
      exact absurd rfl (hb this)
    | cons x g => simp at hc; rw [← hc]; exact (blank_xml x (hg x List.mem_cons_self)).1
  have t1 := (scan_stop (p := fun c => !isXmlSpace c) (a := target) (b := gap ++ body) (fun c hc => by simp [(name_byte c (hn.2 c hc)).1]) (fun c hc => by simp [hstop c hc])).1
  have t2 := (scan_stop (p := isXmlSpace) (a := gap) (b := body) (fun c hc => (blank_xml c (hg c hc)).1) hbs).2
  unfold splitPI
  simp only [List.append_assoc, t1, drop_left, t2]

theorem infix_of_append_blank {body : List Byte} (x : List Byte) (hx : asc '?' ∉ x) (h : bytes "?>" <:+: x ++ body) : bytes "?>" <:+: body := by
  induction x with
  | nil => exact h
  | cons c x ih =>
    simp only [List.mem_cons, not_or] at hx
    refine ih hx.2 ?_
    obtain ⟨a, b, e⟩ := h
    cases a with
    | nil =>
      exfalso
      have : (bytes "?>" ++ b).head? = (c :: x ++ body).head? := by rw [← e]; rfl
      simp [bytes] at this
      exact hx.1 this
    | cons d a =>
      simp at e
      exact ⟨a, b, by simpa using e.2⟩

theorem pi_read (e : XmlEnv) (f : Nat) (r : XmlRoot) (terminal : Byte) (text tail : List Byte) (h1 : ¬ bytes "?>" <:+: text) (hne : text ≠ []) (hh : text.head? ≠ some (asc '>'))
    (htail : Due terminal tail) : xmlConstruct e f terminal r (asc '?' :: (text ++ asc '?' :: tail)) = .ok (parsePI r text, some tail) := by
  have hcon : xmlConstruct e f terminal r (asc '?' :: (text ++ asc '?' :: tail)) = .ok (xmlPI terminal r (text ++ asc '?' :: tail)) := by
    unfold xmlConstruct
    simp only []
    rw [if_neg (by decide), if_neg (by decide), if_neg (by rw [List.isPrefixOf_iff_prefix]; rintro ⟨t, ht⟩; cases ht), if_neg (by rw [List.isPrefixOf_iff_prefix]; rintro ⟨t, ht⟩; cases ht),
      if_neg (by rw [List.isPrefixOf_iff_prefix]; rintro ⟨t, ht⟩; cases ht), if_pos trivial]
  rw [hcon]
  have hz : tail = [] ∨ tail.head? = some (asc '>') := by rcases htail with h | h; exact .inr h; exact .inl h.1
  unfold xmlPI
  rw [if_neg]
  · rcases first_mark text tail with ⟨_, t1, t2⟩ | ⟨u, w, eq, t1, t2⟩
    · rw [t2, t1]
      simp only []
      rw [piEnd_last _ _ hz]
      simp only []
      rw [if_neg (due_end htail)]
    · rw [t2, t1]
      simp only []
      rw [piEnd_spec tail hz w.length w u (Nat.le_refl _)]
      · simp only []
        rw [if_neg (due_end htail), eq]
      · intro hi; exact h1 (by rw [eq]; exact hi.trans ⟨u ++ [asc '?'], [], by simp⟩)
      · intro hh'
        apply h1
        rw [eq]
        cases w with
        | nil => cases hh'
        | cons x w =>
          simp at hh'
          subst hh'
          exact ⟨u, w, by simp [bytes]; exact ⟨rfl, rfl⟩⟩
  · intro h
    rcases h with h | h
    · simp at h
    · cases text with
      | nil => exact hne rfl
      | cons x t => simp at h; exact hh (by simp [h])

/-- An instruction that is not the XML declaration. -/
def addTo (r : XmlRoot) (target body : List Byte) : XmlRoot := { r with pis := addPI target body r.before r.pis }

theorem pi_item (e : XmlEnv) (f : Nat) (r : XmlRoot) (terminal : Byte) (target gap body tail : List Byte) (hw : (Items.pi target gap body .done).WF) (htail : Due terminal tail) :
    xmlConstruct e f terminal r (asc '?' :: (target ++ gap ++ body ++ asc '?' :: tail)) = .ok (addTo r target body, some tail) := by
  obtain ⟨hn, hx, hg, hb, hch, hno, hh, _⟩ := hw
  obtain ⟨c, nr, hc, hcs⟩ := hn.1
  have hnb := name_byte c (hn.2 c (by rw [hc]; exact List.mem_cons_self))
  have hq : asc '?' ∉ target ++ gap := by
    intro h
    rcases List.mem_append.mp h with h | h
    · exact (name_byte _ (hn.2 _ h)).2.2.2.2.2.2.2 rfl
    · have := (blank_xml _ (hg _ h)).1; revert this; decide
  rw [pi_read e f r terminal (target ++ gap ++ body) tail (fun h => hno (infix_of_append_blank _ hq h)) (by rw [hc]; simp) (by rw [hc]; simp; exact hnb.2.2.2.2.1) htail]
  unfold parsePI
  rw [pi_split target gap body hn hg hb hh]
  simp only []
  rw [if_neg]
  · rfl
  · intro h
    apply hx
    rw [h]
    decide +kernel

/-! ### The loop -/

/-- xml-tree.c:2341-2357 and the rest of the loop: from behind a construct on. -/
def after (e : XmlEnv) (terminal : Byte) (f : Nat) (r : XmlRoot) (p : List Byte) : Res (XmlRoot × Bool) :=
  match p.dropWhile (· != asc '<') with
  | [] => .ok (xmlFinish r)
  | _ :: q => do
    let r ← xmlText e f r (p.takeWhile (· != asc '<')) (q ++ [0])
    xmlLoop e terminal f r q

theorem loop_step {e : XmlEnv} {terminal : Byte} {f : Nat} {r r' : XmlRoot} {p q : List Byte} {c : Byte} (h : xmlConstruct e f terminal r p = .ok (r', some (c :: q))) :
    xmlLoop e terminal (f + 1) r p = after e terminal f r' q := by
  show (xmlConstruct e f terminal r p >>= _) = _
  rw [h, Res.ok_bind]
  rfl

theorem loop_end {e : XmlEnv} {terminal : Byte} {f : Nat} {r r' : XmlRoot} {p : List Byte} (h : xmlConstruct e f terminal r p = .ok (r', some [])) :
    xmlLoop e terminal (f + 1) r p = .ok (xmlFinish r') := by
  show (xmlConstruct e f terminal r p >>= _) = _
  rw [h, Res.ok_bind]

theorem text_none (e : XmlEnv) (f : Nat) (r : XmlRoot) (a : List Byte) : xmlText e f r [] a = .ok r := by
  unfold xmlText
  split
  · unfold parseCharacterContent
    split
    · rfl
    · rw [if_pos (.inr rfl)]
  · rfl

theorem after_lt (e : XmlEnv) (terminal : Byte) (f : Nat) (r : XmlRoot) (q : List Byte) : after e terminal f r (asc '<' :: q) = xmlLoop e terminal f r q := by
  unfold after
  have h1 : (asc '<' :: q).dropWhile (· != asc '<') = asc '<' :: q := by rw [List.dropWhile_cons]; simp
  have h2 : (asc '<' :: q).takeWhile (· != asc '<') = [] := by rw [List.takeWhile_cons]; simp
  rw [h1, h2]
  simp only []
  rw [text_none, Res.ok_bind]

/-- From behind a construct on the reading ends with this, given enough steps. -/
def Goes (e : XmlEnv) (terminal : Byte) (r : XmlRoot) (p : List Byte) (out : XmlRoot × Bool) : Prop := ∃ N, ∀ f ≥ N, after e terminal f r p = .ok out

theorem Goes.construct {e : XmlEnv} {terminal : Byte} {r r' : XmlRoot} {p q : List Byte} {c : Byte} {out : XmlRoot × Bool}
    (h : ∃ N, ∀ f ≥ N, xmlConstruct e f terminal r p = .ok (r', some (c :: q))) (hg : Goes e terminal r' q out) : Goes e terminal r (asc '<' :: p) out := by
  obtain ⟨N1, h1⟩ := h
  obtain ⟨N2, h2⟩ := hg
  refine ⟨max N1 N2 + 1, fun f hf => ?_⟩
  obtain ⟨f, rfl⟩ : ∃ k, f = k + 1 := ⟨f - 1, by omega⟩
  rw [after_lt, loop_step (h1 f (by omega))]
  exact h2 f (by omega)

theorem Goes.last {e : XmlEnv} {terminal : Byte} {r r' : XmlRoot} {p : List Byte}
    (h : ∃ N, ∀ f ≥ N, xmlConstruct e f terminal r p = .ok (r', some [])) : Goes e terminal r (asc '<' :: p) (xmlFinish r') := by
  obtain ⟨N1, h1⟩ := h
  refine ⟨N1 + 1, fun f hf => ?_⟩
  obtain ⟨f, rfl⟩ : ∃ k, f = k + 1 := ⟨f - 1, by omega⟩
  rw [after_lt, loop_end (h1 f (by omega))]

theorem Goes.nothing {e : XmlEnv} {terminal : Byte} {r : XmlRoot} {p : List Byte} (h : asc '<' ∉ p) : Goes e terminal r p (xmlFinish r) := by
  refine ⟨0, fun f _ => ?_⟩
  unfold after
  have := (scan_stop (p := fun c => c != asc '<') (a := p) (b := []) (fun c hc => by simp; intro e; exact h (e ▸ hc)) (fun c hc => by cases hc)).2
  rw [List.append_nil] at this
  rw [this]

theorem Goes.text {e : XmlEnv} {terminal : Byte} {r r' : XmlRoot} {raw q : List Byte} {out : XmlRoot × Bool} (h : asc '<' ∉ raw)
    (ht : ∃ N, ∀ f ≥ N, xmlText e f r raw (q ++ [0]) = .ok r') (hg : Goes e terminal r' (asc '<' :: q) out) : Goes e terminal r (raw ++ asc '<' :: q) out := by
  obtain ⟨N1, h1⟩ := ht
  obtain ⟨N2, h2⟩ := hg
  refine ⟨max N1 N2, fun f hf => ?_⟩
  have hs := scan_stop (p := fun c => c != asc '<') (a := raw) (b := asc '<' :: q) (fun c hc => by simp; intro e; exact h (e ▸ hc)) (fun c hc => by simp at hc; simp [← hc])
  have := h2 f (by omega)
  rw [after_lt] at this
  unfold after
  rw [hs.1, hs.2]
  simp only []
  rw [h1 f (by omega), Res.ok_bind, this]

/-! ### Content -/

/-- The children a tree has, each with its offset. -/
def kidsOf : XmlKids → List (Nat × Tree)
  | .nil => []
  | .cons t a c o k r => (o, .node t a c (kidsOf k)) :: kidsOf r

/-- The element. -/
def treeOf (n : XmlOpen) : Tree := .node (n.tag.getD []) n.attrs n.content (kidsOf n.kids)

theorem kidsOf_snoc : ∀ (k : XmlKids) (n : XmlOpen), kidsOf (k.snoc n) = kidsOf k ++ [(n.offset, treeOf n)] := by
  intro k n
  induction k with
  | nil => rfl
  | cons t a c o k r _ ih => show (o, Tree.node t a c (kidsOf k)) :: kidsOf (r.snoc n) = _; rw [ih]; rfl

/-- Add instructions. -/
def addAll (before : Bool) (l : List (List Byte × List Byte)) (ps : List XmlPI) : List XmlPI := l.foldl (fun a x => addPI x.1 x.2 before a) ps

theorem before_false {r : XmlRoot} (h : ∀ m, r.stack.getLast? = some m → m.tag.isSome = true) : r.before = false := by
  unfold XmlRoot.before
  split
  · rfl
  · rename_i n hn
    have := h n hn
    cases ht : n.tag with
    | none => rw [ht] at this; cases this
    | some _ => rfl

/-- The reading stands inside an element. -/
structure Inside (dtd : Dtd) (r : XmlRoot) (n : XmlOpen) (up : List XmlOpen) : Prop where
  stack : r.stack = n :: up
  tag : n.tag.isSome = true
  bottom : ∀ m, up.getLast? = some m → m.tag.isSome = true
  ignore : r.ignore = 0
  follows : Follows dtd r

theorem Inside.before {r : XmlRoot} {n : XmlOpen} {up : List XmlOpen} {dtd : Dtd} (h : Inside dtd r n up) : r.before = false := by
  refine before_false (fun m hm => ?_)
  rw [h.stack] at hm
  cases up with
  | nil => simp at hm; rw [← hm]; exact h.tag
  | cons a up => rw [List.getLast?_cons_cons] at hm; exact h.bottom m hm

theorem Inside.change {r : XmlRoot} {n n' : XmlOpen} {up : List XmlOpen} {dtd : Dtd} (h : Inside dtd r n up) (ht : n'.tag = n.tag) (ps : List XmlPI) :
    Inside dtd { r with stack := n' :: up, pis := ps } n' up :=
  ⟨rfl, by rw [ht]; exact h.tag, h.bottom, h.ignore, ⟨h.follows.texts, h.follows.entities, h.follows.types⟩⟩

theorem Inside.push {r : XmlRoot} {n : XmlOpen} {up : List XmlOpen} {dtd : Dtd} (h : Inside dtd r n up) (tag : List Byte) (vs : XmlAttrs) :
    parseOpenTag r tag vs = { r with stack := ⟨some tag, vs, [], n.content.length, .nil⟩ :: n :: up } ∧
    Inside dtd { r with stack := ⟨some tag, vs, [], n.content.length, .nil⟩ :: n :: up } ⟨some tag, vs, [], n.content.length, .nil⟩ (n :: up) := by
  constructor
  · unfold parseOpenTag
    rw [h.stack]
    simp only []
    rw [if_neg (by intro e; have := h.tag; rw [e] at this; cases this)]
  · refine ⟨rfl, rfl, fun m hm => ?_, h.ignore, ⟨h.follows.texts, h.follows.entities, h.follows.types⟩⟩
    cases up with
    | nil => simp at hm; rw [← hm]; exact h.tag
    | cons a up => rw [List.getLast?_cons_cons] at hm; exact h.bottom m hm

theorem Inside.content {e : XmlEnv} {f : Nat} {r : XmlRoot} {n : XmlOpen} {up : List XmlOpen} {dtd : Dtd} (h : Inside dtd r n up) {raw aft : List Byte} (hne : raw ≠ []) {st : XmlState} {v : List Byte}
    (hp : parseEntities e.junk f (raw ++ 0 :: aft) r.entities st = .ok v) :
    parseCharacterContent e f r raw aft st = .ok { r with stack := { n with content := n.content ++ v } :: up } := by
  unfold parseCharacterContent
  rw [h.stack]
  simp only []
  rw [if_neg (by intro hx; rcases hx with hx | hx; (have := h.tag; rw [hx] at this; cases this); exact hne hx), hp, Res.ok_bind]

theorem items_go (e : XmlEnv) (dtd : Dtd) (terminal : Byte) : ∀ (items : Items), items.WF → Simple items → ∀ (s c : List Byte) (ks : List (Nat × Tree)), Denotes dtd items s c ks →
    ∀ (r : XmlRoot) (n : XmlOpen) (up : List XmlOpen), Inside dtd r n up → n.content = s → ∀ (q : List Byte),
      ∃ kids', kidsOf kids' = kidsOf n.kids ++ ks ∧ ∀ out,
        Goes e terminal { r with stack := { n with content := c, kids := kids' } :: up, pis := addAll false items.pis r.pis } (asc '<' :: q) out →
        Goes e terminal r (items.render ++ asc '<' :: q) out := by
  have b1 : bytes "<" = [asc '<'] := by decide +kernel
  have b2 : bytes ">" = [asc '>'] := by decide +kernel
  have b3 : bytes "</" = [asc '<', asc '/'] := by decide +kernel
  have b4 : bytes "/>" = [asc '/', asc '>'] := by decide +kernel
  have b5 : bytes "<!--" = asc '<' :: bytes "!--" := by decide +kernel
  have b6 : bytes "<![CDATA[" = asc '<' :: bytes "![CDATA[" := by decide +kernel
  have b7 : bytes "<?" = [asc '<', asc '?'] := by decide +kernel
  have b8 : bytes "?>" = [asc '?', asc '>'] := by decide +kernel
  have b9 : bytes "-->" = bytes "--" ++ [asc '>'] := by decide +kernel
  intro items
  induction items with
  | done =>
    intro _ _ s c ks hd r n up hi hs q
    cases hd
    refine ⟨n.kids, by simp, fun out hg => ?_⟩
    have : ({ r with stack := { n with content := s, kids := n.kids } :: up, pis := addAll false Items.done.pis r.pis } : XmlRoot) = r := by
      rw [← hs]
      show ({ r with stack := n :: up, pis := r.pis } : XmlRoot) = r
      rw [← hi.stack]
    rw [this] at hg
    exact hg
  | text raw rest ih =>
    intro hw hsim s c ks hd r n up hi hs q
    obtain ⟨hne, hch, hlt, hnt, hwr⟩ := hw
    obtain ⟨hew, hsr⟩ := hsim
    cases hd with
    | text hm hd =>
      rename_i v
      have hi' := hi.change (n' := { n with content := n.content ++ v }) rfl r.pis
      obtain ⟨kids', hk, hgo⟩ := ih hwr hsr _ _ _ hd _ _ _ hi' (by rw [hs]) q
      refine ⟨kids', hk, fun out hg => ?_⟩
      have h2 := hgo out hg
      have hx : ∃ q', rest.render ++ asc '<' :: q = asc '<' :: q' := by
        cases rest with
        | text _ _ => cases hnt
        | done => exact ⟨q, rfl⟩
        | cdata _ _ => exact ⟨_, by rw [Items.render, b6]; rfl⟩
        | comment _ _ => exact ⟨_, by rw [Items.render, b5]; rfl⟩
        | pi _ _ _ _ => exact ⟨_, by rw [Items.render, b7]; rfl⟩
        | doctype _ _ => exact ⟨_, by rw [Items.render]; rfl⟩
        | elem _ _ _ _ _ _ => exact ⟨_, by rw [Items.render, b1]; rfl⟩
        | empty _ _ _ _ => exact ⟨_, by rw [Items.render, b1]; rfl⟩
      obtain ⟨q', hq'⟩ := hx
      show Goes e terminal r (raw ++ rest.render ++ asc '<' :: q) out
      rw [List.append_assoc, hq']
      rw [hq'] at h2
      refine Goes.text (by intro hx; exact hlt hx) ?_ h2
      obtain ⟨N, hN⟩ := C84_decode_partial e.junk dtd.entities hi.follows.texts.sensible hi.follows.texts.nonempty raw v (q' ++ [0]) (chars_no_nul hch) hew hm
      refine ⟨N, fun f hf => ?_⟩
      unfold xmlText
      rw [if_pos hi.ignore]
      exact hi.content hne (by rw [hi.follows.entities]; exact hN f hf)
  | cdata raw rest ih =>
    intro hw hsim s c ks hd r n up hi hs q
    obtain ⟨hch, hno, hwr⟩ := hw
    obtain ⟨hew, hsr⟩ := hsim
    cases hd with
    | cdata hd =>
      have hi' := hi.change (n' := { n with content := n.content ++ lines raw }) rfl r.pis
      obtain ⟨kids', hk, hgo⟩ := ih hwr hsr _ _ _ hd _ _ _ hi' (by rw [hs]) q
      refine ⟨kids', hk, fun out hg => ?_⟩
      have h2 := hgo out hg
      have er : (Items.cdata raw rest).render ++ asc '<' :: q = asc '<' :: (bytes "![CDATA[" ++ raw ++ bytes "]]>" ++ (rest.render ++ asc '<' :: q)) := by
        rw [Items.render, b6]; simp
      rw [er]
      refine Goes.construct (c := asc '>') ?_ h2
      by_cases hne : raw = []
      · subst hne
        refine ⟨0, fun f _ => ?_⟩
        refine cdata_read e f r _ hi.ignore terminal [] _ hno ?_
        unfold parseCharacterContent
        rw [hi.stack]
        simp only []
        rw [if_pos (by right; trivial)]
        have : n.content ++ lines [] = n.content := by unfold lines; simp
        rw [this, ← hi.stack]
      · obtain ⟨N, hN⟩ := C85_lines_partial e.junk r.entities raw ((bytes "]]>" ++ (rest.render ++ asc '<' :: q)).drop 1 ++ [0]) (chars_no_nul hch) hew
        exact ⟨N, fun f hf => cdata_read e f r _ hi.ignore terminal raw _ hno (hi.content hne (hN f hf))⟩
  | comment raw rest ih =>
    intro hw hsim s c ks hd r n up hi hs q
    obtain ⟨hch, hno, hnd, hwr⟩ := hw
    cases hd with
    | comment hd =>
      obtain ⟨kids', hk, hgo⟩ := ih hwr hsim _ _ _ hd _ _ _ hi hs q
      refine ⟨kids', hk, fun out hg => ?_⟩
      have h2 := hgo out hg
      have er : (Items.comment raw rest).render ++ asc '<' :: q = asc '<' :: (bytes "!--" ++ raw ++ bytes "--" ++ (asc '>' :: (rest.render ++ asc '<' :: q))) := by
        rw [Items.render, b5, b9]; simp
      rw [er]
      exact Goes.construct ⟨0, fun f _ => comment_read e r terminal raw _ hno hnd (.inl rfl) f⟩ h2
  | pi target gap body rest ih =>
    intro hw hsim s c ks hd r n up hi hs q
    obtain ⟨h1, h2, h3, h4, h5, h6, h7, hwr⟩ := hw
    cases hd with
    | pi hd =>
      have hi' := hi.change (n' := n) rfl (addPI target body false r.pis)
      obtain ⟨kids', hk, hgo⟩ := ih hwr hsim _ _ _ hd _ _ _ hi' hs q
      refine ⟨kids', hk, fun out hg => ?_⟩
      have h2' := hgo out hg
      have er : (Items.pi target gap body rest).render ++ asc '<' :: q = asc '<' :: (asc '?' :: (target ++ gap ++ body ++ asc '?' :: (asc '>' :: (rest.render ++ asc '<' :: q)))) := by
        rw [Items.render, b7, b8]; simp
      rw [er]
      refine Goes.construct (c := asc '>') ⟨0, fun f _ => ?_⟩ h2'
      rw [pi_item e f r terminal target gap body (asc '>' :: (rest.render ++ asc '<' :: q)) ⟨h1, h2, h3, h4, h5, h6, h7, trivial⟩ (.inl rfl)]
      unfold addTo
      rw [hi.before, ← hi.stack]
  | doctype raw rest ih => intro _ _ s c ks hd; cases hd
  | elem tag atts gap body gap' rest ihb ihr =>
    intro hw hsim s c ks hd r n up hi hs q
    obtain ⟨hn, hwa, hg, hwb, hg', hwr⟩ := hw
    obtain ⟨hk, hsa, hsb, hsr⟩ := hsim
    cases hd with
    | elem hm hdb hdr =>
      rename_i ks vs c' ks'
      obtain ⟨hop, hi1⟩ := hi.push tag vs
      obtain ⟨kids1, hk1, hgo1⟩ := ihb hwb hsb _ _ _ hdb _ _ _ hi1 rfl (asc '/' :: (tag ++ gap' ++ asc '>' :: (rest.render ++ asc '<' :: q)))
      have hi2 := hi.change (n' := { n with kids := n.kids.snoc ⟨some tag, vs, c', n.content.length, kids1⟩ }) rfl (addAll false body.pis r.pis)
      obtain ⟨kids', hk', hgo2⟩ := ihr hwr hsr _ _ _ hdr _ _ _ hi2 hs q
      refine ⟨kids', ?_, fun out hgx => ?_⟩
      · rw [hk', kidsOf_snoc]
        have : treeOf ⟨some tag, vs, c', n.content.length, kids1⟩ = .node tag vs c' ks' := by
          show Tree.node tag vs c' (kidsOf kids1) = _
          rw [hk1]; rfl
        rw [this, hs]
        simp
      · have hpis : addAll false (Items.elem tag atts gap body gap' rest).pis r.pis = addAll false rest.pis (addAll false body.pis r.pis) := by
          show addAll false (body.pis ++ rest.pis) r.pis = _
          unfold addAll; rw [List.foldl_append]
        rw [hpis] at hgx
        have h2 := hgo2 out hgx
        have er : (Items.elem tag atts gap body gap' rest).render ++ asc '<' :: q = asc '<' :: (tag ++ renderAtts atts ++ gap ++ asc '>' :: (body.render ++ asc '<' :: (asc '/' :: (tag ++ gap' ++ asc '>' :: (rest.render ++ asc '<' :: q))))) := by
          rw [Items.render, b1, b2, b3]; simp
        rw [er]
        refine Goes.construct (open_read e r hi.follows hi.ignore (by rw [hi.stack]; simp) terminal tag gap hn hk hg _ atts vs hwa hsa hm) ?_
        rw [hop]
        refine hgo1 out ?_
        refine Goes.construct ⟨0, fun f _ => close_read e (r := { r with stack := { tag := some tag, attrs := vs, content := c', offset := n.content.length, kids := kids1 } :: n :: up, pis := addAll false body.pis r.pis }) hi.ignore terminal tag gap' hn hg' (asc '>' :: (rest.render ++ asc '<' :: q)) (.inl rfl) _ ?_ f⟩ h2
        unfold parseCloseTag
        simp
  | empty tag atts gap rest ihr =>
    intro hw hsim s c ks hd r n up hi hs q
    obtain ⟨hn, hwa, hg, hwr⟩ := hw
    obtain ⟨hk, hsa, hsr⟩ := hsim
    cases hd with
    | empty hm hdr =>
      rename_i ks vs
      obtain ⟨hop, hi1⟩ := hi.push tag vs
      have hi2 := hi.change (n' := { n with kids := n.kids.snoc ⟨some tag, vs, [], n.content.length, .nil⟩ }) rfl r.pis
      obtain ⟨kids', hk', hgo2⟩ := ihr hwr hsr _ _ _ hdr _ _ _ hi2 hs q
      refine ⟨kids', ?_, fun out hgx => ?_⟩
      · rw [hk', kidsOf_snoc]
        have : treeOf ⟨some tag, vs, [], n.content.length, .nil⟩ = .node tag vs [] [] := rfl
        rw [this, hs]
        simp
      · have h2 := hgo2 out hgx
        have er : (Items.empty tag atts gap rest).render ++ asc '<' :: q = asc '<' :: (tag ++ renderAtts atts ++ gap ++ asc '/' :: (asc '>' :: (rest.render ++ asc '<' :: q))) := by
          rw [Items.render, b1, b4]; simp
        rw [er]
        refine Goes.construct (empty_read e r hi.follows hi.ignore (by rw [hi.stack]; simp) terminal tag gap hn hk hg _ (.inl rfl) atts vs hwa hsa hm _ ?_) h2
        rw [hop]
        unfold parseCloseTag
        simp

end Wizard.XmlP

import Verif.Lemmas.Doctype
import Verif.Props.XmlDoc
/-! C163: the declarations of a document type. -/
namespace Wizard.Props
open Wizard Wizard.Spec.Xml Wizard.XmlP Wizard.DocP

theorem find_stored (val : AttDef → Option (List Byte)) (name : List Byte) : ∀ (defs : List AttDef), (defs.map (·.name)).Nodup →
    (∀ a ∈ defs, AttDefault.hasValue a.dflt = false → val a = none) →
    (match (stored val defs).find? (fun x => x.1 == name) with | none => none | some x => x.2.1) =
      (match defs.find? (fun a => a.name == name) with | none => none | some a => val a) := by
  intro defs
  induction defs with
  | nil => intro _ _; rfl
  | cons a ds ih =>
    intro hn hv
    simp only [List.map_cons, List.nodup_cons] at hn
    have ih := ih hn.2 (fun b hb => hv b (List.mem_cons_of_mem _ hb))
    have hs : stored val (a :: ds) = stored val [a] ++ stored val ds := by simp [stored]
    rw [hs, List.find?_cons]
    by_cases hname : a.name = name
    · have hb : (a.name == name) = true := by simpa using hname
      rw [hb]
      by_cases hc : a.type = .cdata ∧ AttDefault.hasValue a.dflt = false
      · have h1 : stored val [a] = [] := by simp [stored, hc.1, hc.2]
        rw [h1, List.nil_append, ih]
        have : ds.find? (fun a => a.name == name) = none := by
          rw [List.find?_eq_none]
          intro b hb hbn
          exact hn.1 (by rw [hname, ← (by simpa using hbn : b.name = name)]; exact List.mem_map_of_mem hb)
        rw [this]
        exact (hv a List.mem_cons_self hc.2).symm
      · have h1 : stored val [a] = [(a.name, val a, stateOf a.type)] := by simp only [stored, List.flatMap_cons, List.flatMap_nil, List.append_nil]; rw [if_neg hc]
        rw [h1, List.cons_append, List.find?_cons]
        simp only [hb]
    · have hb : (a.name == name) = false := by simpa using hname
      rw [hb]
      simp only []
      rw [← ih]
      by_cases hc : a.type = .cdata ∧ AttDefault.hasValue a.dflt = false
      · have h1 : stored val [a] = [] := by simp [stored, hc.1, hc.2]
        rw [h1, List.nil_append]
      · have h1 : stored val [a] = [(a.name, val a, stateOf a.type)] := by simp only [stored, List.flatMap_cons, List.flatMap_nil, List.append_nil]; rw [if_neg hc]
        rw [h1, List.cons_append, List.nil_append, List.find?_cons]
        simp only [hb]

theorem default_found (tag : List Byte) (l : List (List Byte × Option (List Byte) × XmlState)) (attrs : XmlAttrs) (name : List Byte) (hn : attrs.find? (fun a => a.1 == name) = none) :
    getXMLTreeAttribute (oneTag tag l) tag attrs name = (match l.find? (fun x => x.1 == name) with | none => none | some x => x.2.1) := by
  unfold getXMLTreeAttribute oneTag
  rw [hn]
  by_cases h : l = []
  · subst h; rfl
  · rw [if_neg h]
    simp only [List.find?_cons, beq_self_eq_true]
    cases l.find? (fun x => x.1 == name) <;> rfl

theorem default_other (tag tag' : List Byte) (l : List (List Byte × Option (List Byte) × XmlState)) (attrs : XmlAttrs) (name : List Byte) (hn : attrs.find? (fun a => a.1 == name) = none) (ht : tag' ≠ tag) :
    getXMLTreeAttribute (oneTag tag l) tag' attrs name = none := by
  unfold getXMLTreeAttribute oneTag
  rw [hn]
  by_cases h : l = []
  · subst h; rfl
  · rw [if_neg h]
    have : (tag == tag') = false := by simpa using fun e => ht e.symm
    simp [this]

theorem blank_end {junk : Nat → Byte} {s : DocState} {t : List Byte} (h : Blank t) : Leads junk s t (some s) := by
  have := Leads.skip (junk := junk) (s := s) (p := []) t (fun c hc => blank_skips c (h c hc)) Leads.end_
  simpa using this

/-- The reading of a list of attributes that white space follows. -/
theorem list_end (junk : Nat → Byte) (decls : List (List Byte × List Byte)) (ht : Texts decls) (l : AttList) (hw : l.WF) (hf : ∀ a ∈ l.defs, FitDefault a.dflt)
    (val : AttDef → Option (List Byte)) (hv : ∀ a ∈ l.defs, a.Gives decls (val a)) (blank : List Byte) (hb : Blank blank) (s : DocState) (hs : s.root.entities = predefinedEntities ++ entTable decls) (hd : s.root.defaults = []) :
    ∃ s', Leads junk s (l.render ++ blank) (some s') ∧ s'.root = { s.root with defaults := oneTag l.tag (stored val l.defs) } := by
  have er : ∃ q, l.render ++ blank = asc '<' :: q := ⟨_, rfl⟩
  by_cases hne : l.defs ≠ [] ∨ l.gap' ≠ []
  · obtain ⟨f0, h0⟩ := attlist_read junk decls ht l hw hf val hv blank hne
    refine ⟨afterList s l.tag (stored val l.defs), ?_, rfl⟩
    obtain ⟨q, hq⟩ := er
    cases he : endOf .cut l.defs (l.gap' ++ asc '>' :: blank) with
    | cut =>
      rw [hq]
      refine .last lt_stops ⟨f0, fun f hge => ?_⟩
      rw [← hq, h0 f hge s hs hd, he]
    | «at» p =>
      have hp : p = 68 :: (l.gap' ++ asc '>' :: blank) := by
        rcases List.eq_nil_or_concat l.defs with h | ⟨ds, a, h⟩
        · rw [h] at he; cases he
        · rw [h, List.concat_eq_append, endOf_snoc] at he
          split at he
          · cases he
          · cases he; rfl
      have hlen : p.length < (asc '<' :: q).length := by
        rw [← hq, hp]
        have : 9 ≤ (bytes "<!ATTLIST").length := by decide +kernel
        simp only [AttList.render, List.length_append, List.length_cons, show (bytes ">").length = 1 by decide +kernel]
        omega
      rw [hq]
      refine .turn (s' := afterList s l.tag (stored val l.defs)) (p' := p) lt_stops ⟨f0, fun f hge => ?_⟩ hlen ?_
      · rw [← hq, h0 f hge s hs hd, he]
      · rw [hp]
        refine Leads.skip [68] (by decide) (p := l.gap' ++ asc '>' :: blank) ?_
        exact Leads.gt l.gap' hw.2.2.2 (blank_end hb)
  · have h1 : l.defs = [] := Classical.byContradiction fun h => hne (.inl h)
    have h2 : l.gap' = [] := Classical.byContradiction fun h => hne (.inr h)
    refine ⟨s, ?_, ?_⟩
    · obtain ⟨hg, hn, _, _⟩ := hw
      have er' : l.render ++ blank = bytes "<!ATTLIST" ++ (l.gap ++ (l.tag ++ asc '>' :: blank)) := by
        unfold AttList.render
        rw [h1, h2]
        simp [show bytes ">" = [asc '>'] by decide +kernel]
      rw [er']
      refine .turn (s' := s) (p' := asc '>' :: blank) lt_stops ⟨0, fun f _ => ?_⟩ ?_ (.gt [] (by simp [Blank]) (blank_end hb))
      · refine (turn_attlist junk f s _).trans ?_
        obtain ⟨n0, hn0, hnm, hns⟩ := name_head (x := asc '>' :: blank) hn
        unfold docAttlist
        simp only []
        rw [drop_gap hg.2 (fun x hx => by rw [hn0] at hx; cases hx; exact hns), if_neg (by intro h; rw [h] at hn0; cases hn0)]
        have t := scan_stop (p := fun c => !isXmlSpace c && c != asc '>') (a := l.tag) (b := asc '>' :: blank)
          (fun x hx => by simp [(name_byte x (hn.2 x hx)).1, (name_byte x (hn.2 x hx)).2.2.2.2.1]) (fun x hx => by simp at hx; subst hx; simp)
        rw [t.1, t.2, if_pos List.head?_cons]
      · simp; omega
    · rw [h1]
      show s.root = { s.root with defaults := [] }
      rw [← hd]

/-- The defaults that one list leaves. -/
def listDefaults (val : AttDef → Option (List Byte)) : Option AttList → List XmlDefaults
  | none => []
  | some x => oneTag x.tag (stored val x.defs)

/-- What the reading of the declarations leaves. -/
theorem subset_read (junk : Nat → Byte) (r : XmlRoot) (hr : r.entities = predefinedEntities) (hd : r.defaults = [])
    (ds : List Decl) (hw : ∀ d ∈ ds, d.WF) (hf : ∀ d ∈ ds, Fit d) (ht : Texts (generals ds))
    (l : Option AttList) (hlw : ∀ x, l = some x → x.WF ∧ (x.defs.map (·.name)).Nodup ∧ ∀ a ∈ x.defs, FitDefault a.dflt)
    (val : AttDef → Option (List Byte)) (hv : ∀ x, l = some x → ∀ a ∈ x.defs, a.Gives (generals ds) (val a)) (blank : List Byte) (hb : Blank blank) :
    ∃ f0, ∀ f ≥ f0, parseInternalDoctype junk f r (subsetText ds l blank) =
      .ok (some { r with entities := predefinedEntities ++ entTable (generals ds), pis := addAll r.before (declPIs ds) r.pis, defaults := listDefaults val l }) := by
  have hroot := after_decls ds ⟨r, [], none⟩
  simp only [hr] at hroot
  obtain ⟨s', hs', hs'r⟩ : ∃ s', Leads junk (ds.foldl afterDecl ⟨r, [], none⟩) ((l.map AttList.render).getD [] ++ blank) (some s') ∧
      s'.root = { (ds.foldl afterDecl ⟨r, [], none⟩).root with defaults := listDefaults val l } := by
    cases l with
    | none => exact ⟨_, blank_end hb, by rw [hroot]; simp only [listDefaults]; rw [← hd]⟩
    | some x => exact list_end junk (generals ds) ht x (hlw x rfl).1 (hlw x rfl).2.2 val (hv x rfl) blank hb _ (by rw [hroot]) (by rw [hroot]; exact hd)
  have := (decls_read junk ds _ _ _ hw hf hs').parse
  rw [hs'r, hroot] at this
  exact this

/-- **C163** (partial) The declarations between the brackets of a document type: entities, elements, notations, comments, processing
instructions, and then one list of attributes.  Behind them every reference to a declared entity reads as the text of its first
declaration; an element of the listed tag that does not set an attribute has the declared default, with white space and words as its type
says, and no other element has; and the processing instructions are known.  Missing: what follows a list of attributes
(`C163_behind_violated`), a second list for an element (`C163_again_violated`), entities whose name does not start with an ASCII letter
(`C163_name_violated`), literals with a `>` (`C163_literal_violated`), a `]` among the declarations (`C163_bracket_violated`), and entities whose text is empty, has references (`C55_refused`), or
ends in a line end. -/
theorem C163_declared_partial (junk : Nat → Byte) (r : XmlRoot) (hr : r.entities = predefinedEntities) (hd : r.defaults = [])
    (ds : List Decl) (hw : ∀ d ∈ ds, d.WF) (hf : ∀ d ∈ ds, Fit d) (ht : Texts (generals ds))
    (l : Option AttList) (hlw : ∀ x, l = some x → x.WF ∧ (x.defs.map (·.name)).Nodup ∧ ∀ a ∈ x.defs, FitDefault a.dflt)
    (val : AttDef → Option (List Byte)) (hv : ∀ x, l = some x → ∀ a ∈ x.defs, a.Gives (generals ds) (val a)) (blank : List Byte) (hb : Blank blank) :
    ∃ r', (∃ f0, ∀ f ≥ f0, parseInternalDoctype junk f r (subsetText ds l blank) = .ok (some r')) ∧
      (∀ s o after, Chars s → EndsWell s → Means content (generals ds) (lines s) o → ∃ f0, ∀ f ≥ f0, parseEntities junk f (s ++ 0 :: after) r'.entities .general = .ok o) ∧
      (∀ tag attrs name v, attrs.find? (fun a => a.1 == name) = some (name, v) → getXMLTreeAttribute r'.defaults tag attrs name = v) ∧
      (∀ x, l = some x → ∀ attrs a, a ∈ x.defs → attrs.find? (fun b => b.1 == a.name) = none → getXMLTreeAttribute r'.defaults x.tag attrs a.name = val a) ∧
      (∀ tag attrs name, (∀ x, l = some x → x.tag = tag → name ∉ x.defs.map (·.name)) → attrs.find? (fun b => b.1 == name) = none → getXMLTreeAttribute r'.defaults tag attrs name = none) ∧
      (∀ target, getPIs r' target = getPIs r target ++ ((declPIs ds).filter (fun x => x.1 = target)).map (·.2)) := by
  refine ⟨_, subset_read junk r hr hd ds hw hf ht l hlw val hv blank hb, ?_, ?_, ?_, ?_, ?_⟩
  · intro s o after hc he hm
    exact C84_decode_partial junk (generals ds) ht.sensible ht.nonempty s o after (chars_no_nul hc) he hm
  · intro tag attrs name v h
    unfold getXMLTreeAttribute
    rw [h]
  · intro x hx attrs a ha hn
    subst hx
    show getXMLTreeAttribute (oneTag x.tag (stored val x.defs)) x.tag attrs a.name = val a
    rw [default_found _ _ _ _ hn]
    rw [find_stored val a.name x.defs (hlw x rfl).2.1 (fun b hb hno => by
      have := hv x rfl b hb
      unfold AttDef.Gives at this
      cases hbd : b.dflt <;> rw [hbd] at this hno <;> first | exact this | cases hno)]
    have hnd := (hlw x rfl).2.1
    have : x.defs.find? (fun b => b.name == a.name) = some a := by
      clear hlw hv
      generalize x.defs = defs at ha hnd
      induction defs with
      | nil => cases ha
      | cons b bs ih =>
        simp only [List.map_cons, List.nodup_cons] at hnd
        rw [List.find?_cons]
        rcases List.mem_cons.mp ha with rfl | h
        · simp
        · have : (b.name == a.name) = false := by
            simp only [beq_eq_false_iff_ne, ne_eq]
            intro e
            exact hnd.1 (by rw [e]; exact List.mem_map_of_mem h)
          rw [this]
          exact ih h hnd.2
    rw [this]
  · intro tag attrs name hno hn
    cases l with
    | none => unfold getXMLTreeAttribute; rw [hn]; rfl
    | some x =>
      by_cases htag : tag = x.tag
      · subst htag
        show getXMLTreeAttribute (oneTag x.tag (stored val x.defs)) x.tag attrs name = none
        rw [default_found _ _ _ _ hn, find_stored val name x.defs (hlw x rfl).2.1 (fun b hb hno => by
          have := hv x rfl b hb
          unfold AttDef.Gives at this
          cases hbd : b.dflt <;> rw [hbd] at this hno <;> first | exact this | cases hno)]
        have : x.defs.find? (fun b => b.name == name) = none := by
          rw [List.find?_eq_none]
          intro b hb hbn
          exact hno x rfl rfl (by rw [← (by simpa using hbn : b.name = name)]; exact List.mem_map_of_mem hb)
        rw [this]
      · exact default_other _ _ _ _ _ hn htag
  · intro target
    exact get_all target _ _ _

/-! ### Where the declarations are -/

theorem subset_end (ws z : List Byte) (hws : Blank ws) : ∀ (n : Nat) (s : List Byte) (c : Byte), s.length ≤ n → asc ']' ∉ s → c ≠ asc ']' →
    doctypeEnd true (c :: (s ++ (asc ']' :: (ws ++ asc '>' :: z)))) = (true, asc ']' :: (ws ++ asc '>' :: z)) := by
  have hlast : doctypeEnd true (asc ']' :: (ws ++ asc '>' :: z)) = (true, asc ']' :: (ws ++ asc '>' :: z)) := by
    rw [doctypeEnd.eq_def]
    simp only []
    rw [drop_gap hws (fun c hc => by simp at hc; rw [← hc]; decide), if_neg]
    rintro (⟨h, _⟩ | ⟨_, h | h⟩)
    · cases h
    · exact h rfl
    · exact h rfl
  intro n
  induction n with
  | zero =>
    intro s c hl _ hc
    have : s = [] := List.eq_nil_of_length_eq_zero (by omega)
    subst this
    rw [doctypeEnd.eq_def]
    simp only []
    rw [if_pos (.inr ⟨trivial, .inl hc⟩)]
    have : ([] ++ asc ']' :: (ws ++ asc '>' :: z)).dropWhile (fun c => c != asc '[' && c != asc ']' && c != asc '>') = asc ']' :: (ws ++ asc '>' :: z) := by
      rw [List.nil_append, List.dropWhile_cons, if_neg (by decide)]
    rw [this, if_neg (by rw [List.head?_cons]; decide)]
    exact hlast
  | succ n ih =>
    intro s c hl hs hc
    rw [doctypeEnd.eq_def]
    simp only []
    rw [if_pos (.inr ⟨trivial, .inl hc⟩)]
    have hsplit : s = s.takeWhile (fun c => c != asc '[' && c != asc ']' && c != asc '>') ++ s.dropWhile (fun c => c != asc '[' && c != asc ']' && c != asc '>') := List.takeWhile_append_dropWhile.symm
    cases hd : s.dropWhile (fun c => c != asc '[' && c != asc ']' && c != asc '>') with
    | nil =>
      rw [hd, List.append_nil] at hsplit
      have : (s ++ asc ']' :: (ws ++ asc '>' :: z)).dropWhile (fun c => c != asc '[' && c != asc ']' && c != asc '>') = asc ']' :: (ws ++ asc '>' :: z) := by
        rw [hsplit]
        refine (scan_stop (fun x hx => mem_takeWhile _ _ _ hx) (fun x hx => by simp at hx; rw [← hx]; decide)).2
      rw [this, if_neg (by rw [List.head?_cons]; decide)]
      exact hlast
    | cons x t =>
      rw [hd] at hsplit
      have hx : (x != asc '[' && x != asc ']' && x != asc '>') = false := by
        have := List.head?_dropWhile_not (fun c => c != asc '[' && c != asc ']' && c != asc '>') s
        rw [hd] at this
        simpa using this
      have : (s ++ asc ']' :: (ws ++ asc '>' :: z)).dropWhile (fun c => c != asc '[' && c != asc ']' && c != asc '>') = x :: (t ++ asc ']' :: (ws ++ asc '>' :: z)) := by
        rw [hsplit, List.append_assoc]
        refine (scan_stop (fun y hy => mem_takeWhile _ _ _ hy) (fun y hy => by simp at hy; rw [← hy]; exact hx)).2
      rw [this]
      have hl2 := congrArg List.length hsplit
      simp only [List.length_append, List.length_cons] at hl2
      have hm : asc ']' ∉ x :: t := fun h => hs (by rw [hsplit]; exact List.mem_append_right _ h)
      simp only [List.mem_cons, not_or] at hm
      have : (if (x :: (t ++ asc ']' :: (ws ++ asc '>' :: z))).head? = some (asc '[') then true else true) = true := by split <;> rfl
      rw [this]
      exact ih t x (by omega) hm.2 (fun e => hm.1 e.symm)

/-- **C163** (partial) The declarations that are read are those between the brackets, if no `]` is among them, and the document goes on
behind the `>`.  Missing: declarations with a `]` (`C163_bracket_violated`). -/
theorem C163_placed_partial (e : XmlEnv) (f : Nat) (r : XmlRoot) (terminal : Byte) (raw subset ws z : List Byte) (h1 : (91 : Byte) ∉ raw) (h2 : (93 : Byte) ∉ raw) (h3 : (62 : Byte) ∉ raw)
    (hs : (93 : Byte) ∉ subset) (hws : Blank ws) :
    xmlConstruct e f terminal r (bytes "!DOCTYPE" ++ (raw ++ (asc '[' :: (subset ++ (asc ']' :: (ws ++ asc '>' :: z)))))) = (do
      match ← e.doctype r subset with
      | none => .ok (r, none)
      | some r' => .ok (r', some (ws ++ asc '>' :: z))) := by
  have hcon : ∀ x, xmlConstruct e f terminal r (bytes "!DOCTYPE" ++ x) = xmlDoctype e terminal r (bytes "!DOCTYPE" ++ x) := by
    intro x
    show xmlConstruct e f terminal r (33 :: 68 :: 79 :: 67 :: 84 :: 89 :: 80 :: 69 :: x) = _
    unfold xmlConstruct
    simp only []
    rw [if_neg (by decide), if_neg (by decide), if_neg (by rw [List.isPrefixOf_iff_prefix]; rintro ⟨t, ht⟩; cases ht), if_neg (by rw [List.isPrefixOf_iff_prefix]; rintro ⟨t, ht⟩; cases ht),
      if_pos (by rw [List.isPrefixOf_iff_prefix]; exact ⟨_, rfl⟩)]
    rfl
  rw [hcon]
  have hstop : ∀ c ∈ bytes "DOCTYPE" ++ raw, c ≠ asc '[' ∧ c ≠ asc ']' ∧ c ≠ asc '>' := by
    intro c hc
    rcases List.mem_append.mp hc with h | h
    · have key : ∀ c ∈ bytes "DOCTYPE", c ≠ asc '[' ∧ c ≠ asc ']' ∧ c ≠ asc '>' := by decide +kernel
      exact key c h
    · exact ⟨fun e => h1 (by subst e; exact h), fun e => h2 (by subst e; exact h), fun e => h3 (by subst e; exact h)⟩
  have hend : doctypeEnd false (bytes "!DOCTYPE" ++ (raw ++ (asc '[' :: (subset ++ (asc ']' :: (ws ++ asc '>' :: z)))))) = (true, asc ']' :: (ws ++ asc '>' :: z)) := by
    show doctypeEnd false (33 :: (bytes "DOCTYPE" ++ (raw ++ (asc '[' :: (subset ++ (asc ']' :: (ws ++ asc '>' :: z))))))) = _
    rw [doctypeEnd.eq_def]
    simp only []
    rw [if_pos (.inl ⟨trivial, by decide⟩)]
    have hd := (scan_stop (p := fun c => c != asc '[' && c != asc ']' && c != asc '>') (a := bytes "DOCTYPE" ++ raw) (b := asc '[' :: (subset ++ (asc ']' :: (ws ++ asc '>' :: z))))
      (fun c hc => by obtain ⟨a, b, d⟩ := hstop c hc; simp [a, b, d]) (fun c hc => by simp at hc; rw [← hc]; decide)).2
    rw [← List.append_assoc, hd, if_pos List.head?_cons]
    exact subset_end ws z hws subset.length subset (asc '[') (Nat.le_refl _) hs (by decide)
  unfold xmlDoctype
  rw [hend]
  simp only []
  rw [if_neg (by simp), if_pos trivial]
  have ht : (bytes "!DOCTYPE" ++ (raw ++ (asc '[' :: (subset ++ (asc ']' :: (ws ++ asc '>' :: z)))))).dropWhile (· != asc '[') = asc '[' :: (subset ++ (asc ']' :: (ws ++ asc '>' :: z))) := by
    rw [← List.append_assoc]
    refine (scan_stop (fun c hc => ?_) (fun c hc => by simp at hc; rw [← hc]; decide)).2
    have : bytes "!DOCTYPE" = 33 :: bytes "DOCTYPE" := by decide +kernel
    rw [this] at hc
    rcases List.mem_cons.mp hc with rfl | h
    · decide
    · simp [(hstop c h).1]
  rw [ht]
  simp only [List.drop_succ_cons, List.drop_zero]
  have : (subset ++ asc ']' :: (ws ++ asc '>' :: z)).take ((subset ++ asc ']' :: (ws ++ asc '>' :: z)).length - (asc ']' :: (ws ++ asc '>' :: z)).length) = subset := by
    rw [List.length_append, Nat.add_sub_cancel, List.take_left' rfl]
  rw [this]
  refine congrArg (Bind.bind _) (funext fun x => ?_)
  cases x <;> rfl

/-! ### An example -/

/-- `<!ENTITY e "x">⏎<!ENTITY % p 'y'><!ELEMENT a (#PCDATA)><!-- c --><?t b?>` -/
def sampleDecls : List Decl :=
  [.entity (bytes " ") (bytes "e") (bytes " ") 34 (bytes "x") [], .blank (bytes "\n"), .param (bytes " ") (bytes " ") (bytes "p") (bytes " ") 39 (bytes "y") [],
   .element (bytes " a (#PCDATA)"), .comment (bytes " c "), .pi (bytes "t") (bytes " ") (bytes "b")]

/-- `<!ATTLIST a b CDATA #IMPLIED c NMTOKENS " 1  2 " d (x|y) #FIXED 'x'>` -/
def sampleList : AttList :=
  ⟨bytes " ", bytes "a", [⟨bytes " ", bytes "b", bytes " ", .cdata, bytes " ", .implied⟩,
    ⟨bytes " ", bytes "c", bytes " ", .tokens (bytes "NMTOKENS"), bytes " ", .value 34 (bytes " 1  2 ")⟩,
    ⟨bytes " ", bytes "d", bytes " ", .choice (bytes "x|y"), bytes " ", .fixed (bytes " ") 39 (bytes "x")⟩], []⟩

def zeroJunk : Nat → Byte := fun _ => 0

/-- `NewXMLTree` with its own reading of declarations. -/
def fullEnv (f : Nat) : XmlEnv := ⟨zeroJunk, parseInternalDoctype zeroJunk f⟩

/-- What the code makes of the example. -/
def sampleRead : Option XmlRoot := match parseInternalDoctype zeroJunk 100 newRoot (subsetText sampleDecls (some sampleList) (bytes " ")) with
  | .ok r => r
  | _ => none

example : sampleRead.map (·.entities.drop 5) = some [(bytes "e;", bytes "x")] := by decide +kernel

example : sampleRead.map (fun r => [bytes "b", bytes "c", bytes "d"].map (getXMLTreeAttribute r.defaults (bytes "a") [])) = some [none, some (bytes "1 2"), some (bytes "x")] := by decide +kernel

example : sampleRead.map (fun r => getPIs r (bytes "t")) = some [bytes "b"] := by decide +kernel

theorem gap_one : Gap (bytes " ") := ⟨by decide +kernel, by unfold Blank; decide +kernel⟩

theorem name_small {s : String} (h : (∃ c r, bytes s = c :: r ∧ (97 ≤ c.toNat ∧ c.toNat ≤ 122)) ∧ ∀ c ∈ bytes s, 97 ≤ c.toNat ∧ c.toNat ≤ 122) : Name (bytes s) := by
  obtain ⟨⟨c, r, hc, h1⟩, h2⟩ := h
  exact ⟨⟨c, r, hc, .inl (.inr h1)⟩, fun x hx => .inl (.inl (.inr (h2 x hx)))⟩

/-- The hypotheses of the theorem are met by the example. -/
theorem sample_ok : (∀ d ∈ sampleDecls, d.WF) ∧ (∀ d ∈ sampleDecls, Fit d) ∧ Texts (generals sampleDecls) ∧ sampleList.WF ∧ (sampleList.defs.map (·.name)).Nodup ∧ (∀ a ∈ sampleList.defs, FitDefault a.dflt) ∧
    (∀ a ∈ sampleList.defs, a.Gives (generals sampleDecls) (if a.name = bytes "c" then some (bytes "1 2") else if a.name = bytes "d" then some (bytes "x") else none)) := by
  have na : Name (bytes "a") := name_small ⟨⟨_, _, rfl, by decide⟩, by decide +kernel⟩
  have nb : Name (bytes "b") := name_small ⟨⟨_, _, rfl, by decide⟩, by decide +kernel⟩
  have nc : Name (bytes "c") := name_small ⟨⟨_, _, rfl, by decide⟩, by decide +kernel⟩
  have nd : Name (bytes "d") := name_small ⟨⟨_, _, rfl, by decide⟩, by decide +kernel⟩
  have ne : Name (bytes "e") := name_small ⟨⟨_, _, rfl, by decide⟩, by decide +kernel⟩
  have np : Name (bytes "p") := name_small ⟨⟨_, _, rfl, by decide⟩, by decide +kernel⟩
  have nt : Name (bytes "t") := name_small ⟨⟨_, _, rfl, by decide⟩, by decide +kernel⟩
  have bl : Blank (bytes "\n") := by unfold Blank; decide +kernel
  have b0 : Blank [] := by unfold Blank; decide
  have e0 : ∀ s, (13 : Byte) ∉ s → EndsWell s := endsWell_of
  refine ⟨?_, ?_, ⟨?_, ?_, ?_⟩, ⟨gap_one, na, ?_, b0⟩, by decide +kernel, ?_, ?_⟩
  · intro d hd
    simp only [sampleDecls, List.mem_cons, List.not_mem_nil, or_false] at hd
    rcases hd with rfl | rfl | rfl | rfl | rfl | rfl
    · exact ⟨gap_one, ne, gap_one, .inl rfl, by unfold Chars; decide +kernel, by decide +kernel, b0⟩
    · exact bl
    · exact ⟨gap_one, gap_one, np, gap_one, .inr rfl, by unfold Chars; decide +kernel, by decide +kernel, b0⟩
    · exact ⟨⟨32, _, rfl, by unfold Blank; decide⟩, by unfold Chars; decide +kernel, by decide +kernel⟩
    · exact ⟨by unfold Chars; decide +kernel, by decide +kernel, by decide +kernel⟩
    · exact ⟨nt, by decide +kernel, gap_one.2, fun _ => gap_one.1, by unfold Chars; decide +kernel, by decide +kernel, fun c hc => by cases hc; unfold Blank; decide⟩
  · intro d hd
    have l : ∀ s : String, (∃ c r, bytes s = c :: r ∧ Letter c) → Begins (bytes s) := by
      rintro s ⟨c, r, h, hl⟩ x hx
      rw [h] at hx; cases hx; exact .inl hl
    simp only [sampleDecls, List.mem_cons, List.not_mem_nil, or_false] at hd
    rcases hd with rfl | rfl | rfl | rfl | rfl | rfl
    · exact ⟨l _ ⟨_, _, rfl, by unfold Letter; decide⟩, e0 _ (by decide +kernel), by decide +kernel, by decide +kernel⟩
    · trivial
    · exact ⟨l _ ⟨_, _, rfl, by unfold Letter; decide⟩, e0 _ (by decide +kernel), by decide +kernel, by decide +kernel⟩
    · trivial
    · trivial
    · trivial
  · intro d hd
    have : d = (bytes "e", bytes "x") := by
      have h : generals sampleDecls = [(bytes "e", bytes "x")] := by decide +kernel
      rw [h] at hd; simpa using hd
    subst this
    exact ⟨by decide +kernel, by decide +kernel, by decide +kernel, by decide +kernel, by decide +kernel, by
      have : (bytes "x").length = 1 := by decide +kernel
      show (bytes "x").length < sizeMax
      rw [this]; unfold sizeMax; decide⟩
  · have h : generals sampleDecls = [(bytes "e", bytes "x")] := by decide +kernel
    rw [h]; decide +kernel
  · have h : generals sampleDecls = [(bytes "e", bytes "x")] := by decide +kernel
    rw [h]; unfold Clean; decide +kernel
  · intro a ha
    simp only [sampleList, List.mem_cons, List.not_mem_nil, or_false] at ha
    rcases ha with rfl | rfl | rfl
    · exact ⟨gap_one, nb, gap_one, trivial, gap_one, trivial⟩
    · exact ⟨gap_one, nc, gap_one, by show bytes "NMTOKENS" ∈ _; decide +kernel, gap_one, .inl rfl, by unfold Chars; decide +kernel, by decide +kernel, by decide +kernel⟩
    · refine ⟨gap_one, nd, gap_one, ?_, gap_one, gap_one, .inr rfl, by unfold Chars; decide +kernel, by decide +kernel, by decide +kernel⟩
      show ∀ c ∈ bytes "x|y", _
      unfold NameByte NameStart Letter Blank
      decide +kernel
  · intro a ha
    simp only [sampleList, List.mem_cons, List.not_mem_nil, or_false] at ha
    rcases ha with rfl | rfl | rfl
    · trivial
    · exact e0 _ (by decide +kernel)
    · exact e0 _ (by decide +kernel)
  · intro a ha
    have hl : ∀ (v : List Byte), (0 : Byte) ∉ v → (38 : Byte) ∉ v → (∀ c ∈ v, attValue c = c) → Means attValue (generals sampleDecls) v v := by
      intro v
      induction v with
      | nil => intro _ _ _; exact .done
      | cons c v ih =>
        intro h0 h1 h2
        simp only [List.mem_cons, not_or] at h0 h1
        have := Means.plain (lit := attValue) (decls := generals sampleDecls) (c := c) (fun e => h1.1 e.symm) (fun e => h0.1 e.symm) (ih h0.2 h1.2 (fun c hc => h2 c (List.mem_cons_of_mem _ hc)))
        rw [h2 c List.mem_cons_self] at this
        exact this
    simp only [sampleList, List.mem_cons, List.not_mem_nil, or_false] at ha
    rcases ha with rfl | rfl | rfl
    · show (if bytes "b" = bytes "c" then _ else _) = _
      rw [if_neg (by decide +kernel), if_neg (by decide +kernel)]
    · refine ⟨bytes "1 2", if_pos rfl, bytes " 1  2 ", ?_, ?_⟩
      · have := hl (bytes " 1  2 ") (by decide +kernel) (by decide +kernel) (by decide +kernel)
        exact this
      · rw [if_neg (by simp)]
        refine ⟨[bytes "1", bytes "2"], ?_, by decide +kernel⟩
        exact .word (sp := bytes " ") (w := bytes "1") (rest := bytes "  2 ") (by decide +kernel) (by decide +kernel) (by decide +kernel) (.inr (by decide +kernel))
          (.word (sp := bytes "  ") (w := bytes "2") (rest := bytes " ") (by decide +kernel) (by decide +kernel) (by decide +kernel) (.inr (by decide +kernel)) (.none (by decide +kernel)))
    · refine ⟨bytes "x", ?_, bytes "x", hl (bytes "x") (by decide +kernel) (by decide +kernel) (by decide +kernel), ?_⟩
      · show (if bytes "d" = bytes "c" then _ else _) = _
        rw [if_neg (by decide +kernel), if_pos rfl]
      · rw [if_neg (by simp)]
        exact ⟨[bytes "x"], .word (sp := []) (w := bytes "x") (rest := []) (by simp) (by decide +kernel) (by decide +kernel) (.inl rfl) (.none (by simp)), by decide +kernel⟩

/-! ### What is lost -/

/-- **C163 is false** for what follows a list of attributes whose last attribute has a default value (xml-tree.c:1878, 1750): the code
ends the value with a NUL, does not step over it, and takes it for the end of the declarations.  Whatever follows such a list — entities,
further lists — is not read, and no warning is raised. -/
theorem C163_behind_violated (junk : Nat → Byte) (r : XmlRoot) (hr : r.entities = predefinedEntities) (hd : r.defaults = [])
    (ds : List Decl) (hw : ∀ d ∈ ds, d.WF) (hf : ∀ d ∈ ds, Fit d) (ht : Texts (generals ds)) (l : AttList) (hlw : l.WF) (hlf : ∀ a ∈ l.defs, FitDefault a.dflt)
    (val : AttDef → Option (List Byte)) (hv : ∀ a ∈ l.defs, a.Gives (generals ds) (val a)) (before : List AttDef) (last : AttDef) (quote : Byte) (raw : List Byte)
    (hlast : l.defs = before ++ [last]) (hval : last.dflt = .value quote raw) :
    ∃ r', r'.entities = predefinedEntities ++ entTable (generals ds) ∧ ∀ rest, ∃ f0, ∀ f ≥ f0, parseInternalDoctype junk f r (ds.flatMap Decl.render ++ (l.render ++ rest)) = .ok (some r') := by
  have hroot := after_decls ds ⟨r, [], none⟩
  simp only [hr] at hroot
  refine ⟨(afterList (ds.foldl afterDecl ⟨r, [], none⟩) l.tag (stored val l.defs)).root, by unfold afterList; rw [hroot], fun rest => ?_⟩
  refine (decls_read junk ds _ _ _ hw hf ?_).parse
  obtain ⟨f0, h0⟩ := attlist_read junk (generals ds) ht l hlw hlf val hv rest (.inl (by rw [hlast]; simp))
  obtain ⟨q, hq⟩ : ∃ q, l.render ++ rest = asc '<' :: q := ⟨_, rfl⟩
  rw [hq]
  refine .last lt_stops ⟨f0, fun f hge => ?_⟩
  rw [← hq, h0 f hge _ (by rw [hroot]) (by rw [hroot]; exact hd), hlast, endOf_snoc, hval]
  rfl

/-- A document: `<!DOCTYPE a [<!ATTLIST a b CDATA "1"><!ENTITY g "z">]><a>&g;</a>` reads as an element with the content `&g;`. -/
example : (newXMLTree (fullEnv 100) 100 (bytes "<!DOCTYPE a [<!ATTLIST a b CDATA \"1\"><!ENTITY g \"z\">]><a>&g;</a>")).bind (fun x => .ok (x.map (fun x => (x.2, x.1.tree.map (·.content))))) =
    .ok (some (true, some (bytes "&g;"))) := by decide +kernel

/-- The other way round it reads as one with the content `z`. -/
example : (newXMLTree (fullEnv 100) 100 (bytes "<!DOCTYPE a [<!ENTITY g \"z\"><!ATTLIST a b CDATA \"1\">]><a>&g;</a>")).bind (fun x => .ok (x.map (fun x => (x.2, x.1.tree.map (·.content))))) =
    .ok (some (true, some (bytes "z"))) := by decide +kernel

/-- **C163 is false** for entities whose name starts with a `:` or a character beyond ASCII (xml-tree.c:1762): the declaration and all that
follow it are not read, and no warning is raised. -/
theorem C163_name_violated (junk : Nat → Byte) (r : XmlRoot) (hr : r.entities = predefinedEntities)
    (ds : List Decl) (hw : ∀ d ∈ ds, d.WF) (hf : ∀ d ∈ ds, Fit d) (gap name gap' : List Byte) (quote : Byte) (raw gap'' : List Byte) (hd : (Decl.entity gap name gap' quote raw gap'').WF)
    (c : Byte) (hc : name.head? = some c) (hbad : c = 58 ∨ 128 ≤ c.toNat) :
    ∃ r', r'.entities = predefinedEntities ++ entTable (generals ds) ∧
      ∀ rest, ∃ f0, ∀ f ≥ f0, parseInternalDoctype junk f r (ds.flatMap Decl.render ++ ((Decl.entity gap name gap' quote raw gap'').render ++ rest)) = .ok (some r') := by
  have hroot := after_decls ds ⟨r, [], none⟩
  simp only [hr] at hroot
  refine ⟨(ds.foldl afterDecl ⟨r, [], none⟩).root, by rw [hroot], fun rest => ?_⟩
  refine (decls_read junk ds _ _ _ hw hf ?_).parse
  obtain ⟨hg, hn, hg', _⟩ := hd
  have er : (Decl.entity gap name gap' quote raw gap'').render ++ rest = bytes "<!ENTITY" ++ (gap ++ (name ++ (gap' ++ ([quote] ++ raw ++ [quote] ++ gap'' ++ bytes ">" ++ rest)))) := by simp [Decl.render]
  rw [er]
  refine .last lt_stops ⟨0, fun f _ => ?_⟩
  refine (turn_entity junk f _ _ (by obtain ⟨_, _, h, _⟩ := gap_cons hg; obtain ⟨_, _, h', _⟩ := gap_cons hg'; rw [h, h']; simp; omega)).trans ?_
  have key : ∀ c : Byte, (c = 58 ∨ 128 ≤ c.toNat) → isXmlSpace c = false ∧ (c == asc '%') = false ∧ (isAlphaC c || c == asc '_') = false := by decide +kernel
  obtain ⟨k1, k2, k3⟩ := key c hbad
  have hh : ∀ x, (name ++ x).head? = some c := by
    intro x
    cases name with
    | nil => cases hc
    | cons d name => cases hc; rfl
  unfold docEntity
  obtain ⟨x, hx, hxs⟩ := gap_head (x := name ++ (gap' ++ ([quote] ++ raw ++ [quote] ++ gap'' ++ bytes ">" ++ rest))) hg
  rw [if_neg (by rw [hx]; simp [hxs])]
  simp only []
  rw [drop_gap hg.2 (fun x hx => by rw [hh] at hx; cases hx; exact k1)]
  have hdw : ∀ z, (name ++ z).dropWhile (fun b => isXmlSpace b || b == asc '%') = name ++ z := by
    intro z
    have := (scan_stop (p := fun b => isXmlSpace b || b == asc '%') (a := []) (b := name ++ z) (by simp) (fun x hx => by rw [hh] at hx; cases hx; simp [k1, k2])).2
    simpa using this
  rw [hdw, if_pos (by rw [hh]; simp only [Option.map_some, Option.getD_some]; exact k3)]

/-- **C163 is false** for a second list of attributes for one element (xml-tree.c:1832-1836): it is looked up by the last name in the
declaration before it instead of by its tag, so it is stored apart, where no look-up finds it.  Behind
`<!ATTLIST a b NMTOKEN #IMPLIED><!ATTLIST a c CDATA "1">` elements `a` have no default for `c`. -/
theorem C163_again_violated : ∃ r, parseInternalDoctype zeroJunk 100 newRoot (bytes "<!ATTLIST a b NMTOKEN #IMPLIED><!ATTLIST a c CDATA \"1\">") = .ok (some r) ∧
    getXMLTreeAttribute r.defaults (bytes "a") [] (bytes "c") = none ∧ (r.defaults.map (·.tag)) = [bytes "a", bytes "a"] := by
  refine ⟨{ newRoot with defaults := [⟨bytes "a", [(bytes "b", none, .token)]⟩, ⟨bytes "a", [(bytes "c", some (bytes "1"), .attribute)]⟩] }, by decide +kernel, by decide +kernel, by decide +kernel⟩

/-- **C163 is false** for literals with a `>` (xml-tree.c:1776, 1941): the declaration is taken to end there, and a `%` in the rest of the
literal ends the reading.  `<!NOTATION n SYSTEM "a>%b">` is well formed; the entity declared behind it is not known. -/
theorem C163_literal_violated : (Decl.notation_ (bytes " n SYSTEM \"a>%b\"")).WF ∧
    parseInternalDoctype zeroJunk 100 newRoot ((Decl.notation_ (bytes " n SYSTEM \"a>%b\"")).render ++ (Decl.entity (bytes " ") (bytes "g") (bytes " ") 34 (bytes "z") []).render) = .ok (some newRoot) :=
  ⟨⟨⟨32, _, rfl, by unfold Blank; decide⟩, by unfold Chars; decide +kernel⟩, by decide +kernel⟩

/-- **C163 is false** for declarations with `]>` in a comment or a literal (xml-tree.c:2282-2286): the declarations are taken to end there.
`<!DOCTYPE a [<!-- ]> --><!ENTITY g "z">]><a>&g;</a>` is refused. -/
theorem C163_bracket_violated : (Decl.comment (bytes " ]> ")).WF ∧ ∃ r,
    newXMLTree (fullEnv 100) 100 (bytes "<!DOCTYPE a [" ++ (Decl.comment (bytes " ]> ")).render ++ bytes "<!ENTITY g \"z\">]><a>&g;</a>") = .ok (some (r, false)) :=
  ⟨⟨by unfold Chars; decide +kernel, by decide +kernel, by decide +kernel⟩, newRoot, by decide +kernel⟩

end Wizard.Props

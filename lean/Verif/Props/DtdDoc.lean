import Verif.Lemmas.DtdDoc
/-! C164: reading whole documents that declare entities and attributes. -/
namespace Wizard.Props
open Wizard Wizard.Spec.Xml Wizard.XmlP Wizard.DocP

/-- The documents the theorem speaks of: what is declared is what `Fit`, `Texts` and `FitDefault` allow, no attribute is defined twice, no
declaration has a `]`, and the elements are `Simple`. -/
structure Plain (d : TypedDocument) : Prop where
  root : Simple d.root
  decls : ∀ x ∈ d.decls, Fit x
  texts : Texts (generals d.decls)
  once : ∀ l, d.list = some l → (l.defs.map (·.name)).Nodup
  defaults : ∀ l, d.list = some l → ∀ a ∈ l.defs, FitDefault a.dflt
  bracket : (93 : Byte) ∉ subsetText d.decls d.list d.blank

/-- **C164** (partial) `NewXMLTree` reads every well-formed document with an internal subset as the tree it writes, with the entities it
declares replaced and the values of attributes with tokenised types normalised; attributes that an element leaves out have the declared
defaults, and the processing instructions are all there.  Missing: what `Plain` excludes, of which the violations of C110 and C163 tell;
and more than one list of attributes, and declarations behind it. -/
theorem C164_document_partial (junk : Nat → Byte) (d : TypedDocument) (hw : d.WF) (hp : Plain d) (t : Tree) (ht : Denotes d.dtd d.root [] [] [(0, t)])
    (val : AttDef → Option (List Byte)) (hv : ∀ l, d.list = some l → ∀ a ∈ l.defs, a.Gives (generals d.decls) (val a)) :
    ∃ F, ∀ f' ≥ F, ∃ r n, (∃ N, ∀ f ≥ N, newXMLTree ⟨junk, parseInternalDoctype junk f'⟩ f d.render = .ok (some (r, true))) ∧ r.tree = some n ∧ treeOf n = t ∧
      (∀ l, d.list = some l → ∀ a ∈ l.defs, ∀ attrs : XmlAttrs, attrs.find? (fun x => x.1 == a.name) = none → getXMLTreeAttribute r.defaults l.tag attrs a.name = val a) ∧
      (∀ target, getPIs r target = ((d.before.pis ++ declPIs d.decls ++ d.between.pis ++ d.root.pis ++ d.behind.pis).filter (fun x => x.1 = target)).map (·.2)) := by
  obtain ⟨⟨hdecl, hwb, hmb, hwr, hroot, hwe, hme⟩, hwm, hmm, hraw, h91, h93, h62, hwd, hwl, hb, hb'⟩ := hw
  obtain ⟨terminal, hterm⟩ : ∃ x, (asc '>' :: d.behind.render).getLast? = some x := by
    cases h : (asc '>' :: d.behind.render).getLast? with
    | none => rw [List.getLast?_eq_none_iff] at h; cases h
    | some x => exact ⟨x, rfl⟩
  -- the roots between the parts
  let r1 : Bool → XmlRoot := fun b => { newRoot with standalone := b, pis := addAll true d.before.pis [] }
  have hsub : ∃ f0, ∀ b, ∀ f ≥ f0, parseInternalDoctype junk f (r1 b) (subsetText d.decls d.list d.blank) =
      .ok (some { r1 b with entities := predefinedEntities ++ entTable (generals d.decls), pis := addAll true (declPIs d.decls) (r1 b).pis, defaults := listDefaults val d.list }) := by
    have h := fun b => subset_read junk (r1 b) rfl rfl d.decls hwd hp.decls hp.texts d.list (fun x hx => ⟨hwl x hx, hp.once x hx, hp.defaults x hx⟩) val hv d.blank hb
    obtain ⟨f1, h1⟩ := h true
    obtain ⟨f2, h2⟩ := h false
    refine ⟨max f1 f2, fun b f hf => ?_⟩
    cases b
    · exact h2 f (by omega)
    · exact h1 f (by omega)
  obtain ⟨F, hF⟩ := hsub
  refine ⟨F, fun f' hf' => ?_⟩
  obtain ⟨e, he⟩ : ∃ e : XmlEnv, e = ⟨junk, parseInternalDoctype junk f'⟩ := ⟨_, rfl⟩
  rw [← he]
  obtain ⟨b, hPc, hhead, hPgo⟩ := decl_prefix e terminal d.decl hdecl d.before hwb hmb
  have hFb := hF b f' hf'
  let r2 : XmlRoot := { r1 b with entities := predefinedEntities ++ entTable (generals d.decls), pis := addAll true (declPIs d.decls) (r1 b).pis, defaults := listDefaults val d.list }
  let r3 : XmlRoot := { r2 with pis := addAll true d.between.pis r2.pis }
  obtain ⟨R, n, hR, ⟨q, hq⟩, hn, hgo⟩ := root_go e (dtd := d.dtd) terminal d.root d.behind hroot hwr hp.root hwe hme t ht r3 rfl
    ⟨hp.texts, rfl, fun tag name => list_types d val hp.once tag name⟩ rfl
  refine ⟨{ r3 with stack := [], closed := some n, pis := addAll false d.behind.pis (addAll false d.root.pis r3.pis) }, n, ?_, rfl, hn, ?_, ?_⟩
  · have hmid := misc_go e terminal d.between hwm hmm r2 ⟨none, [], [], 0, .nil⟩ rfl rfl (q ++ (asc '>' :: d.behind.render).dropLast) _ (by
      have := hgo hterm
      rw [hq] at this
      exact this)
    -- the document type
    have htype : ∀ z out, Goes e terminal r2 z out → Goes e terminal (r1 b) (d.typeText ++ z) out := by
      intro z out hz
      have ez : d.typeText ++ z = asc '<' :: (bytes "!DOCTYPE" ++ (d.raw ++ (asc '[' :: (subsetText d.decls d.list d.blank ++ (asc ']' :: (d.blank' ++ asc '>' :: z)))))) := by
        unfold TypedDocument.typeText
        rw [show bytes "<!DOCTYPE" = asc '<' :: bytes "!DOCTYPE" by decide +kernel, show bytes "[" = [asc '['] by decide +kernel, show bytes "]" = [asc ']'] by decide +kernel, show bytes ">" = [asc '>'] by decide +kernel]
        simp
      rw [ez]
      have hc : ∀ f, xmlConstruct e f terminal (r1 b) (bytes "!DOCTYPE" ++ (d.raw ++ (asc '[' :: (subsetText d.decls d.list d.blank ++ (asc ']' :: (d.blank' ++ asc '>' :: z)))))) = .ok (r2, some (d.blank' ++ asc '>' :: z)) := by
        intro f
        rw [C163_placed_partial e f (r1 b) terminal d.raw _ d.blank' z h91 h93 h62 hp.bracket hb', he]
        show ((parseInternalDoctype junk f' (r1 b) (subsetText d.decls d.list d.blank)) >>= _) = _
        rw [hFb]
        rfl
      have hquiet : Quiet r2 := .inr ⟨_, rfl, rfl⟩
      cases hbl : d.blank' with
      | nil =>
        simp only [hbl] at hc
        exact Goes.construct ⟨0, fun f _ => hc f⟩ hz
      | cons x l =>
        simp only [hbl] at hc
        refine Goes.construct ⟨0, fun f _ => hc f⟩ ?_
        have := Goes.quiet (pre := l ++ [asc '>']) hquiet (by
          intro hm
          rcases List.mem_append.mp hm with hm | hm
          · have := hb' (asc '<') (by rw [hbl]; exact List.mem_cons_of_mem _ hm)
            revert this; decide
          · revert hm; decide) hz
        simpa using this
    have hty : ∃ y, d.typeText = asc '<' :: y := ⟨_, rfl⟩
    obtain ⟨y, hy⟩ := hty
    have hall := hPgo _ _ (misc_go e terminal d.before hwb hmb { newRoot with standalone := b } ⟨none, [], [], 0, .nil⟩ rfl rfl (y ++ (d.between.render ++ asc '<' :: (q ++ (asc '>' :: d.behind.render).dropLast))) _ (by
      have := htype _ _ hmid
      rw [hy] at this
      exact this))
    have hP : d.render = declText d.decl ++ d.before.render ++ d.typeText ++ d.between.render ++ d.root.render ++ d.behind.render := by unfold TypedDocument.render declText; cases d.decl <;> rfl
    have htext : d.render = (declText d.decl ++ d.before.render ++ d.typeText ++ d.between.render ++ R) ++ asc '>' :: d.behind.render := by
      rw [hP, hR]
      simp
    have h0 : (0 : Byte) ∉ d.render := by
      refine chars_no_nul ?_
      rw [hP]
      refine chars_append (chars_append (chars_append (chars_append (chars_append hPc (render_chars _ hwb)) ?_) (render_chars _ hwm)) (render_chars _ hwr)) (render_chars _ hwe)
      exact chars_append (chars_append (chars_append (chars_append (chars_append (chars_append (by unfold Chars; decide +kernel) hraw) (by unfold Chars; decide +kernel)) (chars_subset hwd hwl hb)) (by unfold Chars; decide +kernel)) (chars_blank hb')) (by unfold Chars; decide +kernel)
    have hlast : d.render.getLast? = some terminal := by rw [htext, last_append (by simp), hterm]
    have hdrop : d.render.dropLast = declText d.decl ++ (d.before.render ++ asc '<' :: (y ++ (d.between.render ++ asc '<' :: (q ++ (asc '>' :: d.behind.render).dropLast)))) := by
      rw [htext, List.dropLast_append_of_ne_nil (by simp), hq, hy]
      simp
    rw [← hdrop] at hall
    obtain ⟨c, s, hcs, hc⟩ := hhead (y ++ (d.between.render ++ asc '<' :: (q ++ asc '>' :: d.behind.render)))
    exact text_read e h0 hlast (by rw [hdrop]; simp) ⟨c, s, by rw [htext, hq, hy, ← hcs]; simp, hc⟩ hall
  · intro l hl a ha attrs hn
    show getXMLTreeAttribute (listDefaults val d.list) l.tag attrs a.name = val a
    rw [hl]
    refine (default_found _ _ _ _ hn).trans ?_
    have hstored := find_stored val a.name l.defs (hp.once l hl) (by
      intro a ha hh
      have := hv l hl a ha
      unfold AttDef.Gives at this
      revert this
      cases hd : a.dflt with
      | required => exact id
      | implied => exact id
      | value q raw => rw [hd] at hh; cases hh
      | fixed g q raw => rw [hd] at hh; cases hh)
    rw [hstored]
    have hfind : l.defs.find? (fun b => b.name == a.name) = some a := by
      have hnd := hp.once l hl
      clear hstored hgo hv
      revert ha hnd
      induction l.defs with
      | nil => intro ha; cases ha
      | cons b ds ih =>
        intro ha hnd
        simp only [List.map_cons, List.nodup_cons] at hnd
        rw [List.find?_cons]
        rcases List.mem_cons.mp ha with rfl | ha
        · simp
        · have : (b.name == a.name) = false := by
            simp only [beq_eq_false_iff_ne]
            intro e
            exact hnd.1 (by rw [e]; exact List.mem_map_of_mem ha)
          rw [this]
          exact ih ha hnd.2
    rw [hfind]
  · intro target
    show bodiesOf (addAll false d.behind.pis (addAll false d.root.pis (addAll true d.between.pis (addAll true (declPIs d.decls) (addAll true d.before.pis []))))) target = _
    rw [get_all, get_all, get_all, get_all, get_all]
    simp [bodiesOf, List.filter_append]

/-- `<?xml version="1.0"?><?t 1?><!DOCTYPE a [... ] ><!-- c --><a b=' &e;  y ' c=' &e;  y '>&e;!</a>` with the declarations of `sampleDecls` and `sampleList`. -/
def sampleTyped : TypedDocument :=
  ⟨some (bytes " version=\"1.0\""), .pi (bytes "t") (bytes " ") (bytes "1") .done, bytes " a ", sampleDecls, some sampleList, bytes " ", bytes " ", .comment (bytes " c ") .done,
   .elem (bytes "a") [⟨bytes " ", bytes "b", [], [], 39, bytes " &e;  y "⟩, ⟨bytes " ", bytes "c", [], [], 39, bytes " &e;  y "⟩] [] (.text (bytes "&e;!") .done) [] .done, .done⟩

/-- What the code makes of it. -/
def sampleTypedRead : Option (XmlRoot × Bool) := match newXMLTree (fullEnv 100) 100 sampleTyped.render with
  | .ok r => r
  | _ => none

example : sampleTypedRead.map (·.2) = some true := by decide +kernel

example : (sampleTypedRead.bind (·.1.tree)).map (fun n => (n.tag, n.attrs, n.content)) =
    some (some (bytes "a"), [(bytes "b", some (bytes " x  y ")), (bytes "c", some (bytes "x y"))], bytes "x!") := by decide +kernel

example : sampleTypedRead.map (fun r => getXMLTreeAttribute r.1.defaults (bytes "a") [] (bytes "d")) = some (some (bytes "x")) := by decide +kernel

example : sampleTypedRead.map (fun r => getPIs r.1 (bytes "t")) = some [bytes "1", bytes "b"] := by decide +kernel

example : sampleTyped.WF ∧ Plain sampleTyped ∧ Denotes sampleTyped.dtd sampleTyped.root [] [] [(0, .node (bytes "a") [(bytes "b", some (bytes " x  y ")), (bytes "c", some (bytes "x y"))] (bytes "x!") [])] := by
  have na : Name (bytes "a") := name_small ⟨⟨_, _, rfl, by decide⟩, by decide +kernel⟩
  have nb : Name (bytes "b") := name_small ⟨⟨_, _, rfl, by decide⟩, by decide +kernel⟩
  have nc : Name (bytes "c") := name_small ⟨⟨_, _, rfl, by decide⟩, by decide +kernel⟩
  have nt : Name (bytes "t") := name_small ⟨⟨_, _, rfl, by decide⟩, by decide +kernel⟩
  have b0 : Blank [] := by unfold Blank; decide
  obtain ⟨s1, s2, s3, s4, s5, s6, _⟩ := sample_ok
  have k1 : Chars (bytes " &e;  y ") := by unfold Chars; decide +kernel
  have k2 : (39 : Byte) ∉ bytes " &e;  y " := by decide +kernel
  have k3 : (60 : Byte) ∉ bytes " &e;  y " := by decide +kernel
  have hatt : ∀ n, Name n → Att.WF ⟨bytes " ", n, [], [], 39, bytes " &e;  y "⟩ := fun n hn =>
    ⟨gap_one.1, gap_one.2, hn, b0, b0, .inr rfl, k1, k2, k3⟩
  have hg : generals sampleDecls = [(bytes "e", bytes "x")] := by decide +kernel
  have hpre : ∀ c, (bytes "e", c) ∉ predefined := by
    intro c hc
    have key : ∀ x ∈ predefined, x.1 ≠ bytes "e" := by decide +kernel
    exact key _ hc rfl
  refine ⟨⟨⟨?_, ⟨nt, by decide +kernel, gap_one.2, fun _ => gap_one.1, by unfold Chars; decide +kernel, by decide +kernel, fun c hc => (by cases hc; unfold Blank; decide), trivial⟩, trivial,
      ⟨na, ?_, b0, ⟨by decide +kernel, by unfold Chars; decide +kernel, by decide +kernel, rfl, trivial⟩, b0, trivial⟩, trivial, trivial, trivial⟩,
    ⟨by unfold Chars; decide +kernel, by decide +kernel, by decide +kernel, trivial⟩, trivial, by unfold Chars; decide +kernel, by decide +kernel, by decide +kernel, by decide +kernel, s1, ?_, gap_one.2, gap_one.2⟩,
    ⟨?_, s2, s3, ?_, ?_, by decide +kernel⟩, ?_⟩
  · intro x hx
    cases hx
    exact ⟨⟨32, _, rfl, by unfold Blank; decide⟩, by unfold Chars; decide +kernel, by decide +kernel⟩
  · intro a ha
    simp only [List.mem_cons, List.not_mem_nil, or_false] at ha
    rcases ha with rfl | rfl
    · exact hatt _ nb
    · exact hatt _ nc
  · intro l hl; cases hl; exact s4
  · refine ⟨by unfold skipped; decide +kernel, ⟨?_, fun a ha => ?_⟩, ⟨endsWell_of _ (by decide +kernel), trivial⟩, trivial⟩
    · intro a ha
      simp only [List.mem_cons, List.not_mem_nil, or_false] at ha
      rcases ha with rfl | rfl <;> exact endsWell_of _ (by show (13 : Byte) ∉ bytes " &e;  y "; decide +kernel)
    · cases ha
      exact ⟨_, _, rfl, .inl (by unfold Letter; decide)⟩
  · intro l hl; cases hl; exact s5
  · intro l hl; cases hl; exact s6
  · have he : ∀ (lit : Byte → Byte) r o, Means lit (generals sampleDecls) r o → Means lit (generals sampleDecls) (bytes "&" ++ bytes "e" ++ bytes ";" ++ r) ((bytes "x").map lit ++ o) :=
      fun lit r o h => .entity hpre (by rw [hg]; decide +kernel) h
    have hv : Means attValue (generals sampleDecls) (lines (bytes " &e;  y ")) (bytes " x  y ") :=
      .plain (c := 32) (by decide) (by decide) (he _ _ _ (.plain (c := 32) (by decide) (by decide) (.plain (c := 32) (by decide) (by decide) (.plain (c := 121) (by decide) (by decide) (.plain (c := 32) (by decide) (by decide) .done)))))
    have ht : Means content (generals sampleDecls) (lines (bytes "&e;!")) (bytes "x!") := he _ _ _ (.plain (c := 33) (by decide) (by decide) .done)
    refine .elem (.some (v := bytes " x  y ") ⟨_, hv, ?_⟩ (.some (v := bytes "x y") ⟨_, hv, ?_⟩ .none)) (.text ht .done) .done
    · rw [if_pos (by decide +kernel)]
    · rw [if_neg (by decide +kernel)]
      refine ⟨[bytes "x", bytes "y"], ?_, by decide +kernel⟩
      exact .word (sp := [32]) (w := bytes "x") (rest := bytes "  y ") (by decide) (by decide +kernel) (by decide +kernel) (.inr (by decide +kernel))
        (.word (sp := [32, 32]) (w := bytes "y") (rest := [32]) (by decide) (by decide +kernel) (by decide +kernel) (.inr rfl) (.none (by decide)))

end Wizard.Props

import Verif.Props.Doctype
/-! Lemmas for C164: documents that declare entities and attributes. -/
namespace Wizard.DocP
open Wizard Wizard.Spec.Xml Wizard.XmlP Wizard.Props

theorem Goes.quiet {e : XmlEnv} {terminal : Byte} {r : XmlRoot} {pre z : List Byte} {out : XmlRoot × Bool} (hq : Quiet r) (hp : asc '<' ∉ pre) (h : Goes e terminal r z out) : Goes e terminal r (pre ++ z) out := by
  obtain ⟨N, hN⟩ := h
  refine ⟨N, fun f hf => ?_⟩
  have h := hN f hf
  have hd : (pre ++ z).dropWhile (· != asc '<') = z.dropWhile (· != asc '<') := by
    clear hN h
    induction pre with
    | nil => rfl
    | cons c pre ih =>
      have hc : (c != asc '<') = true := by simp; intro e; exact hp (by rw [e]; exact List.mem_cons_self)
      rw [List.cons_append, List.dropWhile_cons, if_pos hc]
      exact ih (fun hm => hp (List.mem_cons_of_mem _ hm))
  unfold after at h ⊢
  rw [hd]
  cases hz : z.dropWhile (· != asc '<') with
  | nil => rw [hz] at h; exact h
  | cons x q =>
    rw [hz] at h
    simp only [] at h ⊢
    rw [quiet_text hq, Res.ok_bind] at h ⊢
    exact h

theorem chars_gap {s : List Byte} (h : Gap s) : Chars s := chars_blank h.2

theorem chars_quote {q : Byte} (h : q = 34 ∨ q = 39) : Chars [q] := by
  intro c hc
  rcases h with rfl | rfl <;> simp at hc <;> subst hc <;> decide

theorem chars_decl {d : Decl} (h : d.WF) : Chars d.render := by
  have k1 : Chars (bytes "<!ENTITY") := by unfold Chars; decide +kernel
  have k2 : Chars (bytes ">") := by unfold Chars; decide +kernel
  have k3 : Chars (bytes "%") := by unfold Chars; decide +kernel
  have k4 : Chars (bytes "<!ELEMENT") := by unfold Chars; decide +kernel
  have k5 : Chars (bytes "<!NOTATION") := by unfold Chars; decide +kernel
  have k6 : Chars (bytes "<!--") := by unfold Chars; decide +kernel
  have k7 : Chars (bytes "-->") := by unfold Chars; decide +kernel
  have k8 : Chars (bytes "<?") := by unfold Chars; decide +kernel
  have k9 : Chars (bytes "?>") := by unfold Chars; decide +kernel
  cases d with
  | blank s => exact chars_blank h
  | entity g n g' q raw g'' =>
    obtain ⟨h1, h2, h3, h4, h5, _, h7⟩ := h
    exact chars_append (chars_append (chars_append (chars_append (chars_append (chars_append (chars_append (chars_append k1 (chars_gap h1)) (chars_name h2)) (chars_gap h3)) (chars_quote h4)) h5) (chars_quote h4)) (chars_blank h7)) k2
  | param g g1 n g' q raw g'' =>
    obtain ⟨h1, h1', h2, h3, h4, h5, _, h7⟩ := h
    exact chars_append (chars_append (chars_append (chars_append (chars_append (chars_append (chars_append (chars_append (chars_append (chars_append k1 (chars_gap h1)) k3) (chars_gap h1')) (chars_name h2)) (chars_gap h3)) (chars_quote h4)) h5) (chars_quote h4)) (chars_blank h7)) k2
  | external g n g' raw =>
    obtain ⟨h1, h2, h3, _, h5⟩ := h
    exact chars_append (chars_append (chars_append (chars_append (chars_append k1 (chars_gap h1)) (chars_name h2)) (chars_gap h3)) h5) k2
  | element raw => exact chars_append (chars_append k4 h.2.1) k2
  | notation_ raw => exact chars_append (chars_append k5 h.2) k2
  | comment raw => exact chars_append (chars_append k6 h.1) k7
  | pi t g b =>
    obtain ⟨h1, _, h2, _, h3, _⟩ := h
    exact chars_append (chars_append (chars_append (chars_append k8 (chars_name h1)) (chars_blank h2)) h3) k9

theorem chars_choice {raw : List Byte} (h : ∀ c ∈ raw, NameByte c ∨ Blank [c] ∨ c = 124) : Chars raw := by
  intro c hc
  rcases h c hc with h | h | h
  · have key : ∀ c : Byte, NameByte c → Chars [c] := by
      intro c hn d hd
      have hnm : Name (bytes "a" ++ [c]) := ⟨⟨97, [c], rfl, by unfold NameStart Letter; decide⟩, by
        intro x hx
        rcases List.mem_append.mp hx with hx | hx
        · simp [show bytes "a" = [97] by decide +kernel] at hx; subst hx; unfold NameByte NameStart Letter; decide
        · simp at hx; subst hx; exact hn⟩
      exact chars_name hnm d (List.mem_append.mpr (.inr hd))
    exact key c h c List.mem_cons_self
  · exact chars_blank h c List.mem_cons_self
  · subst h; decide

theorem chars_type {t : AttType} (h : t.WF) : Chars t.render := by
  have k1 : Chars (bytes "(") := by unfold Chars; decide +kernel
  have k2 : Chars (bytes ")") := by unfold Chars; decide +kernel
  cases t with
  | cdata => show Chars (bytes "CDATA"); unfold Chars; decide +kernel
  | tokens w =>
    have key : ∀ w ∈ [bytes "ID", bytes "IDREF", bytes "IDREFS", bytes "ENTITY", bytes "ENTITIES", bytes "NMTOKEN", bytes "NMTOKENS"], Chars w := by unfold Chars; decide +kernel
    exact key w h
  | choice raw => exact chars_append (chars_append k1 (chars_choice h)) k2
  | notation_ g raw => exact chars_append (chars_append (chars_append (chars_append (by unfold Chars; decide +kernel) (chars_gap h.1)) k1) (chars_choice h.2)) k2

theorem chars_default {t : AttDefault} (h : t.WF) : Chars t.render := by
  cases t with
  | required => show Chars (bytes "#REQUIRED"); unfold Chars; decide +kernel
  | implied => show Chars (bytes "#IMPLIED"); unfold Chars; decide +kernel
  | value q raw => exact chars_append (chars_append (chars_quote h.1) h.2.1) (chars_quote h.1)
  | fixed g q raw => exact chars_append (chars_append (chars_append (chars_append (by unfold Chars; decide +kernel) (chars_gap h.1)) (chars_quote h.2.1)) h.2.2.1) (chars_quote h.2.1)

theorem chars_flat {α : Type} {f : α → List Byte} {l : List α} (h : ∀ a ∈ l, Chars (f a)) : Chars (l.flatMap f) := by
  intro c hc
  obtain ⟨a, ha, hca⟩ := List.mem_flatMap.mp hc
  exact h a ha c hca

theorem chars_list {l : AttList} (h : l.WF) : Chars l.render := by
  obtain ⟨h1, h2, h3, h4⟩ := h
  refine chars_append (chars_append (chars_append (chars_append (chars_append (by unfold Chars; decide +kernel) (chars_gap h1)) (chars_name h2)) (chars_flat fun a ha => ?_)) (chars_blank h4)) (by unfold Chars; decide +kernel)
  obtain ⟨a1, a2, a3, a4, a5, a6⟩ := h3 a ha
  exact chars_append (chars_append (chars_append (chars_append (chars_append (chars_gap a1) (chars_name a2)) (chars_gap a3)) (chars_type a4)) (chars_gap a5)) (chars_default a6)

theorem chars_subset {ds : List Decl} {l : Option AttList} {blank : List Byte} (h1 : ∀ d ∈ ds, d.WF) (h2 : ∀ x, l = some x → x.WF) (h3 : Blank blank) : Chars (subsetText ds l blank) := by
  refine chars_append (chars_flat fun d hd => chars_decl (h1 d hd)) (chars_append ?_ (chars_blank h3))
  cases l with
  | none => intro c hc; cases hc
  | some x => exact chars_list (h2 x rfl)

/-- The types of the attributes are those that are declared. -/
theorem types_known (val : AttDef → Option (List Byte)) (name : List Byte) : ∀ (defs : List AttDef), (defs.map (·.name)).Nodup →
    (match (stored val defs).find? (fun x => x.1 == name) with | none => XmlState.attribute | some x => x.2.2) =
      if defs.any (fun a => a.name == name && a.type != .cdata) then .token else .attribute := by
  intro defs
  induction defs with
  | nil => intro _; rfl
  | cons a ds ih =>
    intro hn
    simp only [List.map_cons, List.nodup_cons] at hn
    have ih := ih hn.2
    have hs : stored val (a :: ds) = stored val [a] ++ stored val ds := by simp [stored]
    rw [hs, List.any_cons]
    by_cases hname : a.name = name
    · have hno : ds.any (fun a => a.name == name && a.type != .cdata) = false := by
        rw [List.any_eq_false]
        intro b hb hbn
        simp only [Bool.and_eq_true, beq_iff_eq] at hbn
        exact hn.1 (by rw [hname, ← hbn.1]; exact List.mem_map_of_mem hb)
      rw [hno, Bool.or_false]
      have hb : (a.name == name) = true := by simpa using hname
      by_cases hc : a.type = .cdata ∧ AttDefault.hasValue a.dflt = false
      · have h1 : stored val [a] = [] := by simp [stored, hc.1, hc.2]
        rw [h1, List.nil_append, ih, hno, hc.1]
        simp
      · have h1 : stored val [a] = [(a.name, val a, stateOf a.type)] := by simp only [stored, List.flatMap_cons, List.flatMap_nil, List.append_nil]; rw [if_neg hc]
        rw [h1, List.cons_append, List.find?_cons]
        simp only [hb, Bool.true_and]
        unfold stateOf
        by_cases ht : a.type = .cdata <;> simp [ht]
    · have hb : (a.name == name) = false := by simpa using hname
      rw [hb, Bool.false_and, Bool.false_or, ← ih]
      by_cases hc : a.type = .cdata ∧ AttDefault.hasValue a.dflt = false
      · have h1 : stored val [a] = [] := by simp [stored, hc.1, hc.2]
        rw [h1, List.nil_append]
      · have h1 : stored val [a] = [(a.name, val a, stateOf a.type)] := by simp only [stored, List.flatMap_cons, List.flatMap_nil, List.append_nil]; rw [if_neg hc]
        rw [h1, List.cons_append, List.nil_append, List.find?_cons]
        simp only [hb]

theorem list_types (d : TypedDocument) (val : AttDef → Option (List Byte)) (hn : ∀ x, d.list = some x → (x.defs.map (·.name)).Nodup) (tag name : List Byte) :
    attrState ((listDefaults val d.list).find? (fun x => x.tag == tag)) name = if d.dtd.tokens tag name then .token else .attribute := by
  cases hl : d.list with
  | none => simp [TypedDocument.dtd, hl, listDefaults, attrState]
  | some l =>
    have key := types_known val name l.defs (hn l hl)
    have hd : d.dtd.tokens tag name = (l.tag == tag && l.defs.any (fun a => a.name == name && a.type != .cdata)) := by simp only [TypedDocument.dtd, hl]
    rw [hd]
    unfold listDefaults oneTag
    simp only []
    by_cases ht : l.tag = tag
    · have hb : (l.tag == tag) = true := by simpa using ht
      rw [hb, Bool.true_and, ← key]
      by_cases h : stored val l.defs = []
      · rw [if_pos h, h]; rfl
      · rw [if_neg h]
        simp only [List.find?_cons, hb]
        rfl
    · have hb : (l.tag == tag) = false := by simpa using ht
      rw [hb, Bool.false_and]
      by_cases h : stored val l.defs = []
      · rw [if_pos h]; rfl
      · rw [if_neg h]
        simp only [List.find?_cons, hb]
        rfl

end Wizard.DocP

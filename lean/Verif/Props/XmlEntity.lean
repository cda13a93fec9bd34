import Verif.Props.XmlEscape
/-! C55: entity cycles. -/
namespace Wizard.Props
open Wizard Wizard.XmlP Wizard.Spec.Utf Wizard.Spec.Xml

/-! ### What is accepted -/

theorem firstOther_predefined (rest : List Byte) (more : List (List Byte × List Byte)) :
    ∃ e, firstOther rest (predefinedEntities ++ more) = some e ∧ asc '&' ∈ e.2 := by
  unfold firstOther predefinedEntities
  simp only [List.cons_append]
  rw [List.find?_cons]
  by_cases h1 : (ascText "lt;").isPrefixOf rest = true
  · simp only [h1, Bool.not_true]
    rw [List.find?_cons]
    by_cases h2 : (ascText "gt;").isPrefixOf rest = true
    · exfalso
      rw [List.isPrefixOf_iff_prefix] at h1 h2
      obtain ⟨u, rfl⟩ := h1
      obtain ⟨w, hw⟩ := h2
      have := congrArg (List.take 1) hw
      revert this
      have e1 : (ascText "gt;" ++ w).take 1 = [asc 'g'] := rfl
      have e2 : (ascText "lt;" ++ u).take 1 = [asc 'l'] := rfl
      rw [e1, e2]
      decide
    · simp only [h2, Bool.not_false]
      exact ⟨_, rfl, by decide⟩
  · simp only [h1, Bool.not_false]
    exact ⟨_, rfl, by decide⟩

/-- Any ampersand in the text of a general entity is taken for a cycle. -/
theorem validate_amp (tag : List Byte) (more : List (List Byte × List Byte)) : ∀ (room : Nat) (xml : List Byte), asc '&' ∈ xml →
    validateEntities tag (predefinedEntities ++ more) room xml = false := by
  intro room
  induction room with
  | zero => intro _ _; rfl
  | succ room ih =>
    intro xml h
    show validateFrom tag _ (validateEntities tag _ room) xml = false
    induction xml with
    | nil => simp at h
    | cons c rest ih2 =>
      unfold validateFrom
      by_cases hc : c ≠ asc '&'
      · rw [if_pos hc]
        refine ih2 ?_
        rcases List.mem_cons.mp h with e | h
        · exact absurd e.symm hc
        · exact h
      · rw [if_neg hc]
        split
        · rfl
        · obtain ⟨e, he, ha⟩ := firstOther_predefined rest more
          rw [he]
          simp only []
          rw [ih e.2 ha]
          rfl

theorem validate_no_amp (tag : List Byte) (ents : List (List Byte × List Byte)) (room : Nat) : ∀ (xml : List Byte), asc '&' ∉ xml →
    validateEntities tag ents (room + 1) xml = true := by
  intro xml
  show asc '&' ∉ xml → validateFrom tag ents (validateEntities tag ents room) xml = true
  induction xml with
  | nil => intro _; rfl
  | cons c rest ih =>
    intro h
    simp only [List.mem_cons, not_or] at h
    unfold validateFrom
    rw [if_pos (fun e => h.1 e.symm)]
    exact ih h.2

/-! ### Termination -/

/-- The text of a predefined entity: a character reference. -/
def IsRef (v : List Byte) : Prop :=
  ∃ ds, (∀ x ∈ ds, digitVal x < 10) ∧ ds ≠ [] ∧ digitsVal 10 ds ≠ 0 ∧ digitsVal 10 ds < 128 ∧ v = [asc '&', asc '#'] ++ ds ++ [asc ';']

/-- Entities the loop can be given. -/
def Tame (ents : List (List Byte × List Byte)) : Prop :=
  ∀ e ∈ ents, (0 : Byte) ∉ e.1 ∧ asc ';' ∈ e.1 ∧ (0 : Byte) ∉ e.2 ∧ e.2.length < sizeMax ∧ (asc '&' ∉ e.2 ∨ IsRef e.2)

/-- Fewer ampersands, or as many in a shorter text. -/
def Less (r' r : List Byte) : Prop := r'.count (asc '&') < r.count (asc '&') ∨ (r'.count (asc '&') ≤ r.count (asc '&') ∧ r'.length < r.length)

theorem Less.cons (c : Byte) (r : List Byte) : Less r (c :: r) := by
  refine .inr ⟨?_, by simp⟩
  rw [List.count_cons]; omega

theorem Less.sub {r' r : List Byte} (h : r'.Sublist r) (hl : r'.length < r.length) : Less r' r := .inr ⟨h.count_le _, hl⟩

theorem lookup_some {r : List Byte} {ents : List (List Byte × List Byte)} {v : List Byte} (h : lookupEnt r ents = some v) : ∃ e ∈ ents, e.2 = v ∧ e.1 <+: r := by
  unfold lookupEnt at h
  obtain ⟨e, he, hv⟩ := Option.map_eq_some_iff.mp h
  refine ⟨e, List.mem_of_find?_eq_some he, hv, ?_⟩
  have := List.find?_some he
  simpa using this

/-- One step of the loop. -/
theorem tame_step (junk : Nat → Byte) (ents : List (List Byte × List Byte)) (hent : Tame ents) (st : XmlState) (hst : st ≠ .parameter) (d r t : List Byte) (own : Bool)
    (h0 : (0 : Byte) ∉ r) (hne : r ≠ []) :
    ∃ d' r' t' own', entityStep junk ents st (scan d r t own) = .ok (some (scan d' r' t' own')) ∧ (0 : Byte) ∉ r' ∧
      (Less r' r ∨ ∃ v tail, st ≠ .cdata ∧ r' = v ++ tail ∧ IsRef v ∧ tail.count (asc '&') < r.count (asc '&')) := by
  cases r with
  | nil => exact absurd rfl hne
  | cons c r =>
    have h0' := h0
    simp only [List.mem_cons, not_or] at h0
    by_cases href : st ≠ .cdata ∧ c = asc '&' ∧ r.headD 0 = asc '#'
    · obtain ⟨hcd, rfl, hh⟩ := href
      cases r with
      | nil => exact absurd hh (by decide)
      | cons x r2 =>
        have hx : x = asc '#' := hh
        subst hx
        rw [step_ref junk ents st d r2 t own hcd]
        rcases charReference_spec d (asc '&' :: asc '#' :: r2) r2 t rfl h0' with ⟨_, h⟩ | ⟨t', hs, h⟩
        · rw [h, Res.ok_bind]
          refine ⟨d ++ [asc '&'], asc '#' :: r2, t, own, ?_, h0.2, .inl (Less.cons _ _)⟩
          rw [← scan_next]
        · rw [h, Res.ok_bind]
          refine ⟨_, _, t', own, rfl, fun hm => h0' (List.mem_of_mem_drop hm), .inl ?_⟩
          refine Less.sub (List.drop_sublist _ _) ?_
          rw [List.length_drop]
          simp only [List.length_cons]
          omega
    · rw [step_other junk ents st d r t c own (fun e => h0.1 e.symm) href]
      by_cases hse : startsEntity st c = true
      · rw [if_pos hse, findEntity_spec d r t c ents (fun e he => (hent e he).1), Res.ok_bind]
        cases hl : lookupEnt r ents with
        | none => exact ⟨_, r, t, own, rfl, h0.2, .inl (Less.cons _ _)⟩
        | some v =>
          simp only []
          have hca : c = asc '&' ∧ st ≠ .cdata := by
            unfold startsEntity at hse
            cases st <;> simp_all
          obtain ⟨e, he, hev, hpre⟩ := lookup_some hl
          have hte := hent e he
          rw [hev] at hte
          have hsemi : asc ';' ∈ c :: r := List.mem_cons_of_mem _ (hpre.subset hte.2.1)
          obtain ⟨m, tail, hmt, hm⟩ := List.eq_append_cons_of_mem hsemi
          have hmne : m ≠ [] := by
            intro e; subst e
            have : c = asc ';' := by simpa using (congrArg List.head? hmt)
            rw [hca.1] at this
            revert this; decide
          have hcount : tail.count (asc '&') < (c :: r).count (asc '&') := by
            rw [hmt]
            cases m with
            | nil => exact absurd rfl hmne
            | cons y m =>
              have hy : y = asc '&' := by
                have : c = y := by simpa using (congrArg List.head? hmt)
                rw [← this]; exact hca.1
              rw [hy, List.cons_append, List.count_cons_self, List.count_append, List.count_cons]
              omega
          have hm0 : (0 : Byte) ∉ m := fun h => h0' (by rw [hmt]; exact List.mem_append_left _ h)
          have ht0 : (0 : Byte) ∉ tail := fun h => h0' (by rw [hmt]; exact List.mem_append_right _ (List.mem_cons_of_mem _ h))
          rw [hmt] at hcount ⊢
          by_cases hv : v = []
          · subst hv
            obtain ⟨d', r', t', own', h, hdl, hsub, hlen⟩ := replace_empty junk d m tail t own hm0 hm ht0 hmne
            rw [h, Res.ok_bind]
            refine ⟨d', r', t', own', ?_, fun h => h0' (by rw [hmt]; exact hsub.subset h), .inl (Less.sub hsub hlen)⟩
            unfold scan
            rw [hdl]
          · obtain ⟨d', r', t', own', h, hdl, hcase⟩ := replace_text junk d m tail t v own hm0 hm ht0 hv hte.2.2.2.1
            rw [h, Res.ok_bind]
            have hr' : r' = v ++ tail ∨ r' = v ++ [] := by
              rcases hcase with ⟨_, _, h⟩ | ⟨_, h⟩
              · exact .inl h
              · rw [List.append_nil]; exact h
            have hall : ∃ tl, r' = v ++ tl ∧ (0 : Byte) ∉ tl ∧ tl.count (asc '&') < (m ++ asc ';' :: tail).count (asc '&') := by
              rcases hr' with e | e
              · exact ⟨tail, e, ht0, hcount⟩
              · exact ⟨[], e, by simp, Nat.lt_of_le_of_lt (Nat.zero_le _) hcount⟩
            obtain ⟨tl, rfl, htl0, htlc⟩ := hall
            refine ⟨d', v ++ tl, t', own', ?_, ?_, ?_⟩
            · unfold scan; rw [hdl]
            · simp only [List.mem_append, not_or]; exact ⟨hte.2.2.1, htl0⟩
            · rcases hte.2.2.2.2 with ha | hi
              · refine .inl (.inl ?_)
                rw [List.count_append, List.count_eq_zero.mpr ha]
                omega
              · exact .inr ⟨v, tl, hca.2, rfl, hi, htlc⟩
      · rw [if_neg hse]
        split
        · exact ⟨_, r, t, own, rfl, h0.2, .inl (Less.cons _ _)⟩
        · exact ⟨_, r, t, own, rfl, h0.2, .inl (Less.cons _ _)⟩

/-- The loop ends. -/
theorem tame_runs (junk : Nat → Byte) (ents : List (List Byte × List Byte)) (hent : Tame ents) (st : XmlState) (hst : st ≠ .parameter) :
    ∀ (a l : Nat) (r : List Byte), r.count (asc '&') ≤ a → r.length ≤ l → (0 : Byte) ∉ r → ∀ (d t : List Byte) (own : Bool), ∃ mem, Runs junk ents st (scan d r t own) mem := by
  intro a
  induction a using Nat.strongRecOn with
  | _ a iha =>
    intro l
    induction l with
    | zero =>
      intro r _ hl _ d t own
      have : r = [] := by simpa using hl
      subst this
      exact ⟨_, .stop d t own⟩
    | succ l ihl =>
      intro r ha hl h0 d t own
      by_cases hne : r = []
      · subst hne; exact ⟨_, .stop d t own⟩
      · obtain ⟨d', r', t', own', hstep, h0', hcase⟩ := tame_step junk ents hent st hst d r t own h0 hne
        rcases hcase with hless | ⟨v, tail, hcd, rfl, ⟨ds, hd1, hd2, hd3, hd4, hv⟩, hc⟩
        · rcases hless with hlt | ⟨hle, hlt⟩
          · obtain ⟨mem, hm⟩ := iha (r'.count (asc '&')) (by omega) r'.length r' (Nat.le_refl _) (Nat.le_refl _) h0' d' t' own'
            exact ⟨mem, .next hstep hm⟩
          · obtain ⟨mem, hm⟩ := ihl r' (by omega) (by omega) h0' d' t' own'
            exact ⟨mem, .next hstep hm⟩
        · have ht0 : (0 : Byte) ∉ tail := fun h => h0' (List.mem_append_right _ h)
          obtain ⟨t2, h2⟩ := step_char junk ents st d' ds tail t' own' false hcd hd2 hd1 hd3 (by simp only [Bool.false_eq_true, if_false]; omega) ht0
          obtain ⟨mem, hm⟩ := iha (tail.count (asc '&')) (by omega) tail.length tail (Nat.le_refl _) (Nat.le_refl _) ht0 _ t2 own'
          refine ⟨mem, .next hstep (.next ?_ hm)⟩
          rw [← h2, hv]
          congr 2
          simp

/-- What a document has declared is tame. -/
def GoodDecls (d : XmlDecls) : Prop :=
  ∃ more, d.general = predefinedEntities ++ more ∧ ∀ e ∈ more, (∃ n, (0 : Byte) ∉ n ∧ e.1 = n ++ [asc ';']) ∧ (0 : Byte) ∉ e.2 ∧ asc '&' ∉ e.2

theorem parse_no_nul {junk : Nat → Byte} {f : Nat} {mem : List Byte} {ents : List (List Byte × List Byte)} {st : XmlState} {v : List Byte} (h : parseEntities junk f mem ents st = .ok v) :
    (0 : Byte) ∉ v := by
  unfold parseEntities at h
  cases h1 : normalizeLines (2 * mem.length + 1) false mem 0 with
  | ub => rw [h1] at h; cases h
  | fatal => rw [h1] at h; cases h
  | ok m1 =>
    rw [h1, Res.ok_bind] at h
    cases h2 : entityLoop junk ents st f ⟨m1, false, 0⟩ with
    | ub => rw [h2] at h; cases h
    | fatal => rw [h2] at h; cases h
    | ok m2 =>
      rw [h2, Res.ok_bind] at h
      have key : ∀ m : List Byte, (0 : Byte) ∉ textOf m := by
        intro m hm
        have := mem_takeWhile _ _ _ hm
        simp at this
      split at h
      · cases h3 : squeezeToken m2 with
        | ub => rw [h3] at h; cases h
        | fatal => rw [h3] at h; cases h
        | ok m3 =>
          rw [h3, Res.ok_bind] at h
          have h : Res.ok (textOf m3) = Res.ok v := h
          cases h
          exact key m3
      · rw [Res.ok_bind] at h
        have h : Res.ok (textOf m2) = Res.ok v := h
        cases h
        exact key m2

theorem declare_good {junk : Nat → Byte} {f : Nat} {after : List Byte} {d d' : XmlDecls} {e : XmlDecl} (hn : (0 : Byte) ∉ e.name) (hd : GoodDecls d)
    (h : declareEntity junk f after d e = .ok (some d')) : GoodDecls d' := by
  unfold declareEntity at h
  cases hv : parseEntities junk f (e.text ++ 0 :: after) d.params .parameter with
  | ub => rw [hv] at h; cases h
  | fatal => rw [hv] at h; cases h
  | ok v =>
    rw [hv, Res.ok_bind] at h
    simp only [] at h
    obtain ⟨more, hg, hm⟩ := hd
    cases hp : e.param with
    | true =>
      rw [hp] at h
      simp only [if_true] at h
      split at h
      · cases h; exact ⟨more, hg, hm⟩
      · cases h
    | false =>
      rw [hp] at h
      simp only [Bool.false_eq_true, if_false] at h
      split at h
      · rename_i hval
        cases h
        refine ⟨more ++ [(e.name ++ [asc ';'], v)], by simp only []; rw [hg, List.append_assoc], ?_⟩
        intro x hx
        rcases List.mem_append.mp hx with hx | hx
        · exact hm x hx
        · rw [List.mem_singleton.mp hx]
          refine ⟨⟨e.name, hn, rfl⟩, parse_no_nul hv, ?_⟩
          intro ha
          rw [hg, validate_amp _ _ _ v ha] at hval
          cases hval
      · cases h

theorem declareAll_good {junk : Nat → Byte} {f : Nat} {after : List Byte} : ∀ (es : List XmlDecl) {d d' : XmlDecls}, (∀ e ∈ es, (0 : Byte) ∉ e.name) → GoodDecls d →
    declareAll junk f after d es = .ok (some d') → GoodDecls d' := by
  intro es
  induction es with
  | nil => intro d d' _ hd h; unfold declareAll at h; cases h; exact hd
  | cons e es ih =>
    intro d d' hn hd h
    unfold declareAll at h
    cases h1 : declareEntity junk f after d e with
    | ub => rw [h1] at h; cases h
    | fatal => rw [h1] at h; cases h
    | ok o =>
      rw [h1, Res.ok_bind] at h
      cases o with
      | none => cases h
      | some d1 => exact ih (fun x hx => hn x (List.mem_cons_of_mem _ hx)) (declare_good (hn e List.mem_cons_self) hd h1) h

theorem good_tame {d : XmlDecls} (h : GoodDecls d) (hsz : ∀ e ∈ d.general, e.2.length < sizeMax) : Tame d.general := by
  obtain ⟨more, hg, hm⟩ := h
  intro e he
  have hlen := hsz e he
  rw [hg] at he
  rcases List.mem_append.mp he with h | h
  · have key : ∀ e ∈ predefinedEntities, (0 : Byte) ∉ e.1 ∧ asc ';' ∈ e.1 ∧ (0 : Byte) ∉ e.2 := by decide +kernel
    have key2 : ∀ e ∈ predefinedEntities, ∀ x ∈ (e.2.drop 2).dropLast, digitVal x < 10 := by decide +kernel
    have key3 : ∀ e ∈ predefinedEntities, (e.2.drop 2).dropLast ≠ [] ∧ digitsVal 10 (e.2.drop 2).dropLast ≠ 0 ∧ digitsVal 10 (e.2.drop 2).dropLast < 128 ∧
      e.2 = [asc '&', asc '#'] ++ (e.2.drop 2).dropLast ++ [asc ';'] := by decide +kernel
    have k3 := key3 e h
    exact ⟨(key e h).1, (key e h).2.1, (key e h).2.2, hlen, .inr ⟨_, key2 e h, k3.1, k3.2.1, k3.2.2.1, k3.2.2.2⟩⟩
  · obtain ⟨⟨n, hn, hne⟩, h0, ha⟩ := hm e h
    refine ⟨?_, ?_, h0, hlen, .inl ha⟩
    · rw [hne]; simp only [List.mem_append, List.mem_singleton, not_or]; exact ⟨hn, by decide⟩
    · rw [hne]; simp

/-- **C55** (partial) However a document declares its entities — `es` is any list of declarations, general and parameter ones, in any
order, that is accepted — the expansion of general entities in content and in attributes ends, without an access outside the text, for
every text.  Missing: parameter entities, whose cycles are accepted and never end (`C55_parameter_violated`); the text must not end in a
carriage return (`C85_end_violated`). -/
theorem C55_general_partial (junk : Nat → Byte) (f : Nat) (after : List Byte) (es : List XmlDecl) (d : XmlDecls) (hn : ∀ e ∈ es, (0 : Byte) ∉ e.name)
    (h : declareAll junk f after noDecls es = .ok (some d)) (hsz : ∀ e ∈ d.general, e.2.length < sizeMax)
    (st : XmlState) (hst : st = .general ∨ st = .attribute) (s behind : List Byte) (h0 : (0 : Byte) ∉ s) (hw : EndsWell s) :
    ∃ o f0, ∀ f' ≥ f0, parseEntities junk f' (s ++ 0 :: behind) d.general st = .ok o := by
  have hg : GoodDecls d := declareAll_good es hn ⟨[], by simp [noDecls], by simp⟩ h
  obtain ⟨t', ht'⟩ := normalize_start s behind h0 hw
  obtain ⟨mem, f0, hf⟩ := tame_runs junk d.general (good_tame hg hsz) st (by rcases hst with rfl | rfl <;> decide) _ _ (lines s) (Nat.le_refl _) (Nat.le_refl _)
    (lines_no_nul s h0) [] t' false
  refine ⟨textOf mem, f0, fun f' hge => ?_⟩
  unfold parseEntities
  rw [ht', Res.ok_bind]
  have := hf f' hge
  unfold scan at this
  simp only [List.nil_append, List.length_nil] at this
  rw [this, Res.ok_bind, if_neg (by rcases hst with rfl | rfl <;> decide), Res.ok_bind]

/-- **C55** (partial) The texts of the general entities of an accepted document refer to no entity at all — so to none in a cycle —
apart from the five predefined ones, whose texts are character references. -/
theorem C55_acyclic_partial (junk : Nat → Byte) (f : Nat) (after : List Byte) (es : List XmlDecl) (d : XmlDecls) (hn : ∀ e ∈ es, (0 : Byte) ∉ e.name)
    (h : declareAll junk f after noDecls es = .ok (some d)) :
    ∃ more, d.general = predefinedEntities ++ more ∧ ∀ e ∈ more, asc '&' ∉ e.2 := by
  obtain ⟨more, hg, hm⟩ := declareAll_good es hn ⟨[], by simp [noDecls], by simp⟩ h
  exact ⟨more, hg, fun e he => (hm e he).2.2⟩

/-- In the text of a declaration everything but character references and references to parameter entities stands for itself. -/
theorem runs_declared {junk ents} (t : List Byte) (own : Bool) : ∀ (v d : List Byte), (0 : Byte) ∉ v → asc '%' ∉ v → ¬ [asc '&', asc '#'] <:+: v →
    Runs junk ents .parameter (scan d v t own) (d ++ v ++ 0 :: t) := by
  intro v
  induction v with
  | nil => intro d _ _ _; simpa using Runs.stop (junk := junk) (ents := ents) (st := .parameter) d t own
  | cons c v ih =>
    intro d h0 hp hr
    simp only [List.mem_cons, not_or] at h0 hp
    refine .next (s' := scan (d ++ [c]) v t own) ?_ ?_
    · rw [step_other junk ents .parameter d v t c own (fun e => h0.1 e.symm)]
      · have : startsEntity .parameter c = false := by
          unfold startsEntity
          have : (c == asc '%') = false := by simpa using fun e => hp.1 e.symm
          rw [this]
          simp
        rw [this]
        simp only [Bool.false_eq_true, if_false]
        rw [if_neg]
        simp
      · rintro ⟨_, rfl, h⟩
        cases v with
        | nil => exact absurd h (by decide)
        | cons x v =>
          have hx : x = asc '#' := h
          subst hx
          exact hr ⟨[], v, rfl⟩
    · have := ih (d ++ [c]) h0.2 hp.2 (fun h => hr (h.trans (List.infix_cons List.infix_rfl)))
      simpa using this

/-- **C55** Whatever has been declared before, a general entity whose text refers to a general entity — to itself, to one declared
before or after it, along a cycle or not — is refused as circular. -/
theorem C55_refused (junk : Nat → Byte) (f : Nat) (after : List Byte) (es : List XmlDecl) (d : XmlDecls) (hn : ∀ e ∈ es, (0 : Byte) ∉ e.name)
    (h : declareAll junk f after noDecls es = .ok (some d)) (name text : List Byte) (h0 : (0 : Byte) ∉ text) (hcr : (13 : Byte) ∉ text) (hp : asc '%' ∉ text)
    (hr : ¬ [asc '&', asc '#'] <:+: text) (ha : asc '&' ∈ text) :
    ∃ f0, ∀ f' ≥ f0, declareEntity junk f' after d ⟨false, name, text⟩ = .ok none := by
  obtain ⟨more, hg, _⟩ := declareAll_good es hn ⟨[], by simp [noDecls], by simp⟩ h
  obtain ⟨f0, hf⟩ := runs_parse (junk := junk) (ents := d.params) (st := .parameter) (mem := text) text after (by decide) h0 (endsWell_of text hcr) (fun t' => ⟨t', by
    rw [lines_id text hcr]
    simpa using runs_declared (junk := junk) (ents := d.params) t' false text [] h0 hp hr⟩) h0
  refine ⟨f0, fun f' hge => ?_⟩
  unfold declareEntity
  rw [hf f' hge, Res.ok_bind]
  simp only [Bool.false_eq_true, if_false]
  rw [hg, validate_amp _ _ _ text ha]
  rfl

/-- **C55** (violated) Documents without any cycle are refused as circular: an entity may not even refer to a predefined entity, as
`<!ENTITY firm "AT&amp;T">` does, nor to one declared before it, as `<!ENTITY a "x"><!ENTITY b "&a;">` does. -/
theorem C55_harmless_violated (junk : Nat → Byte) (after : List Byte) :
    (∃ f0, ∀ f ≥ f0, declareAll junk f after noDecls [⟨false, bytes "firm", bytes "AT&amp;T"⟩] = .ok none) ∧
    (∃ f0, ∀ f ≥ f0, declareAll junk f after noDecls [⟨false, bytes "a", bytes "x"⟩, ⟨false, bytes "b", bytes "&a;"⟩] = .ok none) := by
  have nohash : ∀ (l : List Byte), asc '#' ∉ l → ¬ [asc '&', asc '#'] <:+: l := fun l h hi => h (hi.subset (by simp))
  refine ⟨?_, ?_⟩
  · obtain ⟨f0, h⟩ := C55_refused junk 0 after [] noDecls (by simp) rfl (bytes "firm") (bytes "AT&amp;T") (by decide) (by decide) (by decide) (nohash _ (by decide)) (by decide)
    refine ⟨f0, fun f hf => ?_⟩
    unfold declareAll
    rw [h f hf]
    rfl
  · obtain ⟨f1, h1⟩ := runs_parse (junk := junk) (ents := noDecls.params) (st := .parameter) (mem := bytes "x") (bytes "x") after (by decide) (by decide) (endsWell_of _ (by decide))
      (fun t' => ⟨t', by
        rw [lines_id _ (by decide)]
        simpa using runs_declared (junk := junk) (ents := noDecls.params) t' false (bytes "x") [] (by decide) (by decide) (nohash _ (by decide))⟩) (by decide)
    have hd : ∀ f ≥ f1, declareEntity junk f after noDecls ⟨false, bytes "a", bytes "x"⟩ = .ok (some { noDecls with general := noDecls.general ++ [(bytes "a" ++ [asc ';'], bytes "x")] }) := by
      intro f hf
      unfold declareEntity
      rw [h1 f hf, Res.ok_bind]
      simp only [Bool.false_eq_true, if_false]
      rw [validate_no_amp _ _ 1024 _ (by decide)]
      rfl
    obtain ⟨f0, h⟩ := C55_refused junk f1 after [⟨false, bytes "a", bytes "x"⟩] { noDecls with general := noDecls.general ++ [(bytes "a" ++ [asc ';'], bytes "x")] } (by decide)
      (by unfold declareAll; rw [hd f1 (Nat.le_refl _), Res.ok_bind]; rfl)
      (bytes "b") (bytes "&a;") (by decide) (by decide) (by decide) (nohash _ (by decide)) (by decide)
    refine ⟨f0 + f1, fun f hf => ?_⟩
    unfold declareAll
    rw [hd f (by omega), Res.ok_bind]
    simp only []
    unfold declareAll
    rw [h f (by omega)]
    rfl

/-- A reference that is replaced by itself. -/
theorem parameter_loops (junk : Nat → Byte) (n : List Byte) (h0 : (0 : Byte) ∉ n) (hs : asc ';' ∉ n) (hsz : n.length + 2 < sizeMax) :
    ∀ (f : Nat) (t : List Byte) (own : Bool),
    entityLoop junk [(n ++ [asc ';'], asc '%' :: n ++ [asc ';'])] .parameter f (scan [] (asc '%' :: n ++ [asc ';']) t own) = .fatal := by
  intro f
  induction f with
  | zero => intro _ _; rfl
  | succ f ih =>
    intro t own
    unfold entityLoop
    rw [List.cons_append, step_other junk _ .parameter [] (n ++ [asc ';']) t (asc '%') own (by decide) (by rintro ⟨_, h, _⟩; revert h; decide), if_pos (by decide),
      findEntity_spec [] (n ++ [asc ';']) t (asc '%') _ (by
        intro e he
        rw [List.mem_singleton.mp he]
        simp only [List.mem_append, List.mem_singleton, not_or]
        exact ⟨h0, by decide⟩), Res.ok_bind]
    have hl : lookupEnt (n ++ [asc ';']) [(n ++ [asc ';'], asc '%' :: (n ++ [asc ';']))] = some (asc '%' :: (n ++ [asc ';'])) := by
      unfold lookupEnt
      rw [List.find?_cons_of_pos (by simp)]
      rfl
    rw [hl]
    simp only []
    obtain ⟨d', r', t', own', h, hdl, hc⟩ := replace_text junk [] (asc '%' :: n) [] t (asc '%' :: (n ++ [asc ';'])) own
      (by simp only [List.mem_cons, not_or]; exact ⟨by decide, h0⟩) (by simp only [List.mem_cons, not_or]; exact ⟨by decide, hs⟩) (by simp) (by simp) (by simp; omega)
    rw [show asc '%' :: (n ++ [asc ';']) = (asc '%' :: n) ++ asc ';' :: [] by simp] at h ⊢
    rw [h, Res.ok_bind]
    rcases hc with ⟨_, rfl, hr⟩ | ⟨hm, _⟩
    · subst hr
      have := ih t' own'
      unfold scan at this
      simpa using this
    · simp at hm

/-- **C55** (violated) A parameter entity may refer to itself: whatever its name, `<!ENTITY % n "%n;"><!ENTITY x "%n;">` is not
rejected, and the reference in the second declaration is replaced for ever. -/
theorem C55_parameter_violated (junk : Nat → Byte) (after n x : List Byte) (h0 : (0 : Byte) ∉ n) (hs : asc ';' ∉ n) (hcr : (13 : Byte) ∉ n) (hp : asc '%' ∉ n) (ha : asc '&' ∉ n)
    (hsz : n.length + 2 < sizeMax) :
    (∃ f0, ∀ f ≥ f0, declareAll junk f after noDecls [⟨true, n, asc '%' :: n ++ [asc ';']⟩] =
      .ok (some ⟨predefinedEntities, [(n ++ [asc ';'], asc '%' :: n ++ [asc ';'])]⟩)) ∧
    ∀ f, declareAll junk f after noDecls [⟨true, n, asc '%' :: n ++ [asc ';']⟩, ⟨false, x, asc '%' :: n ++ [asc ';']⟩] = .fatal := by
  have v0 : (0 : Byte) ∉ asc '%' :: n ++ [asc ';'] := by
    simp only [List.cons_append, List.mem_cons, List.mem_append, List.not_mem_nil, or_false, not_or]; exact ⟨by decide, h0, by decide⟩
  have v13 : (13 : Byte) ∉ asc '%' :: n ++ [asc ';'] := by
    simp only [List.cons_append, List.mem_cons, List.mem_append, List.not_mem_nil, or_false, not_or]; exact ⟨by decide, hcr, by decide⟩
  have va : asc '&' ∉ asc '%' :: n ++ [asc ';'] := by
    simp only [List.cons_append, List.mem_cons, List.mem_append, List.not_mem_nil, or_false, not_or]; exact ⟨by decide, ha, by decide⟩
  have nov : ∀ t', Runs junk [] .parameter (scan [] (asc '%' :: n ++ [asc ';']) t' false) (asc '%' :: n ++ [asc ';'] ++ 0 :: t') := by
    intro t'
    refine .next (s' := scan [asc '%'] (n ++ [asc ';']) t' false) ?_ ?_
    · rw [List.cons_append, step_other junk _ .parameter [] (n ++ [asc ';']) t' (asc '%') false (by decide) (by rintro ⟨_, h, _⟩; revert h; decide), if_pos (by decide),
        findEntity_spec [] (n ++ [asc ';']) t' (asc '%') _ (by simp), Res.ok_bind]
      rfl
    · have := runs_declared (junk := junk) (ents := []) t' false (n ++ [asc ';']) [asc '%'] (fun h => v0 (List.mem_cons_of_mem _ h))
        (by simp only [List.mem_append, List.mem_singleton, not_or]; exact ⟨hp, by decide⟩) (fun hi => va (List.mem_cons_of_mem _ (hi.subset (by simp))))
      simpa using this
  obtain ⟨f0, hf⟩ := runs_parse (junk := junk) (ents := []) (st := .parameter) (mem := asc '%' :: n ++ [asc ';']) (asc '%' :: n ++ [asc ';']) after (by decide) v0
    (endsWell_of _ v13) (fun t' => ⟨t', by rw [lines_id _ v13]; exact nov t'⟩) v0
  have hd : ∀ f, parseEntities junk f (asc '%' :: n ++ [asc ';'] ++ 0 :: after) [] .parameter = .ok (asc '%' :: n ++ [asc ';']) →
      declareEntity junk f after noDecls ⟨true, n, asc '%' :: n ++ [asc ';']⟩ = .ok (some ⟨predefinedEntities, [(n ++ [asc ';'], asc '%' :: n ++ [asc ';'])]⟩) := by
    intro f h
    unfold declareEntity
    rw [show noDecls.params = [] from rfl]
    simp only []
    rw [h, Res.ok_bind]
    simp only [if_true]
    rw [validate_no_amp _ _ 1024 _ va]
    rfl
  have loop : ∀ f, parseEntities junk f (asc '%' :: n ++ [asc ';'] ++ 0 :: after) [(n ++ [asc ';'], asc '%' :: n ++ [asc ';'])] .parameter = .fatal := by
    intro f
    obtain ⟨t', ht'⟩ := normalize_start _ after v0 (endsWell_of _ v13)
    unfold parseEntities
    rw [ht', Res.ok_bind, lines_id _ v13]
    have := parameter_loops junk n h0 hs hsz f t' false
    unfold scan at this
    simp only [List.nil_append, List.length_nil] at this
    rw [this]
    rfl
  refine ⟨⟨f0, fun f hge => ?_⟩, fun f => ?_⟩
  · unfold declareAll
    rw [hd f (hf f hge), Res.ok_bind]
    rfl
  · -- with too little fuel the first declaration already runs out
    have mono : ∀ (g f : Nat) (s : XmlScan) (m : List Byte), entityLoop junk [] .parameter (f + g) s = .ok m → entityLoop junk [] .parameter f s = .ok m ∨ entityLoop junk [] .parameter f s = .fatal := by
      intro g f
      induction f with
      | zero => intro s m _; exact .inr rfl
      | succ f ih =>
        intro s m h
        rw [show f + 1 + g = (f + g) + 1 by omega] at h
        unfold entityLoop at h ⊢
        cases hst : entityStep junk [] .parameter s with
        | ub => rw [hst] at h; cases h
        | fatal => exact .inr rfl
        | ok o =>
          rw [hst, Res.ok_bind] at h
          rw [Res.ok_bind]
          cases o with
          | none => exact .inl h
          | some s' => exact ih s' m h
    have hcase : parseEntities junk f (asc '%' :: n ++ [asc ';'] ++ 0 :: after) [] .parameter = .ok (asc '%' :: n ++ [asc ';']) ∨
        parseEntities junk f (asc '%' :: n ++ [asc ';'] ++ 0 :: after) [] .parameter = .fatal := by
      have hbig := hf (f + f0) (by omega)
      unfold parseEntities at hbig ⊢
      obtain ⟨t', ht'⟩ := normalize_start _ after v0 (endsWell_of _ v13)
      rw [ht', Res.ok_bind] at hbig ⊢
      cases hl : entityLoop junk [] .parameter (f + f0) ⟨lines (asc '%' :: n ++ [asc ';']) ++ 0 :: t', false, 0⟩ with
      | ub => rw [hl] at hbig; cases hbig
      | fatal => rw [hl] at hbig; cases hbig
      | ok m =>
        rw [hl] at hbig
        rcases mono f0 f _ m hl with h | h
        · rw [h]; exact .inl hbig
        · rw [h]; exact .inr rfl
    unfold declareAll
    rcases hcase with h | h
    · rw [hd f h, Res.ok_bind]
      simp only []
      unfold declareAll declareEntity
      simp only []
      rw [loop f]
      rfl
    · unfold declareEntity
      rw [show noDecls.params = [] from rfl]
      simp only []
      rw [h]
      rfl

/-- The hypotheses of `C55_general_partial` are met by a document with general and parameter entities. -/
example : ∃ d, declareAll (fun _ => 0) 20 (bytes ">") noDecls [⟨true, bytes "p", bytes "in"⟩, ⟨false, bytes "a", bytes "x %p; &#65;"⟩] = .ok (some d) ∧
    d.general = predefinedEntities ++ [(bytes "a;", bytes "x in A")] ∧ parseEntities (fun _ => 0) 30 (bytes "1&lt;2 &a;&b;" ++ [0]) d.general .general = .ok (bytes "1<2 x in A&b;") := by
  refine ⟨⟨predefinedEntities ++ [(bytes "a;", bytes "x in A")], [(bytes "p;", bytes "in")]⟩, ?_, rfl, ?_⟩ <;> decide +kernel

example : (0 : Byte) ∉ bytes "&a;" ∧ (13 : Byte) ∉ bytes "&a;" ∧ asc '%' ∉ bytes "&a;" ∧ asc '&' ∈ bytes "&a;" := by decide

end Wizard.Props

import Verif.Props.Xml
/-! C86: the values of XML attributes. -/
namespace Wizard.Props
open Wizard Wizard.XmlP Wizard.Spec.Utf Wizard.Spec.Xml

/-- Vertical tabs and form feeds, which XML does not allow, are white space to C. -/
def Clean (s : List Byte) : Prop := ∀ c ∈ s, c ≠ 11 ∧ c ≠ 12

theorem lit_attValue (st : XmlState) (hst : st = .attribute ∨ st = .token) (c : Byte) (h : c ≠ 11 ∧ c ≠ 12) : litOf st c = attValue c := by
  have key : ∀ c : Byte, c ≠ 11 ∧ c ≠ 12 → (if isSpaceC c = true then (0x20 : Byte) else c) = attValue c := by decide +kernel
  rw [← key c h]
  unfold litOf
  by_cases hs : isSpaceC c = true
  · rw [if_pos ⟨hst, hs⟩, if_pos hs]
  · rw [if_neg (fun h => hs h.2), if_neg hs]

theorem means_lit {st : XmlState} (hst : st = .attribute ∨ st = .token) {decls : List (List Byte × List Byte)} (hd : ∀ d ∈ decls, Clean d.2) {t o : List Byte}
    (h : Means attValue decls t o) : Clean t → Means (litOf st) decls t o := by
  induction h with
  | done => intro _; exact .done
  | @plain c r o hc h0 hm ih =>
    intro hv
    rw [← lit_attValue st hst c (hv c List.mem_cons_self)]
    exact .plain hc h0 (ih (fun x hx => hv x (List.mem_cons_of_mem _ hx)))
  | decimal hw hn hsc hm ih => intro hv; exact .decimal hw hn hsc (ih (fun x hx => hv x (List.mem_append_right _ hx)))
  | hex hw hn hsc hm ih => intro hv; exact .hex hw hn hsc (ih (fun x hx => hv x (List.mem_append_right _ hx)))
  | known hk hm ih => intro hv; exact .known hk (ih (fun x hx => hv x (List.mem_append_right _ hx)))
  | @entity name v r o hk hf hm ih =>
    intro hv
    have hcl := hd _ (List.mem_of_find?_eq_some hf)
    have e : v.map attValue = v.map (litOf st) := List.map_congr_left (fun c hc => (lit_attValue st hst c (hcl c hc)).symm)
    rw [e]
    exact .entity hk hf (ih (fun x hx => hv x (List.mem_append_right _ hx)))

theorem attValue_ne_zero (c : Byte) (h : c ≠ 0) : attValue c ≠ 0 := by
  unfold attValue; split
  · decide
  · exact h

/-- **C86** (partial) The value of an attribute: references are replaced as in content, and every other white-space byte, in the value
and in the texts of entities, stands for a space.  Missing: entities with an empty text (`C84_empty_violated`), values that end in a
carriage return (`C85_end_violated`). -/
theorem C86_value_partial (junk : Nat → Byte) (decls : List (List Byte × List Byte)) (hs : Sensible decls) (hne : ∀ d ∈ decls, d.2 ≠ []) (hdc : ∀ d ∈ decls, Clean d.2)
    (s o after : List Byte) (h0 : (0 : Byte) ∉ s) (hw : EndsWell s) (hc : Clean (lines s)) (h : Means attValue decls (lines s) o) :
    ∃ f0, ∀ f ≥ f0, parseEntities junk f (s ++ 0 :: after) (predefinedEntities ++ entTable decls) .attribute = .ok o := by
  have hnul := means_no_nul attValue_ne_zero hs h
  refine runs_parse s after (by decide) h0 hw (fun t' => ?_) hnul.2
  obtain ⟨T, hr⟩ := runs_means junk .attribute (.inr (.inl rfl)) decls hs hne (means_lit (.inl rfl) hdc h hc) [] t' false (by simp)
  exact ⟨T, hr⟩

/-! ### Spaces -/

theorem takeWhile_spaces (sp r : List Byte) (hsp : ∀ c ∈ sp, c = 32) (hr : r.head? ≠ some 32) : (sp ++ r).takeWhile (· == (0x20 : Byte)) = sp := by
  induction sp with
  | nil =>
    cases r with
    | nil => rfl
    | cons c r =>
      have : (c == (0x20 : Byte)) = false := by simpa using hr
      rw [List.nil_append, List.takeWhile_cons, this]
      rfl
  | cons c sp ih =>
    have hc := hsp c List.mem_cons_self
    subst hc
    rw [List.cons_append, List.takeWhile_cons_of_pos (by decide), ih (fun x hx => hsp x (List.mem_cons_of_mem _ hx))]

theorem takeWhile_word (w r : List Byte) (hw : (32 : Byte) ∉ w) (hr : r = [] ∨ r.head? = some 32) : (w ++ r).takeWhile (· != (0x20 : Byte)) = w := by
  induction w with
  | nil =>
    cases r with
    | nil => rfl
    | cons c r =>
      have : c = 32 := by simpa using hr
      subst this
      rfl
  | cons c w ih =>
    simp only [List.mem_cons, not_or] at hw
    have : (c != (0x20 : Byte)) = true := by simpa using fun e => hw.1 e.symm
    rw [List.cons_append, List.takeWhile_cons, this, ih hw.2]
    rfl

/-- The words behind a space, each with a space before it. -/
def spaced (ws : List (List Byte)) : List Byte := ws.flatMap (fun w => 32 :: w)

theorem shift_front (d sp r t : List Byte) (h0 : (0 : Byte) ∉ r) (n : Nat) (hn : n = r.length + 1) :
    ∃ t', memmoveMem (d ++ (sp ++ r ++ 0 :: t)) d.length (d.length + sp.length) n = .ok (d ++ (r ++ 0 :: t')) := by
  subst hn
  refine ⟨(sp ++ r ++ 0 :: t).drop (r.length + 1), ?_⟩
  unfold memmoveMem rdN
  rw [if_pos (by simp; omega), Res.ok_bind]
  rw [show d ++ (sp ++ r ++ 0 :: t) = (d ++ sp) ++ (r ++ 0 :: t) by simp, List.drop_left' (by simp), show r ++ 0 :: t = (r ++ [0]) ++ t by simp,
    List.take_left' (by simp)]
  unfold wrN
  rw [if_pos (by simp; omega), show d ++ sp ++ (r ++ [0] ++ t) = d ++ (sp ++ r ++ 0 :: t) by simp, List.take_left' rfl, drop_app]
  simp

/-- The loop over the words: `d` is what lies before the position. -/
theorem squeeze_words : ∀ (n : Nat) (s d t : List Byte) (ws : List (List Byte)) (fuel : Nat), s.length ≤ n → s.length < fuel → (0 : Byte) ∉ s → Words s ws →
    ∃ t', squeezeSpaces fuel (d ++ (s ++ 0 :: t)) d.length = .ok (d ++ ((spaced ws).drop 1 ++ 0 :: t'), d.length + ((spaced ws).drop 1).length) ∨
      (ws ≠ [] ∧ squeezeSpaces fuel (d ++ (s ++ 0 :: t)) d.length = .ok (d ++ ((spaced ws).drop 1 ++ 32 :: 0 :: t'), d.length + ((spaced ws).drop 1).length + 1)) := by
  intro n
  induction n with
  | zero =>
    intro s d t ws fuel hn hf h0 hw
    have : s = [] := by simpa using hn
    subst this
    match fuel, hf with
    | fuel + 1, _ =>
    generalize hs : ([] : List Byte) = s at hw
    cases hw with
    | none _ =>
      refine ⟨t, .inl ?_⟩
      unfold squeezeSpaces
      rw [← hs]
      have := strAt_spec d [] t 0 (by simp) (by simp)
      rw [Nat.add_zero, List.drop_zero] at this
      rw [this, Res.ok_bind, if_pos rfl]
      simp [spaced]
    | word _ hne _ _ _ =>
      have h := congrArg List.length hs
      simp at h
      have := List.length_pos_iff.mpr hne
      omega
  | succ n ih =>
    intro s d t ws fuel hn hf h0 hw
    match fuel, hf with
    | fuel + 1, hf =>
    have hstr : strAt (d ++ (s ++ 0 :: t)) d.length = .ok s := by
      have := strAt_spec d s t 0 (by simp) h0
      rw [Nat.add_zero] at this
      simpa using this
    unfold squeezeSpaces
    rw [hstr, Res.ok_bind]
    by_cases hse : s = []
    · subst hse
      rw [if_pos rfl]
      generalize hs : ([] : List Byte) = s at hw
      cases hw with
      | none _ => exact ⟨t, .inl (by simp [spaced, ← hs])⟩
      | word _ hne _ _ _ =>
        have h := congrArg List.length hs
        simp at h
        have := List.length_pos_iff.mpr hne
        omega
    rw [if_neg hse]
    simp only []
    -- removing the spaces at the front
    have front : ∀ (sp r : List Byte), s = sp ++ r → (∀ c ∈ sp, c = 32) → r.head? ≠ some 32 →
        ∃ t', dropSpaces (d ++ (s ++ 0 :: t)) d.length (s.takeWhile (· == (0x20 : Byte))).length s.length = .ok (d ++ (r ++ 0 :: t')) ∧ s.drop (s.takeWhile (· == (0x20 : Byte))).length = r := by
      intro sp r hs hsp hr
      subst hs
      rw [takeWhile_spaces sp r hsp hr]
      refine Exists.imp (fun t' h => ⟨h, List.drop_left' rfl⟩) (?_ : ∃ t', _ = _)
      unfold dropSpaces
      by_cases hl : sp.length ≠ 0
      · rw [if_pos hl]
        exact shift_front d sp r t (fun h => h0 (List.mem_append_right _ h)) _ (by simp)
      · rw [if_neg hl]
        have : sp = [] := by simpa using hl
        subst this
        exact ⟨t, rfl⟩
    cases hw with
    | none hsp =>
      obtain ⟨t', h1, h2⟩ := front s [] (by simp) hsp (by simp)
      rw [h1, Res.ok_bind, h2]
      exact ⟨t', .inl (by simp [spaced])⟩
    | @word sp w rest ws hsp hne hw hrest hws =>
      have hhd : (w ++ rest).head? ≠ some 32 := by
        cases w with
        | nil => exact absurd rfl hne
        | cons c w => intro e; exact hw (by rw [show c = 32 by simpa using e]; simp)
      obtain ⟨t', h1, h2⟩ := front sp (w ++ rest) (by simp) hsp hhd
      rw [h1, Res.ok_bind, h2, takeWhile_word w rest hw hrest, List.drop_left' rfl]
      have hwl := List.length_pos_iff.mpr hne
      rcases hrest with rfl | hrest
      · rw [if_pos rfl]
        generalize hs : ([] : List Byte) = z at hws
        cases hws with
        | none _ => exact ⟨t', .inl (by simp [spaced, ← hs])⟩
        | word _ hne _ _ _ =>
          have h := congrArg List.length hs
          simp at h
          have := List.length_pos_iff.mpr hne
          omega
      · cases rest with
        | nil => simp at hrest
        | cons c rest =>
          have hc : c = 32 := by simpa using hrest
          subst hc
          rw [if_neg (by simp)]
          -- the words of what follows the space
          have hws' : Words rest ws := by
            generalize hz : (32 : Byte) :: rest = z at hws
            cases hws with
            | none h => subst hz; exact .none (fun c hc => h c (List.mem_cons_of_mem _ hc))
            | @word sp2 w2 rest2 ws2 hsp2 hne2 hw2 hr2 hws2 =>
              cases sp2 with
              | nil =>
                cases w2 with
                | nil => exact absurd rfl hne2
                | cons x w2 =>
                  have : (32 : Byte) = x := by simpa using (congrArg List.head? hz)
                  exact absurd (by rw [this]; simp) hw2
              | cons x sp2 =>
                have : rest = sp2 ++ w2 ++ rest2 := by simpa using (congrArg List.tail hz)
                rw [this]
                exact .word (fun c hc => hsp2 c (List.mem_cons_of_mem _ hc)) hne2 hw2 hr2 hws2
          have hlen : rest.length ≤ n := by simp at hn; omega
          have hr0 : (0 : Byte) ∉ rest := fun h => h0 (List.mem_append_right _ (List.mem_cons_of_mem _ h))
          have hf' : rest.length < fuel := by simp at hf; omega
          obtain ⟨t2, h⟩ := ih rest (d ++ (w ++ [32])) t' ws fuel hlen hf' hr0 hws'
          rw [show d ++ (w ++ 32 :: rest ++ 0 :: t') = (d ++ (w ++ [32])) ++ (rest ++ 0 :: t') by simp,
            show d.length + w.length + 1 = (d ++ (w ++ [32])).length by simp [Nat.add_assoc]]
          cases ws with
          | nil =>
            rcases h with h | ⟨hne', _⟩
            · refine ⟨t2, .inr ⟨by simp, ?_⟩⟩
              rw [h]
              simp [spaced]
              omega
            · exact absurd rfl hne'
          | cons w1 ws =>
            have e1 : (spaced (w :: w1 :: ws)).drop 1 = w ++ [32] ++ (spaced (w1 :: ws)).drop 1 := by simp [spaced]
            rw [e1]
            rcases h with h | ⟨_, h⟩
            · refine ⟨t2, .inl ?_⟩
              rw [h]
              simp
              omega
            · refine ⟨t2, .inr ⟨by simp, ?_⟩⟩
              rw [h]
              simp
              omega

theorem words_spaced {s : List Byte} {ws : List (List Byte)} (h : Words s ws) : ∀ w ∈ ws, w ≠ [] ∧ (32 : Byte) ∉ w ∧ ∀ c ∈ w, c ∈ s := by
  induction h with
  | none _ => simp
  | @word sp w rest ws _ hne hw _ _ ih =>
    intro x hx
    rcases List.mem_cons.mp hx with rfl | hx
    · exact ⟨hne, hw, fun c hc => by simp [hc]⟩
    · exact ⟨(ih x hx).1, (ih x hx).2.1, fun c hc => by simp [(ih x hx).2.2 c hc]⟩

theorem spaced_intercalate : ∀ (ws : List (List Byte)), (spaced ws).drop 1 = List.intercalate [32] ws := by
  intro ws
  induction ws with
  | nil => rfl
  | cons w ws ih =>
    cases ws with
    | nil => simp [spaced, List.intercalate]
    | cons w1 ws =>
      rw [List.intercalate_cons_cons, ← ih]
      simp [spaced]

theorem squeezeToken_spec (s t : List Byte) (ws : List (List Byte)) (h0 : (0 : Byte) ∉ s) (hw : Words s ws) :
    ∃ t', squeezeToken (s ++ 0 :: t) = .ok (List.intercalate [32] ws ++ 0 :: t') := by
  obtain ⟨t', h⟩ := squeeze_words s.length s [] t ws ((s ++ 0 :: t).length + 1) (Nat.le_refl _) (by simp; omega) h0 hw
  rw [spaced_intercalate] at h
  simp only [List.nil_append, List.length_nil, Nat.zero_add] at h
  have hlast : ∀ x, (List.intercalate [32] ws).getLast? = some x → x ≠ 32 := by
    intro x hx e
    subst e
    rw [← spaced_intercalate] at hx
    have hws := words_spaced hw
    clear h hw
    induction ws with
    | nil => simp [spaced] at hx
    | cons w ws ih =>
      cases ws with
      | nil =>
        have : w.getLast? = some 32 := by simpa [spaced] using hx
        exact (hws w List.mem_cons_self).2.1 (List.mem_of_getLast? this)
      | cons w1 ws =>
        refine ih ?_ (fun x hx => hws x (List.mem_cons_of_mem _ hx))
        have e1 : (spaced (w :: w1 :: ws)).drop 1 = w ++ [32] ++ (spaced (w1 :: ws)).drop 1 := by simp [spaced]
        rw [e1] at hx
        have hne : (spaced (w1 :: ws)).drop 1 ≠ [] := by
          have := (hws w1 (by simp)).1
          simp [spaced, this]
        rw [List.getLast?_append] at hx
        cases hg : ((spaced (w1 :: ws)).drop 1).getLast? with
        | none => exact absurd (List.getLast?_eq_none_iff.mp hg) hne
        | some y => rw [hg] at hx; exact hx
  unfold squeezeToken
  rcases h with h | ⟨hne, h⟩
  · rw [h, Res.ok_bind]
    simp only []
    unfold trimLast
    by_cases hz : (List.intercalate [32] ws).length = 0
    · rw [if_pos hz]; exact ⟨t', rfl⟩
    · rw [if_neg hz]
      obtain ⟨x, hx⟩ : ∃ x, (List.intercalate [32] ws).getLast? = some x := by
        cases hg : (List.intercalate [32] ws).getLast? with
        | none => rw [List.getLast?_eq_none_iff] at hg; rw [hg] at hz; simp at hz
        | some x => exact ⟨x, rfl⟩
      obtain ⟨ys, hys⟩ := List.getLast?_eq_some_iff.mp hx
      rw [hys, show (ys ++ [x]).length - 1 = ys.length by simp, show ys ++ [x] ++ 0 :: t' = ys ++ x :: 0 :: t' by simp]
      have : rd (ys ++ x :: 0 :: t') ys.length = .ok x := by unfold rd; simp
      rw [this, Res.ok_bind, if_neg (hlast x hx)]
      exact ⟨t', by simp⟩
  · rw [h, Res.ok_bind]
    simp only []
    unfold trimLast
    rw [if_neg (by omega), Nat.add_sub_cancel]
    have : rd (List.intercalate [32] ws ++ 32 :: 0 :: t') (List.intercalate [32] ws).length = .ok 32 := by unfold rd; simp
    rw [this, Res.ok_bind, if_pos rfl, wr_at]
    exact ⟨0 :: t', by simp⟩

/-- **C86** (partial) The value of an attribute that is not declared as CDATA: the words of the value, separated by single spaces.
Missing: as for `C86_value_partial`. -/
theorem C86_token_partial (junk : Nat → Byte) (decls : List (List Byte × List Byte)) (hs : Sensible decls) (hne : ∀ d ∈ decls, d.2 ≠ []) (hdc : ∀ d ∈ decls, Clean d.2)
    (s o after : List Byte) (ws : List (List Byte)) (h0 : (0 : Byte) ∉ s) (hw : EndsWell s) (hc : Clean (lines s)) (h : Means attValue decls (lines s) o) (hws : Words o ws) :
    ∃ f0, ∀ f ≥ f0, parseEntities junk f (s ++ 0 :: after) (predefinedEntities ++ entTable decls) .token = .ok (List.intercalate [32] ws) := by
  have hnul := means_no_nul attValue_ne_zero hs h
  obtain ⟨t', ht'⟩ := normalize_start s after h0 hw
  obtain ⟨T, f0, hf⟩ := runs_means junk .token (.inr (.inr rfl)) decls hs hne (means_lit (.inr rfl) hdc h hc) [] t' false (by simp)
  obtain ⟨T', hT⟩ := squeezeToken_spec o T ws hnul.2 hws
  have hn0 : (0 : Byte) ∉ List.intercalate [32] ws := by
    rw [← spaced_intercalate]
    intro hm
    obtain ⟨w, hwm, hc⟩ := List.mem_flatMap.mp (List.mem_of_mem_drop hm)
    rcases List.mem_cons.mp hc with e | hc
    · exact absurd e (by decide)
    · exact hnul.2 ((words_spaced hws w hwm).2.2 0 hc)
  refine ⟨f0, fun f hge => ?_⟩
  unfold parseEntities
  rw [ht', Res.ok_bind]
  have := hf f hge
  unfold scan at this
  simp only [List.nil_append, List.length_nil] at this
  rw [this, Res.ok_bind, if_pos rfl, hT, Res.ok_bind]
  show Res.ok (textOf _) = _
  rw [textOf_text _ _ hn0]

/-- Every text has words: the hypothesis of `C86_token_partial` can always be met. -/
theorem words_exist : ∀ (n : Nat) (s : List Byte), s.length ≤ n → ∃ ws, Words s ws := by
  intro n
  induction n with
  | zero => intro s h; exact ⟨[], .none (by have : s = [] := by simpa using h
                                            subst this; simp)⟩
  | succ n ih =>
    intro s h
    have e1 := (List.takeWhile_append_dropWhile (p := (· == (32 : Byte))) (l := s)).symm
    generalize hsp : s.takeWhile (· == (32 : Byte)) = sp at e1
    generalize hr : s.dropWhile (· == (32 : Byte)) = r at e1
    have e2 := (List.takeWhile_append_dropWhile (p := (· != (32 : Byte))) (l := r)).symm
    generalize hw : r.takeWhile (· != (32 : Byte)) = w at e2
    generalize hr2 : r.dropWhile (· != (32 : Byte)) = r2 at e2
    have hsp' : ∀ c ∈ sp, c = 32 := by
      intro c hc
      rw [← hsp] at hc
      simpa using mem_takeWhile _ _ _ hc
    have hw' : (32 : Byte) ∉ w := by
      intro hc
      rw [← hw] at hc
      simpa using mem_takeWhile _ _ _ hc
    have hr2' : r2 = [] ∨ r2.head? = some 32 := by
      rw [← hr2]
      cases hd : r.dropWhile (· != (32 : Byte)) with
      | nil => exact .inl rfl
      | cons x xs =>
        right
        have := List.head?_dropWhile_not (· != (32 : Byte)) r
        rw [hd] at this
        simpa using this
    by_cases hwe : w = []
    · subst hwe
      rcases hr2' with rfl | hh
      · exact ⟨[], by rw [e1, e2]; exact .none (by simpa using hsp')⟩
      · exfalso
        have := List.head?_dropWhile_not (· == (32 : Byte)) s
        rw [hr, e2] at this
        simp only [List.nil_append] at this
        rw [hh] at this
        simp at this
    · obtain ⟨ws, hws⟩ := ih r2 (by
        have := List.length_pos_iff.mpr hwe
        rw [e1, e2] at h
        simp at h
        omega)
      exact ⟨w :: ws, by rw [e1, e2, ← List.append_assoc]; exact .word hsp' hwe hw' hr2' hws⟩

example : parseEntities (fun _ => 7) 40 (bytes "  a\n b&#32;&lt;  &who; " ++ [0]) (predefinedEntities ++ entTable [(bytes "who", bytes "x\ty")]) .token = .ok (bytes "a b < x y") := by
  decide +kernel

example : Means attValue [(bytes "who", bytes "x\ty")] (bytes "a\n&who;") (bytes "a x y") ∧ Words (bytes " a  b ") [bytes "a", bytes "b"] := by
  constructor
  · refine .plain (c := 97) (by decide) (by decide) (.plain (c := 10) (o := bytes "x y") (by decide) (by decide) ?_)
    exact .entity (name := bytes "who") (v := bytes "x\ty") (by decide +kernel) (by decide +kernel) .done
  · exact .word (sp := [32]) (w := bytes "a") (rest := bytes "  b ") (by decide) (by decide) (by decide) (by decide)
      (.word (sp := [32, 32]) (w := bytes "b") (rest := [32]) (by decide) (by decide) (by decide) (by decide) (.none (by decide)))

end Wizard.Props

import Verif.Model.Glob
import Verif.Spec.Glob
import Verif.Lemmas.Res
/-! C10: glob matching. -/
namespace Wizard.Props
open Wizard Wizard.Spec

theorem globSame_iff (ci : Bool) (x c : Byte) : globSame ci x c = true ↔ Same ci x c := by
  have h : ∀ c, cLocaleLower c = foldAscii c := by decide +kernel
  cases ci <;> bsimp [globSame, Same, h]

theorem matches_cons_length {ci : Bool} {e : Elem} {ps : List Elem} {t : List Byte}
    (he : e ≠ .star) (h : Matches ci (e :: ps) t) : t ≠ [] := by
  generalize hp : e :: ps = qs at h
  cases h <;> simp_all

theorem matches_star (ci : Bool) (ps : List Elem) (t : List Byte) :
    Matches ci (.star :: ps) t ↔ ∃ u v, t = u ++ v ∧ Matches ci ps v := by
  constructor
  · intro h
    generalize hp : Elem.star :: ps = qs at h
    cases h with
    | @star u ps' t' h => cases hp; exact ⟨u, t', rfl, h⟩
    | _ => cases hp
  · rintro ⟨u, v, rfl, h⟩; exact .star h

/-- Runs of stars. -/
theorem stars (ci : Bool) (ps : List Elem) : (∀ e ∈ ps, e.WF) → ∃ rest, (∀ e ∈ rest, e.WF) ∧
    (patternText ps).dropWhile (· == asc '*') = patternText rest ∧
    (∀ r, rest ≠ .star :: r) ∧
    ((∃ r, ps = .star :: r) → ∀ t, Matches ci ps t ↔ ∃ u v, t = u ++ v ∧ Matches ci rest v) ∧
    ((∀ r, ps ≠ .star :: r) → rest = ps) := by
  intro hwf
  induction ps with
  | nil => exact ⟨[], by bsimp, rfl, by bsimp, by bsimp, by bsimp⟩
  | cons e ps ih =>
    have hps : ∀ e ∈ ps, e.WF := fun x hx => hwf x (by bsimp [hx])
    obtain ⟨rest, h0, h1, h2, h3, h4⟩ := ih hps
    cases e with
    | star =>
      refine ⟨rest, h0, ?_, h2, ?_, by bsimp⟩
      · simp only [patternText, List.flatMap_cons, Elem.text, List.cons_append, List.nil_append,
          List.dropWhile_cons, beq_self_eq_true, if_true]
        exact h1
      · intro _ t
        rw [matches_star]
        by_cases hs : ∃ r, ps = .star :: r
        · constructor
          · rintro ⟨u, v, rfl, h⟩
            obtain ⟨u', v', rfl, h⟩ := (h3 hs v).mp h
            exact ⟨u ++ u', v', by bsimp, by assumption⟩
          · rintro ⟨u, v, rfl, h⟩
            exact ⟨u, v, rfl, (h3 hs v).mpr ⟨[], v, rfl, h⟩⟩
        · have : rest = ps := h4 (fun r hr => hs ⟨r, hr⟩)
          rw [this]
    | lit c =>
      have hc := hwf (.lit c) (by bsimp)
      refine ⟨.lit c :: ps, hwf, ?_, by bsimp, by bsimp, by bsimp⟩
      bsimp [patternText, Elem.text, hc.2.1]
    | esc c =>
      refine ⟨.esc c :: ps, hwf, ?_, by bsimp, by bsimp, by bsimp⟩
      have : (asc '\\' == asc '*') = false := by decide
      bsimp [patternText, Elem.text, this]
    | any =>
      refine ⟨.any :: ps, hwf, ?_, by bsimp, by bsimp, by bsimp⟩
      have : (asc '?' == asc '*') = false := by decide
      bsimp [patternText, Elem.text, this]
    | cls items =>
      refine ⟨.cls items :: ps, hwf, ?_, by bsimp, by bsimp, by bsimp⟩
      have : (asc '[' == asc '*') = false := by decide
      bsimp [patternText, Elem.text, this]

theorem skipBracket_plain {c : Byte} {r : List Byte} (h1 : c ≠ asc ']') (h2 : c ≠ asc '\\') :
    skipBracket (c :: r) = skipBracket r := by
  rw [skipBracket.eq_def]; simp only [if_neg h1, if_neg h2]

theorem skipBracket_close {r : List Byte} : skipBracket (asc ']' :: r) = asc ']' :: r := by
  rw [skipBracket.eq_def]; simp only [if_true]

theorem skipBracket_items (items : List Item) (h : ∀ i ∈ items, i.WF) (r : List Byte) :
    skipBracket (items.flatMap Item.text ++ asc ']' :: r) = asc ']' :: r := by
  induction items with
  | nil => rw [List.flatMap_nil, List.nil_append, skipBracket_close]
  | cons i items ih =>
    have hi := h i (by bsimp)
    have ih := ih (fun x hx => h x (by bsimp [hx]))
    cases i with
    | chr c =>
      obtain ⟨_, h1, h2, _⟩ := hi
      rw [List.flatMap_cons, List.append_assoc, Item.text, List.singleton_append, 
        skipBracket_plain h1 h2, ih]
    | rng lo hi' =>
      obtain ⟨⟨_, h1, h2, _⟩, _, h3, h4, _⟩ := hi
      have d1 : asc '-' ≠ asc ']' := by decide
      have d2 : asc '-' ≠ asc '\\' := by decide
      simp only [List.flatMap_cons, List.append_assoc, Item.text, List.cons_append, List.nil_append]
      rw [skipBracket_plain h1 h2, skipBracket_plain d1 d2, skipBracket_plain h3 h4, ih]

theorem bracket_spec (items : List Item) (h : ∀ i ∈ items, i.WF) (x : Byte) (t r : List Byte) :
    ∀ fuel, (items.flatMap Item.text).length < fuel →
    ∃ p e d, bracketLoop (x :: t) fuel (items.flatMap Item.text ++ asc ']' :: r) = .ok (p, e, d) ∧
      ((∃ i ∈ items, i.Has x) → p = r ∧ e = t ∧ d = false) ∧
      ((¬ ∃ i ∈ items, i.Has x) → e = x :: t ∧ d = true) := by
  have z1 : asc ']' ≠ 0 := by decide
  have z2 : asc '-' ≠ 0 := by decide
  have z3 : asc '-' ≠ asc ']' := by decide
  have z4 : asc ']' ≠ asc '-' := by decide
  induction items with
  | nil =>
    intro fuel hf
    obtain ⟨f, rfl⟩ : ∃ f, fuel = f + 1 := ⟨fuel - 1, by omega⟩
    exact ⟨asc ']' :: r, x :: t, true, by bsimp [bracketLoop, peek], by bsimp, by bsimp⟩
  | cons i items ih =>
    intro fuel hf
    have hi := h i (by bsimp)
    have hitems : ∀ i ∈ items, i.WF := fun y hy => h y (by bsimp [hy])
    have ih := ih hitems
    -- the head of what follows the item is not `-`
    have hnext : ∃ d r', items.flatMap Item.text ++ asc ']' :: r = d :: r' ∧ d ≠ asc '-' := by
      cases items with
      | nil => exact ⟨_, _, rfl, z4⟩
      | cons j items =>
        have hj := hitems j (by bsimp)
        cases j with
        | chr c => exact ⟨c, _, rfl, hj.2.2.2⟩
        | rng lo hi => exact ⟨lo, _, rfl, hj.1.2.2.2⟩
    obtain ⟨d, r', hnext, hd⟩ := hnext
    have hskip := skipBracket_items items hitems r
    obtain ⟨f, rfl⟩ : ∃ f, fuel = f + 1 := ⟨fuel - 1, by omega⟩
    have hit : bracketHit (x :: (items.flatMap Item.text ++ asc ']' :: r)) (x :: t) =
        .ok (r, t, false) := by
      bsimp [bracketHit, adv, hskip, peek, z1]
    cases i with
    | chr c =>
      obtain ⟨h0, h1, h2, h3⟩ := hi
      simp only [List.flatMap_cons, Item.text, List.cons_append, List.nil_append,
        List.length_cons] at hf ⊢
      by_cases hx : x = c
      · subst hx
        refine ⟨r, t, false, ?_, by bsimp, fun hn => absurd ⟨.chr x, by bsimp, rfl⟩ hn⟩
        simp only [bracketLoop, peek, advIf, decide_false, Bool.false_eq_true, List.headD_cons, h0, h1, h2, or_self, if_false, Res.pure_eq,
          Res.ok_bind, adv, hnext, hd, ne_eq, not_true_eq_false]
        rw [← hnext]; exact hit
      · obtain ⟨p, e, dd, k1, k2, k3⟩ := ih f (by omega)
        refine ⟨p, e, dd, ?_, ?_, ?_⟩
        · rw [← k1]
          simp only [bracketLoop, peek, advIf, decide_false, Bool.false_eq_true, List.headD_cons, h0, h1, h2, or_self, if_false, Res.pure_eq,
            Res.ok_bind, adv, hnext, hd, ne_eq, Ne.symm hx, not_false_eq_true, if_true]
        · rintro ⟨i, hi, hx'⟩
          simp only [List.mem_cons] at hi
          rcases hi with rfl | hi
          · exact absurd hx' hx
          · exact k2 ⟨i, hi, hx'⟩
        · intro hn
          exact k3 (fun ⟨i, hi, hx'⟩ => hn ⟨i, by bsimp [hi], hx'⟩)
    | rng lo hi' =>
      obtain ⟨⟨h0, h1, h2, h3⟩, g0, g1, g2, g3⟩ := hi
      simp only [List.flatMap_cons, Item.text, List.cons_append, List.nil_append,
        List.length_cons] at hf ⊢
      have hiff : ((x.slt lo = true) ∨ (hi'.slt x = true)) ↔ ¬ Item.Has x (.rng lo hi') := by
        simp only [BitVec.slt_iff_toInt_lt, Item.Has]; omega
      by_cases hx : Item.Has x (.rng lo hi')
      · refine ⟨r, t, false, ?_, by bsimp, fun hn => absurd ⟨.rng lo hi', by bsimp, hx⟩ hn⟩
        have hn : ¬ ((x.slt lo = true) ∨ (hi'.slt x = true)) := fun hh => hiff.mp hh hx
        simp only [bracketLoop, peek, advIf, decide_false, Bool.false_eq_true, List.headD_cons, h0, h1, h2, or_self, if_false, Res.pure_eq,
          Res.ok_bind, adv, g1, g2, false_and, hn, if_true]
        bsimp [bracketHit, adv, hskip, peek, z1]
      · obtain ⟨p, e, dd, k1, k2, k3⟩ := ih f (by omega)
        have hn : ((x.slt lo = true) ∨ (hi'.slt x = true)) := hiff.mpr hx
        refine ⟨p, e, dd, ?_, ?_, ?_⟩
        · rw [← k1]
          simp only [bracketLoop, peek, advIf, decide_false, Bool.false_eq_true, List.headD_cons, h0, h1, h2, or_self, if_false, Res.pure_eq,
            Res.ok_bind, adv, g1, g2, false_and, hn, if_true]
        · rintro ⟨i, hi, hx'⟩
          simp only [List.mem_cons] at hi
          rcases hi with rfl | hi
          · exact absurd hx' hx
          · exact k2 ⟨i, hi, hx'⟩
        · intro hn
          exact k3 (fun ⟨i, hi, hx'⟩ => hn ⟨i, by bsimp [hi], hx'⟩)

theorem starLoop_spec (g : List Byte → Res Bool) (P : List Byte → Prop) (t : List Byte)
    (hg : ∀ u v, t = u ++ v → v ≠ [] → ∃ b, g v = .ok b ∧ (b = true ↔ P v)) :
    ∃ b, starLoop g t = .ok b ∧ (b = true ↔ ∃ u v, t = u ++ v ∧ v ≠ [] ∧ P v) := by
  induction t with
  | nil =>
    refine ⟨false, rfl, ?_⟩
    simp only [Bool.false_eq_true, false_iff, not_exists, not_and]
    intro u v h hv
    bsimp at h; exact absurd h.2 hv
  | cons c t ih =>
    obtain ⟨b, hb, hbP⟩ := hg [] (c :: t) rfl (by bsimp)
    obtain ⟨b', hb', hbP'⟩ := ih (fun u v h hv => hg (c :: u) v (by bsimp [h]) hv)
    simp only [starLoop, hb, Res.ok_bind]
    cases b with
    | true => exact ⟨true, rfl, by simp only [true_iff]; exact ⟨[], c :: t, rfl, by bsimp, hbP.mp rfl⟩⟩
    | false =>
      refine ⟨b', by simpa using hb', hbP'.trans ?_⟩
      constructor
      · rintro ⟨u, v, rfl, hv, h⟩; exact ⟨c :: u, v, rfl, hv, h⟩
      · rintro ⟨u, v, h, hv, hP⟩
        cases u with
        | nil => bsimp at h; subst h; exact absurd (hbP.mpr hP) (by bsimp)
        | cons d u => bsimp at h; exact ⟨u, v, h.2, hv, hP⟩

theorem patternText_nil {ps : List Elem} : patternText ps = [] ↔ ps = [] := by
  cases ps with
  | nil => bsimp [patternText]
  | cons e ps => cases e <;> bsimp [patternText, Elem.text]

theorem globEnd_nil (t : List Byte) (ht : (0 : Byte) ∉ t) : globEnd t [] = true ↔ t = [] := by
  cases t with
  | nil => bsimp [globEnd, peek]
  | cons c t =>
    simp only [List.mem_cons, not_or] at ht
    bsimp [globEnd, peek, Ne.symm ht.1]

/-- A pattern left over after the end of the text, with no leading star. -/
theorem globEnd_false {ps : List Elem} (hwf : ∀ e ∈ ps, e.WF) (hne : ps ≠ [])
    (hs : ∀ r, ps ≠ .star :: r) (t : List Byte) : globEnd t (patternText ps) = false := by
  cases ps with
  | nil => exact absurd rfl hne
  | cons e ps =>
    have := hwf e (by bsimp)
    have z1 : (asc '\\' == asc '*') = false := by decide
    have z2 : (asc '?' == asc '*') = false := by decide
    have z3 : (asc '[' == asc '*') = false := by decide
    have w1 : asc '\\' ≠ 0 := by decide
    have w2 : asc '?' ≠ 0 := by decide
    have w3 : asc '[' ≠ 0 := by decide
    cases e with
    | star => exact absurd rfl (hs ps)
    | lit c =>
      obtain ⟨h0, h1, _⟩ := this
      bsimp [globEnd, patternText, Elem.text, List.dropWhile_cons, h1, peek, h0]
    | esc c => bsimp [globEnd, patternText, Elem.text, List.dropWhile_cons, z1, peek, w1]
    | any => bsimp [globEnd, patternText, Elem.text, List.dropWhile_cons, z2, peek, w2]
    | cls items => bsimp [globEnd, patternText, Elem.text, List.dropWhile_cons, z3, peek, w3]

theorem globTrivial_iff {ps : List Elem} (hwf : ∀ e ∈ ps, e.WF) (hs : ∀ r, ps ≠ .star :: r) :
    globTrivial (patternText ps) = true ↔ ps = [] := by
  cases ps with
  | nil => bsimp [globTrivial, patternText]
  | cons e ps =>
    have := hwf e (by bsimp)
    have z1 : asc '\\' ≠ asc '*' := by decide
    have z2 : asc '?' ≠ asc '*' := by decide
    have z3 : asc '[' ≠ asc '*' := by decide
    cases e with
    | star => exact absurd rfl (hs ps)
    | lit c =>
      obtain ⟨h0, h1, _⟩ := this
      bsimp [globTrivial, patternText, Elem.text, h1]
    | esc c => bsimp [globTrivial, patternText, Elem.text]
    | any => bsimp [globTrivial, patternText, Elem.text, z2]
    | cls items => bsimp [globTrivial, patternText, Elem.text]

theorem globLoop_spec (ci : Bool) : ∀ (fuel : Nat) (ps : List Elem) (t : List Byte),
    (∀ e ∈ ps, e.WF) → (0 : Byte) ∉ t → (patternText ps).length < fuel →
    ∃ b, globLoop ci fuel t (patternText ps) = .ok b ∧ (b = true ↔ Matches ci ps t) := by
  intro fuel
  induction fuel with
  | zero => intro ps t _ _ h; omega
  | succ f ih =>
    intro ps t hwf ht hf
    cases ps with
    | nil =>
      refine ⟨globEnd t [], by bsimp [globLoop, patternText], ?_⟩
      rw [globEnd_nil t ht]
      constructor
      · rintro rfl; exact .nil
      · intro h; cases h; rfl
    | cons e ps =>
      have hwe := hwf e (by bsimp)
      have hps : ∀ e ∈ ps, e.WF := fun x hx => hwf x (by bsimp [hx])
      -- the star
      by_cases hstar : e = .star
      · subst hstar
        obtain ⟨rest, h0, h1, h2, h3, _⟩ := stars ci (.star :: ps) hwf
        have h3 := h3 ⟨ps, rfl⟩ t
        have hlen : (patternText rest).length < f := by
          have h5 : (patternText rest).length ≤ (patternText ps).length := by
            rw [← h1]
            simp only [patternText, List.flatMap_cons, Elem.text, List.cons_append,
              List.nil_append, List.dropWhile_cons, beq_self_eq_true, if_true]
            exact (List.dropWhile_suffix _).length_le
          bsimp [patternText, Elem.text] at hf h5 ⊢
          omega
        have hsl := starLoop_spec
          (fun e => if globTrivial (patternText rest) then .ok true
            else globLoop ci f e (patternText rest))
          (fun v => rest = [] ∨ Matches ci rest v) t (by
            intro u v hv hvn
            by_cases hr : rest = []
            · exact ⟨true, by bsimp [(globTrivial_iff h0 h2).mpr hr], by bsimp [hr]⟩
            · have hv0 : (0 : Byte) ∉ v := fun h => ht (by rw [hv]; bsimp [h])
              obtain ⟨b, hb, hb'⟩ := ih rest v h0 hv0 hlen
              refine ⟨b, ?_, by simpa [hr] using hb'⟩
              have : globTrivial (patternText rest) = false := by
                rw [Bool.eq_false_iff]
                exact fun h => hr ((globTrivial_iff h0 h2).mp h)
              bsimp [this, hb])
        obtain ⟨b, hb, hb'⟩ := hsl
        have hstep : globLoop ci (f + 1) t (patternText (.star :: ps)) =
            (if b then globLoop ci f [] [] else globLoop ci f [] (patternText rest)) := by
          have e1 : patternText (.star :: ps) = asc '*' :: patternText ps := rfl
          rw [e1] at h1 ⊢
          simp only [globLoop]
          rw [if_neg (by bsimp), h1, hb]
          bsimp
        rw [hstep]
        obtain ⟨g, rfl⟩ : ∃ g, f = g + 1 := ⟨f - 1, by omega⟩
        cases b with
        | true =>
          refine ⟨true, by bsimp [globLoop, globEnd, peek], ?_⟩
          simp only [true_iff]
          rw [h3]
          obtain ⟨u, v, rfl, hv, hP⟩ := hb'.mp rfl
          rcases hP with rfl | hP
          · exact ⟨u ++ v, [], by bsimp, .nil⟩
          · exact ⟨u, v, rfl, hP⟩
        | false =>
          simp only [Bool.false_eq_true, if_false]
          by_cases hr : rest = []
          · subst hr
            -- the text is empty, otherwise the loop would have succeeded
            have htn : t = [] := by
              cases t with
              | nil => rfl
              | cons c t =>
                exact absurd (hb'.mpr ⟨[], c :: t, rfl, by bsimp, .inl rfl⟩) (by bsimp)
            subst htn
            refine ⟨true, by bsimp [globLoop, patternText, globEnd, peek], ?_⟩
            simp only [true_iff]; rw [h3]; exact ⟨[], [], rfl, .nil⟩
          · refine ⟨false, ?_, ?_⟩
            · have hend := globEnd_false h0 hr h2 []
              cases rest with
              | nil => exact absurd rfl hr
              | cons e' rest' =>
                have hw' := h0 e' (by bsimp)
                have hhead : ∃ c r, patternText (e' :: rest') = c :: r ∧ c ≠ asc '{' ∧
                    c ≠ asc '*' := by
                  cases e' with
                  | star => exact absurd rfl (h2 rest')
                  | lit c => exact ⟨c, _, rfl, hw'.2.2.2.2.1, hw'.2.1⟩
                  | esc c => exact ⟨_, _, rfl, by decide, by decide⟩
                  | any => exact ⟨_, _, rfl, by decide, by decide⟩
                  | cls items => exact ⟨_, _, rfl, by decide, by decide⟩
                obtain ⟨c, r, hcr, hc1, hc2⟩ := hhead
                rw [hcr] at hend ⊢
                simp only [globLoop]
                rw [if_pos ⟨trivial, hc1, hc2⟩, hend]
            · simp only [Bool.false_eq_true, false_iff, h3, not_exists, not_and]
              intro u v hv hm
              cases rest with
              | nil => exact hr rfl
              | cons e' rest' =>
                have hvn : v ≠ [] := matches_cons_length (fun h => h2 rest' (by rw [h])) hm
                exact absurd (hb'.mpr ⟨u, v, hv, hvn, .inr hm⟩) (by bsimp)
      -- not a star: an empty text cannot match
      have hhead : ∃ c r, patternText (e :: ps) = c :: r ∧ c ≠ asc '{' ∧ c ≠ asc '*' := by
        cases e with
        | star => exact absurd rfl hstar
        | lit c => exact ⟨c, _, rfl, hwe.2.2.2.2.1, hwe.2.1⟩
        | esc c => exact ⟨_, _, rfl, by decide, by decide⟩
        | any => exact ⟨_, _, rfl, by decide, by decide⟩
        | cls items => exact ⟨_, _, rfl, by decide, by decide⟩
      have hns : ∀ r, e :: ps ≠ .star :: r := by
        intro r hr; cases hr; exact hstar rfl
      cases t with
      | nil =>
        refine ⟨false, ?_, ?_⟩
        · have hend := globEnd_false hwf (by bsimp) hns []
          obtain ⟨c, r, hcr, hc1, hc2⟩ := hhead
          rw [hcr] at hend ⊢
          simp only [globLoop]
          rw [if_pos ⟨trivial, hc1, hc2⟩, hend]
        · simp only [Bool.false_eq_true, false_iff]
          exact fun h => matches_cons_length hstar h rfl
      | cons x t =>
        have hx : x ≠ 0 := fun h => ht (by bsimp [h])
        have ht' : (0 : Byte) ∉ t := fun h => ht (by bsimp [h])
        have hf' : (patternText ps).length < f := by
          have : (patternText (e :: ps)).length = e.text.length + (patternText ps).length := by
            bsimp [patternText]
          have h1 : 1 ≤ e.text.length := by cases e <;> bsimp [Elem.text]
          omega
        obtain ⟨b, hb, hb'⟩ := ih ps t hps ht' hf'
        cases e with
        | star => exact absurd rfl hstar
        | lit c =>
          obtain ⟨g0, g1, g2, g3, g4, g5⟩ := hwe
          have e1 : patternText (.lit c :: ps) = c :: patternText ps := rfl
          by_cases hsame : globSame ci x c = true
          · refine ⟨b, ?_, ?_⟩
            · rw [e1, globLoop]
              simp only [advIf, decide_false, decide_true, Bool.false_eq_true, peek, g1, g2, g3, g4, g5, hsame, adv, List.headD_cons, Res.ok_bind, hb,
                if_false, if_true, reduceCtorEq, false_and, Res.pure_eq]
            · rw [hb']
              constructor
              · exact .lit ((globSame_iff ..).mp hsame)
              · intro h; cases h; assumption
          · refine ⟨false, ?_, ?_⟩
            · have hend := globEnd_false hwf (by bsimp) hns (x :: t)
              rw [e1] at hend
              rw [e1, globLoop]
              simp only [advIf, decide_false, decide_true, Bool.false_eq_true, peek, g1, g2, g3, g4, g5, hsame, List.headD_cons, Res.ok_bind,
                if_false, reduceCtorEq, false_and, Res.pure_eq, hend]
            · simp only [Bool.false_eq_true, false_iff]
              intro h; cases h; rename_i h _; exact hsame ((globSame_iff ..).mpr h)
        | esc c =>
          have e1 : patternText (.esc c :: ps) = asc '\\' :: c :: patternText ps := rfl
          have z1 : asc '\\' ≠ asc '*' := by decide
          have z2 : asc '\\' ≠ asc '[' := by decide
          have z3 : asc '\\' ≠ asc '?' := by decide
          have z4 : asc '\\' ≠ asc '{' := by decide
          have hc0 : c ≠ 0 := hwe
          by_cases hsame : globSame ci x c = true
          · refine ⟨b, ?_, ?_⟩
            · rw [e1, globLoop]
              simp only [advIf, decide_false, decide_true, Bool.false_eq_true, peek, z1, z2, z3, z4, hsame, adv, List.headD_cons, Res.ok_bind, hb,
                if_false, if_true, reduceCtorEq, false_and, hc0, and_false]
            · rw [hb']
              constructor
              · exact .esc ((globSame_iff ..).mp hsame)
              · intro h; cases h; assumption
          · refine ⟨false, ?_, ?_⟩
            · have hend : globEnd (x :: t) (c :: patternText ps) = false := by
                bsimp [globEnd, peek, hx]
              rw [e1, globLoop]
              simp only [advIf, decide_false, decide_true, Bool.false_eq_true, peek, z1, z2, z3, z4, hsame, List.headD_cons, Res.ok_bind, adv,
                if_false, if_true, reduceCtorEq, false_and, hc0, and_false, Res.pure_eq, hend]
            · simp only [Bool.false_eq_true, false_iff]
              intro h; cases h; rename_i h _; exact hsame ((globSame_iff ..).mpr h)
        | any =>
          have e1 : patternText (.any :: ps) = asc '?' :: patternText ps := rfl
          have z1 : asc '?' ≠ asc '*' := by decide
          have z2 : asc '?' ≠ asc '[' := by decide
          refine ⟨b, ?_, ?_⟩
          · rw [e1, globLoop]
            simp only [z1, z2, adv, Res.ok_bind, hb, if_false, if_true, reduceCtorEq, false_and]
          · rw [hb']
            constructor
            · exact .any
            · intro h; cases h; assumption
        | cls items =>
          have e1 : patternText (.cls items :: ps) =
              asc '[' :: (items.flatMap Item.text ++ asc ']' :: patternText ps) := by
            bsimp [patternText, Elem.text]
          have z1 : asc '[' ≠ asc '*' := by decide
          obtain ⟨p, ex, d, k1, k2, k3⟩ := bracket_spec items hwe x t (patternText ps)
            ((items.flatMap Item.text ++ asc ']' :: patternText ps).length + 1)
            (by simp only [List.length_append]; omega)
          by_cases hhas : ∃ i ∈ items, i.Has x
          · obtain ⟨rfl, rfl, rfl⟩ := k2 hhas
            refine ⟨b, ?_, ?_⟩
            · rw [e1, globLoop]
              simp only [z1, if_false, if_true, reduceCtorEq, false_and, k1, Res.ok_bind, hb,
                Bool.false_eq_true]
            · rw [hb']
              constructor
              · exact .cls hhas
              · intro h; cases h; assumption
          · obtain ⟨rfl, rfl⟩ := k3 hhas
            refine ⟨false, ?_, ?_⟩
            · have hend : globEnd (x :: t) p = false := by bsimp [globEnd, peek, hx]
              rw [e1, globLoop]
              simp only [z1, if_false, if_true, reduceCtorEq, false_and, k1, Res.ok_bind,
                Res.pure_eq, hend]
            · simp only [Bool.false_eq_true, false_iff]
              intro h; cases h; rename_i h _; exact hhas h

/-- **C10** For every non-empty pattern made of ordinary characters, escapes, `?`, `*` and character
classes, and every text, `GlobExpression` stays in bounds, terminates and is true exactly when the
text matches. -/
theorem C10_glob (ci : Bool) (ps : List Elem) (t : List Byte) (hwf : ∀ e ∈ ps, e.WF)
    (ht : (0 : Byte) ∉ t) (hne : ps ≠ []) :
    ∃ b, globExpression t (patternText ps) ci = .ok b ∧ (b = true ↔ Matches ci ps t) := by
  unfold globExpression
  by_cases h : globTrivial (patternText ps) = true
  · refine ⟨true, by rw [if_pos h], ?_⟩
    simp only [true_iff]
    cases ps with
    | nil => exact absurd rfl hne
    | cons e ps =>
      by_cases hs : e = .star
      · subst hs
        have : ps = [] := by
          have e1 : patternText (.star :: ps) = asc '*' :: patternText ps := rfl
          rw [e1] at h
          bsimp [globTrivial] at h
          exact patternText_nil.mp h
        subst this
        rw [matches_star]
        exact ⟨t, [], by bsimp, .nil⟩
      · have := (globTrivial_iff hwf (by intro r hr; cases hr; exact hs rfl)).mp h
        cases this
  · rw [if_neg h]
    exact globLoop_spec ci _ ps t hwf ht (by omega)

/-- The empty pattern matches every text, not only the empty one. -/
theorem C10_glob_empty_pattern_violated (ci : Bool) (t : List Byte) :
    globExpression t [] ci = .ok true := by bsimp [globExpression, globTrivial]

/-- Outside the fragment: alternatives fail when anything follows the brace (`{a,b}c` does not match
`ac`), and `[a-` or `{\` make the matcher read beyond the end of the pattern, for every non-empty
text. -/
theorem C10_glob_brace_violated :
    globExpression [asc 'a', asc 'c'] ("{a,b}c".toList.map asc) false = .ok false ∧
    globExpression [asc 'a'] ("{a,b}".toList.map asc) false = .ok true := by decide +kernel

/-- An unterminated bracket range `[a-` and a brace group ending in a backslash read past the end of
the pattern, for every non-empty text. -/
theorem C10_glob_overread_violated (ci : Bool) (x : Byte) (t : List Byte) (hx : x ≠ 0) :
    globExpression (x :: t) ("[a-".toList.map asc) ci = .ub ∧
    globExpression (x :: t) ("{\\".toList.map asc) ci = .ub := by
  constructor
  · have h : ("[a-".toList.map asc) = [asc '[', asc 'a', asc '-'] := rfl
    have z1 : asc '[' ≠ asc '*' := by decide
    have z2 : asc '[' ≠ asc '{' := by decide
    have a1 : asc 'a' ≠ asc ']' := by decide
    have a2 : asc 'a' ≠ asc '\\' := by decide
    have a3 : asc 'a' ≠ 0 := by decide
    have a4 : (0 : Byte) ≠ asc ']' := by decide
    have a5 : (0 : Byte) ≠ asc '\\' := by decide
    have hb : ∀ f, bracketLoop (x :: t) (f + 1) [asc 'a', asc '-'] = .ub := by
      intro f
      unfold bracketLoop bracketHit
      simp only [peek, adv, advIf, decide_false, Bool.false_eq_true, if_false, if_true, or_self,
        List.headD_cons, List.headD_nil, a1, a2, a3, a4, a5, Res.ok_bind, Res.ub_bind, false_and]
      exact @ite_self _ _ (_) _
    rw [h]
    unfold globExpression
    have : globTrivial [asc '[', asc 'a', asc '-'] = false := by decide
    rw [this]
    simp only [Bool.false_eq_true, if_false, List.length_cons, List.length_nil]
    unfold globLoop
    simp only [reduceCtorEq, false_and, if_false, z1, if_true, hb, Res.ub_bind]
  · have h : ("{\\".toList.map asc) = [asc '{', asc '\\'] := rfl
    have z1 : asc '{' ≠ asc '*' := by decide
    have z2 : asc '{' ≠ asc '[' := by decide
    have z3 : asc '{' ≠ asc '?' := by decide
    have a1 : asc '\\' ≠ asc '}' := by decide
    have a2 : asc '\\' ≠ asc ',' := by decide
    have a3 : asc '\\' ≠ 0 := by decide
    have hc : ∀ f, braceCompare (f + 1) (x :: t) [asc '\\'] true = .ub := by
      intro f
      unfold braceCompare
      simp only [peek, adv, advIf, decide_true, List.headD_cons, a1, a2, a3, hx, ne_eq,
        not_false_eq_true, and_self, if_true, Res.ok_bind, Res.ub_bind]
    have hb : ∀ f, braceLoop (f + 1) (x :: t) [asc '\\'] = .ub := by
      intro f
      unfold braceLoop
      simp only [peek, List.headD_cons, a1, a3, ne_eq, not_false_eq_true, and_self, if_true, hc,
        Res.ub_bind]
    rw [h]
    unfold globExpression
    have : globTrivial [asc '{', asc '\\'] = false := by decide
    rw [this]
    simp only [Bool.false_eq_true, if_false, List.length_cons, List.length_nil]
    unfold globLoop
    simp only [reduceCtorEq, false_and, if_false, z1, z2, z3, if_true, hb, Res.ub_bind]

/-- **C10** `GlobExpression` terminates on every text and every pattern (the fuel of the model never
runs out), including those outside the fragment. -/
theorem C10_glob_terminates (ci : Bool) (t pat : List Byte) :
    globExpression t pat ci ≠ .fatal := by
  have hadv : ∀ p : List Byte, (adv p).NoFatal (fun r => r.length < p.length) := by
    intro p; cases p <;> bsimp [adv, Res.NoFatal]
  have hopt : ∀ (c : Bool) (p : List Byte),
      (advIf c p).NoFatal (fun r => r.length ≤ p.length) := by
    intro c p; unfold advIf; split
    · exact (hadv p).mono fun a h => by omega
    · exact Nat.le_refl _
  have hskipB : ∀ p : List Byte, (skipBracket p).length ≤ p.length := by
    intro p
    fun_induction skipBracket p <;> simp_all <;> omega
  have hhit : ∀ p e : List Byte, (bracketHit p e).NoFatal (fun r => r.1.length < p.length) := by
    intro p e
    unfold bracketHit
    refine (hadv p).bind fun q hq => ?_
    have := hskipB q
    simp only
    split
    · refine (hadv _).bind fun q' hq' => ?_
      refine (hadv e).bind fun e' _ => ?_
      simp only [Res.pure_eq, Res.NoFatal]; omega
    · simp only [Res.pure_eq, Res.NoFatal]; omega
  have hbr : ∀ (e : List Byte) (f : Nat) (p : List Byte), p.length < f →
      (bracketLoop e f p).NoFatal (fun r => r.1.length ≤ p.length) := by
    intro e f
    induction f with
    | zero => intro p h; omega
    | succ f ih =>
      intro p hp
      unfold bracketLoop
      split
      · bsimp [Res.NoFatal]
      · refine (hopt _ p).bind fun q hq => ?_
        split
        · simp only [Res.pure_eq, Res.NoFatal]; omega
        · refine (hadv q).bind fun n hn => ?_
          split
          · refine (hadv n).bind fun q1 hq1 => ?_
            split
            · simp only [Res.pure_eq, Res.NoFatal]; omega
            · refine (hopt _ q1).bind fun q2 hq2 => ?_
              split
              · simp only [Res.pure_eq, Res.NoFatal]; omega
              · split
                · refine (hadv q2).bind fun q3 hq3 => ?_
                  exact (ih q3 (by omega)).mono fun a h => by omega
                · exact (hhit q2 e).mono fun a h => by omega
          · split
            · refine (hadv q).bind fun q3 hq3 => ?_
              exact (ih q3 (by omega)).mono fun a h => by omega
            · exact (hhit q e).mono fun a h => by omega
  have hcmp : ∀ (f : Nat) (e p : List Byte) (m : Bool), p.length < f →
      (braceCompare f e p m).NoFatal (fun r => r.2.1.length ≤ p.length) := by
    intro f
    induction f with
    | zero => intro e p m h; omega
    | succ f ih =>
      intro e p m hp
      unfold braceCompare
      split
      · refine (hopt _ p).bind fun q hq => ?_
        refine (hadv e).bind fun e' _ => ?_
        refine (hadv q).bind fun q1 hq1 => ?_
        exact (ih e' q1 _ (by omega)).mono fun a h => by omega
      · bsimp [Res.NoFatal]
  have hskip : ∀ (all : Bool) (f : Nat) (p : List Byte), p.length < f →
      (braceSkip all f p).NoFatal (fun r => r.length ≤ p.length) := by
    intro all f
    induction f with
    | zero => intro p h; omega
    | succ f ih =>
      intro p hp
      unfold braceSkip
      split
      · refine (hadv p).bind fun q hq => ?_
        split
        · refine (hadv q).bind fun q1 hq1 => ?_
          split
          · refine (hadv q1).bind fun q2 hq2 => ?_
            exact (ih q2 (by omega)).mono fun a h => by omega
          · exact (ih q1 (by omega)).mono fun a h => by omega
        · exact (ih q (by omega)).mono fun a h => by omega
      · bsimp [Res.NoFatal]
  have hbrace : ∀ (f : Nat) (e p : List Byte), p.length < f →
      (braceLoop f e p).NoFatal (fun r => r.1.length ≤ p.length) := by
    intro f
    induction f with
    | zero => intro e p h; omega
    | succ f ih =>
      intro e p hp
      unfold braceLoop
      split
      · rename_i hcond
        refine (hcmp (p.length + 1) e p true (by omega)).bind fun ⟨p', q, m⟩ hq => ?_
        simp only at hq
        simp only
        split
        · simp only [Res.pure_eq, Res.NoFatal]; omega
        · rename_i hq0
          refine (hskip m (q.length + 1) q (by omega)).bind fun q1 hq1 => ?_
          split
          · refine (hadv q1).bind fun q2 hq2 => ?_
            exact (ih _ q2 (by omega)).mono fun a h => by omega
          · -- the pattern is at its end: it is shorter than before, since q was not
            rename_i hq10
            have hq1' : q1 = [] ∨ ∃ r, q1 = 0 :: r := by
              cases q1 with
              | nil => exact .inl rfl
              | cons c r => bsimp [peek] at hq10; subst hq10; exact .inr ⟨r, rfl⟩
            cases f with
            | zero => have : p = [] := List.eq_nil_of_length_eq_zero (by omega)
                      subst this
                      exact absurd rfl hcond.2
            | succ f =>
              unfold braceLoop
              rw [if_neg (by intro h; exact hq10 h.2)]
              simp only [Res.NoFatal]; omega
      · bsimp [Res.NoFatal]
  have hstar : ∀ (g : List Byte → Res Bool) (e : List Byte),
      (∀ x, (g x).NoFatal (fun _ => True)) → (starLoop g e).NoFatal (fun _ => True) := by
    intro g e hg
    induction e with
    | nil => bsimp [starLoop, Res.NoFatal]
    | cons c r ih =>
      unfold starLoop
      refine (hg _).bind fun s _ => ?_
      split
      · bsimp [Res.NoFatal]
      · exact ih
  have hmain : ∀ (f : Nat) (e p : List Byte), p.length < f →
      (globLoop ci f e p).NoFatal (fun _ => True) := by
    intro f
    induction f with
    | zero => intro e p h; omega
    | succ f ih =>
      intro e p hp
      unfold globLoop
      split
      · bsimp [Res.NoFatal]
      · rename_i c r
        simp only [List.length_cons] at hp
        split
        · bsimp [Res.NoFatal]
        · split
          · rename_i hc
            subst hc
            have hl : ((asc '*' :: r).dropWhile (· == asc '*')).length ≤ r.length := by
              simp only [List.dropWhile_cons, beq_self_eq_true, if_true]
              exact (List.dropWhile_suffix _).length_le
            refine (hstar _ e (fun x => ?_)).bind fun s _ => ?_
            · split
              · bsimp [Res.NoFatal]
              · exact ih _ _ (by omega)
            · split
              · exact ih _ _ (by bsimp; omega)
              · exact ih _ _ (by omega)
          · split
            · refine (hbr e (r.length + 1) r (by omega)).bind fun ⟨p', e', d⟩ hq => ?_
              simp only at hq ⊢
              split
              · bsimp [Res.NoFatal]
              · exact ih _ _ (by omega)
            · split
              · refine (hadv e).bind fun e' _ => ?_
                exact ih _ _ (by omega)
              · split
                · refine (hbrace (r.length + 1) e r (by omega)).bind fun ⟨p', e', d⟩ hq => ?_
                  simp only at hq ⊢
                  split
                  · bsimp [Res.NoFatal]
                  · exact ih _ _ (by omega)
                · have : (advIf (c = asc '\\') (c :: r)).NoFatal
                      (fun q => q.length ≤ r.length + 1 ∧
                        (c = asc '\\' → q.length ≤ r.length)) := by
                    unfold advIf
                    split
                    · bsimp [adv, Res.NoFatal]
                    · rename_i h; bsimp at h; bsimp [Res.NoFatal, h]
                  refine this.bind fun q hq => ?_
                  split
                  · rename_i h; exact ih _ _ (by have := hq.2 h.1; omega)
                  · split
                    · refine (hadv e).bind fun e' _ => ?_
                      refine (hadv q).bind fun q' hq' => ?_
                      exact ih _ _ (by omega)
                    · bsimp [Res.NoFatal]
  intro h
  unfold globExpression at h
  split at h
  · cases h
  · have := hmain (pat.length + 1) t pat (by omega)
    rw [h] at this
    exact this

example : (∀ e ∈ [Elem.lit (asc 'a'), .star, .cls [.rng (asc '0') (asc '9')], .esc (asc '*')], e.WF) ∧
    (0 : Byte) ∉ [asc 'a', asc 'x', asc '7', asc '*'] := by
  constructor
  · intro e he
    simp only [List.mem_cons, List.not_mem_nil, or_false] at he
    rcases he with rfl | rfl | rfl | rfl
    · simp only [Elem.WF]; decide
    · trivial
    · simp only [Elem.WF, List.mem_singleton]; rintro i rfl; simp only [Item.WF, ClassChar]; decide
    · simp only [Elem.WF]; decide
  · decide
example : globExpression [asc 'a', asc 'x', asc '7', asc '*'] ("a*[0-9]\\*".toList.map asc) false =
    .ok true := by decide +kernel

end Wizard.Props

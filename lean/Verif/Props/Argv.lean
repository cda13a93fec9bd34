import Verif.Model.Argv
import Verif.Spec.Argv
/-! C144: `StringToArgv`. -/
namespace Wizard.Props
open Wizard Wizard.Spec.Argv

theorem argSkip_blank {s : List Byte} (h : Blank s) (r : List Byte) : argSkip (s ++ r) = argSkip r := List.dropWhile_append_of_pos h

theorem argTail_stop {r : List Byte} (h : r = [] ∨ ∃ c r', r = c :: r' ∧ isSpace c = true) : argTail r = r := by
  rcases h with rfl | ⟨c, r', rfl, hc⟩
  · rfl
  · rw [argTail, List.dropWhile_cons, if_neg (by simp [hc])]

theorem close_at {q : Byte} {w : List Byte} (h : q ∉ w) (r : List Byte) : argClose q (w ++ q :: r) = q :: r ∧ (w ++ q :: r).takeWhile (· != q) = w := by
  have hp : ∀ a ∈ w, (a != q) = true := fun x hx => bne_iff_ne.2 fun e => h (e ▸ hx)
  exact ⟨by rw [argClose, List.dropWhile_append_of_pos hp]; simp, by rw [List.takeWhile_append_of_pos hp]; simp⟩

theorem quote_tail {r : List Byte} (h : r = [] ∨ ∃ c r', r = c :: r' ∧ isSpace c = true) (q : Byte) (hq : isSpace q = false) : argTail (q :: r) = r := by
  rw [argTail, List.dropWhile_cons, if_pos (by simp [hq])]
  exact argTail_stop h

/-- A word is passed when it is counted, and taken when it is copied. -/
theorem word_read {t w r : List Byte} (h : Word t w) (hr : r = [] ∨ ∃ c r', r = c :: r' ∧ isSpace c = true) :
    argSkip (t ++ r) = t ++ r ∧ t ≠ [] ∧ argPass (t ++ r) = r ∧ (argTake (t ++ r)).1 = w ∧ argTail (argTake (t ++ r)).2 = r := by
  cases h with
  | @bare c w hw h1 h2 =>
    have hc : isSpace c = false := hw c (List.mem_cons_self ..)
    have hp : ∀ a ∈ c :: w, (!isSpace a) = true := fun x hx => by rw [hw x hx]; rfl
    have ht : argTail (c :: w ++ r) = r := by
      rw [argTail, List.dropWhile_append_of_pos hp]; exact argTail_stop hr
    have htw : (c :: w ++ r).takeWhile (fun c => !isSpace c) = c :: w := by
      rw [List.takeWhile_append_of_pos hp]
      rcases hr with rfl | ⟨d, r', rfl, hd⟩
      · simp
      · simp [hd]
    have h1' : ¬ c = asc '"' := h1
    have h2' : ¬ c = asc '\'' := h2
    refine ⟨?_, by simp, ?_, ?_, ?_⟩
    · rw [argSkip, List.cons_append, List.dropWhile_cons, if_neg (by simp [hc])]
    · rw [List.cons_append] at ht ⊢
      unfold argPass
      simp only [if_neg h1', if_neg h2']
      exact ht
    · rw [List.cons_append] at htw ⊢
      rw [argTake, if_neg h1', if_neg h2']
      exact htw
    · rw [List.cons_append] at ht ⊢
      rw [argTake, if_neg h1', if_neg h2']
      simp only [ht]
      exact argTail_stop hr
  | double hw =>
    obtain ⟨e1, e2⟩ := close_at hw r
    have e : (34 :: (w ++ [34]) ++ r : List Byte) = asc '"' :: (w ++ asc '"' :: r) := by simp; rfl
    have hq : isSpace (asc '"') = false := by decide
    rw [e]
    have e1' : argClose (asc '"') (w ++ asc '"' :: r) = asc '"' :: r := e1
    refine ⟨?_, by simp, ?_, ?_, ?_⟩
    · rw [argSkip, List.dropWhile_cons, if_neg (by simp [hq])]
    · unfold argPass
      simp only [if_true, e1']
      rw [if_neg (by decide)]
      exact quote_tail hr _ hq
    · rw [argTake, if_pos rfl]; exact e2
    · rw [argTake, if_pos rfl]
      simp only [e1']
      exact quote_tail hr _ hq
  | single hw =>
    obtain ⟨e1, e2⟩ := close_at hw r
    have e : (39 :: (w ++ [39]) ++ r : List Byte) = asc '\'' :: (w ++ asc '\'' :: r) := by simp; rfl
    have hq : isSpace (asc '\'') = false := by decide
    rw [e]
    have e1' : argClose (asc '\'') (w ++ asc '\'' :: r) = asc '\'' :: r := e1
    have hne : ¬ asc '\'' = asc '"' := by decide
    refine ⟨?_, by simp, ?_, ?_, ?_⟩
    · rw [argSkip, List.dropWhile_cons, if_neg (by simp [hq])]
    · unfold argPass
      simp only [if_neg hne, if_true, e1']
      exact quote_tail hr _ hq
    · rw [argTake, if_neg hne, if_pos rfl]; exact e2
    · rw [argTake, if_neg hne, if_pos rfl]
      simp only [e1']
      exact quote_tail hr _ hq

theorem argCount_nil {p : List Byte} (h : argSkip p = []) : argCount p = 0 := by
  rw [argCount]; split
  · rfl
  · rename_i h'; rw [h] at h'; cases h'

theorem argCount_cons {p : List Byte} (h : argSkip p ≠ []) : argCount p = argCount (argPass (argSkip p)) + 1 := by
  rw [argCount]; split
  · rename_i h'; exact absurd h' h
  · rename_i h'; rw [h']

theorem written_read {text : List Byte} {ws : List (List Byte)} (h : Written text ws) : argCount text = ws.length ∧ ∃ s, Blank s ∧ argList ws.length text = (ws, s) := by
  induction h with
  | @none s h =>
    have hs : argSkip s = [] := by have := argSkip_blank h []; rw [List.append_nil] at this; rw [this]; rfl
    exact ⟨argCount_nil hs, s, h, rfl⟩
  | @word s t w r ws hs ht hr _ ih =>
    obtain ⟨i1, s', i2, i3⟩ := ih
    obtain ⟨h1, h2, h3, h4, h5⟩ := word_read ht hr
    have e : argSkip (s ++ t ++ r) = t ++ r := by rw [List.append_assoc, argSkip_blank hs, h1]
    constructor
    · rw [argCount_cons (by rw [e]; simp [h2]), e, h3, i1]; rfl
    · refine ⟨s', i2, ?_⟩
      rw [List.length_cons, argList, e]
      simp only [h4, h5, i3]

/-- **C144** (partial): the arguments of a text are those that are written in it, and `argc` is their number: where every argument is written without quotes,
or as a whole between quotes. -/
theorem C144_arguments_partial (text : List Byte) (ws : List (List Byte)) (h : Written text ws) : stringToArgv (some text) = (some ws, ws.length) := by
  obtain ⟨h1, s, _, h2⟩ := written_read h
  rw [stringToArgv, h1, h2]

/-- `convert 'a b' ""` -/
example : stringToArgv (some (" convert 'a b'\t\"\" ".toList.map asc)) = (some ["convert".toList.map asc, "a b".toList.map asc, []], 3) := by
  refine C144_arguments_partial _ _ (show Written ([32] ++ "convert".toList.map asc ++ ([32] ++ 39 :: ("a b".toList.map asc ++ [39]) ++ ([9] ++ 34 :: ([] ++ [34]) ++ [32]))) _ from ?_)
  refine .word (by simp [Blank, isSpace]) (.bare (by decide) (by decide) (by decide)) (.inr ⟨_, _, rfl, by decide⟩) ?_
  refine .word (by simp [Blank, isSpace]) (.single (by decide)) (.inr ⟨_, _, rfl, by decide⟩) ?_
  exact .word (by simp [Blank, isSpace]) (.double (by decide)) (.inr ⟨_, _, rfl, by decide⟩) (.none (by simp [Blank, isSpace]))

/-- Every list of arguments can be written, if none has quotes of both kinds. -/
theorem C144_writable_partial (ws : List (List Byte)) (h : ∀ w ∈ ws, (34 : Byte) ∉ w ∨ (39 : Byte) ∉ w) : ∃ text, stringToArgv (some text) = (some ws, ws.length) := by
  suffices ∃ text, Written text ws ∧ (text = [] ∨ ∃ c r', text = c :: r' ∧ isSpace c = true) from this.elim fun t ht => ⟨t, C144_arguments_partial _ _ ht.1⟩
  induction ws with
  | nil => exact ⟨[], .none (by intro _ h; cases h), .inl rfl⟩
  | cons w ws ih =>
    obtain ⟨r, h1, h2⟩ := ih fun x hx => h x (List.mem_cons_of_mem _ hx)
    have hb : Blank [32] := by simp [Blank, isSpace]
    rcases h w (List.mem_cons_self ..) with hw | hw
    · exact ⟨_, .word hb (.double hw) h2 h1, .inr ⟨32, _, rfl, by decide⟩⟩
    · exact ⟨_, .word hb (.single hw) h2 h1, .inr ⟨32, _, rfl, by decide⟩⟩

/-- The pass that counts and the pass that copies agree: behind the last argument only white space is left, whatever the text is. -/
theorem C144_agree (text : List Byte) : ∀ r, (argList (argCount text) text).2 = r → argSkip r = [] := by
  have key : ∀ n (p : List Byte), p.length ≤ n → argSkip (argList (argCount p) p).2 = [] := by
    intro n
    induction n with
    | zero =>
      intro p hp
      have : p = [] := List.length_eq_zero_iff.1 (by omega)
      subst this
      rw [argCount_nil rfl]; rfl
    | succ n ih =>
      intro p hp
      cases h : argSkip p with
      | nil => rw [argCount_nil h]; exact h
      | cons c r =>
        have hl := argPass_lt (argSkip_head h) r
        have hl2 : (argSkip p).length ≤ p.length := (List.dropWhile_suffix isSpace).length_le
        rw [h] at hl2
        have e : argTail (argTake (c :: r)).2 = argPass (c :: r) := by
          unfold argTake argPass
          by_cases h1 : c = asc '"'
          · simp only [if_pos h1]
            cases hc : argClose (asc '"') r with
            | nil => rfl
            | cons d s =>
              have hd : d = asc '"' := by
                have := List.head?_dropWhile_not (· != asc '"') r
                rw [show r.dropWhile (· != asc '"') = d :: s from hc] at this
                simpa using this
              simp only []
              rw [if_neg (by rw [hd]; decide)]
          · by_cases h2 : c = asc '\''
            · simp only [if_neg h1, if_pos h2]
            · simp only [if_neg h1, if_neg h2]
              exact argTail_stop (by
                cases ht : argTail (c :: r) with
                | nil => exact .inl rfl
                | cons d s =>
                  have := List.head?_dropWhile_not (fun c => !isSpace c) (c :: r)
                  rw [show (c :: r).dropWhile (fun c => !isSpace c) = d :: s from ht] at this
                  exact .inr ⟨d, s, rfl, by simpa using this⟩)
        rw [argCount_cons (by rw [h]; simp), argList, h]
        simp only [e]
        exact ih _ (by simp at *; omega)
  intro r hr
  rw [← hr]
  exact key _ text (Nat.le_refl _)

/-- **C144** (violated): what is written directly behind a closing quote is lost, whatever it is. -/
theorem C144_behind_violated (w t : List Byte) (hw : (34 : Byte) ∉ w) (ht : ∀ c ∈ t, isSpace c = false) : stringToArgv (some (34 :: (w ++ 34 :: t))) = (some [w], 1) := by
  obtain ⟨e1, e2⟩ := close_at hw t
  have e1' : argClose (asc '"') (w ++ 34 :: t) = 34 :: t := e1
  have htail : argTail (34 :: t) = [] := by
    have hp : ∀ a ∈ (34 :: t : List Byte), (!isSpace a) = true := by
      intro a ha
      rcases List.mem_cons.1 ha with rfl | ha
      · decide
      · rw [ht a ha]; rfl
    have := List.dropWhile_append_of_pos (l₂ := []) hp
    simpa [argTail] using this
  have hs : argSkip (34 :: (w ++ 34 :: t)) = 34 :: (w ++ 34 :: t) := by rw [argSkip, List.dropWhile_cons, if_neg (by decide)]
  have hc : argCount (34 :: (w ++ 34 :: t)) = 1 := by
    rw [argCount_cons (by rw [hs]; simp), hs]
    have : argPass (34 :: (w ++ 34 :: t)) = [] := by
      unfold argPass
      simp only [show ((34 : Byte) = asc '"') = True from by simp; rfl, if_true, e1']
      rw [if_neg (by decide)]
      exact htail
    rw [this, argCount_nil rfl]
  rw [stringToArgv, hc, argList, hs, argTake, if_pos (by rfl)]
  simp only [e1', htail, argList]
  rw [show (w ++ 34 :: t).takeWhile (· != asc '"') = w from e2]

/-- **C144** (violated): quotes inside an argument do not keep it together, whatever is between them. -/
theorem C144_inside_violated (c : Byte) (x u v : List Byte) (hc : c ≠ 34 ∧ c ≠ 39) (hx : ∀ b ∈ c :: (x ++ u ++ v), isSpace b = false) (hv : v.head? ≠ some 39 ∧ v.head? ≠ some 34) :
    stringToArgv (some (c :: (x ++ 34 :: u) ++ 32 :: (v ++ [34]))) = if v = [] then (some [c :: (x ++ 34 :: u), []], 2) else (some [c :: (x ++ 34 :: u), v ++ [34]], 2) := by
  have h34 : isSpace 34 = false := by decide
  have w1 : Word (c :: (x ++ 34 :: u)) (c :: (x ++ 34 :: u)) := by
    refine .bare (fun b hb => ?_) hc.1 hc.2
    simp only [List.mem_cons, List.mem_append] at hb hx
    rcases hb with rfl | hb | rfl | hb
    · exact hx _ (.inl rfl)
    · exact hx _ (.inr (.inl (.inl hb)))
    · exact h34
    · exact hx _ (.inr (.inl (.inr hb)))
  cases v with
  | nil =>
    rw [if_pos rfl]
    obtain ⟨h1, h2, h3, h4, h5⟩ := word_read w1 (r := [32, 34]) (.inr ⟨32, [34], rfl, by decide⟩)
    have e0 : argSkip [32, 34] = [34] := by decide
    have e1 : argCount [32, 34] = 1 := by
      rw [argCount_cons (by rw [e0]; simp), e0, show argPass [34] = [] from by decide, argCount_nil rfl]
    have e2 : argCount (c :: (x ++ 34 :: u) ++ [32, 34]) = 2 := by rw [argCount_cons (by rw [h1]; simp), h1, h3, e1]
    show stringToArgv (some (c :: (x ++ 34 :: u) ++ [32, 34])) = _
    rw [stringToArgv, e2, argList, h1]
    simp only [h4, h5, argList, e0]
    rfl
  | cons d v =>
    rw [if_neg (by simp)]
    have w2 : Word (d :: v ++ [34]) (d :: v ++ [34]) := by
      refine .bare (fun b hb => ?_) (fun e => hv.2 (by rw [e]; rfl)) (fun e => hv.1 (by rw [e]; rfl))
      have hb : b ∈ (d :: v) ++ [34] := hb
      rw [List.mem_append, List.mem_cons, List.mem_singleton, or_assoc] at hb
      simp only [List.mem_cons, List.mem_append] at hx
      rcases hb with rfl | hb | rfl
      · exact hx _ (.inr (.inr (.inl rfl)))
      · exact hx _ (.inr (.inr (.inr hb)))
      · exact h34
    have := C144_arguments_partial _ _ (.word (s := []) (by intro _ h; cases h) w1 (.inr ⟨32, _, rfl, by decide⟩) (.word (s := [32]) (by simp [Blank, isSpace]) w2 (.inl rfl) (.none (by intro _ h; cases h))))
    simpa using this

end Wizard.Props

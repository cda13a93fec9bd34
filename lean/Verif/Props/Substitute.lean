import Verif.Model.StringOps
/-! C09: `SubstituteString` replaces every non-overlapping occurrence, left to right. -/
namespace Wizard.Props
open Wizard

/-- Specification of left-to-right replacement: at each position, if the search text starts there it
is replaced and scanning goes on after it; otherwise the byte is kept. -/
inductive Subst (search replace : List Byte) : List Byte → List Byte → Prop
  | nil : Subst search replace [] []
  | hit {rest out} : Subst search replace rest out →
      Subst search replace (search ++ rest) (replace ++ out)
  | skip {c rest out} : ¬ search <+: (c :: rest) → Subst search replace rest out →
      Subst search replace (c :: rest) (c :: out)

/-- The specification determines the output. -/
theorem subst_unique {search replace s t t' : List Byte} (hne : search ≠ [])
    (h : Subst search replace s t) (h' : Subst search replace s t') : t = t' := by
  induction h generalizing t' with
  | nil =>
    generalize hs : ([] : List Byte) = s at h'
    cases h' with
    | nil => rfl
    | hit h => simp at hs; exact absurd hs.1 hne
    | skip => cases hs
  | @hit rest out h ih =>
    generalize hs : search ++ rest = s at h'
    cases h' with
    | nil => simp at hs; exact absurd hs.1 hne
    | hit h => have := List.append_cancel_left hs; subst this; rw [ih h]
    | skip hn => exact absurd ⟨_, hs⟩ hn
  | @skip c rest out hn h ih =>
    generalize hs : c :: rest = s at h'
    cases h' with
    | nil => cases hs
    | hit h => exact absurd ⟨_, hs.symm⟩ hn
    | skip hn h => cases hs; rw [ih h]

theorem skip_many {c : Byte} {cs replace a x y : List Byte} (ha : c ∉ a)
    (h : Subst (c :: cs) replace x y) : Subst (c :: cs) replace (a ++ x) (a ++ y) := by
  induction a with
  | nil => exact h
  | cons d a ih =>
    simp only [List.mem_cons, not_or] at ha
    refine .skip ?_ (ih ha.2)
    rintro ⟨t, ht⟩
    simp at ht
    exact ha.1 ht.1

theorem strchr_none {pre rest : List Byte} {c : Byte} :
    strchrFrom (pre ++ rest) pre.length c = none ↔ c ∉ rest := by
  simp only [strchrFrom, List.drop_left, Option.map_eq_none_iff, List.findIdx?_eq_none_iff]
  constructor
  · intro h hm; simpa using h c hm
  · intro h x hx
    simp only [beq_eq_false_iff_ne, ne_eq]
    rintro rfl; exact h hx

theorem strchr_some {pre rest : List Byte} {c : Byte} {p : Nat}
    (h : strchrFrom (pre ++ rest) pre.length c = some p) :
    ∃ a b, rest = a ++ c :: b ∧ c ∉ a ∧ p = pre.length + a.length := by
  simp only [strchrFrom, List.drop_left, Option.map_eq_some_iff] at h
  obtain ⟨i, hi, rfl⟩ := h
  rw [List.findIdx?_eq_some_iff_getElem] at hi
  obtain ⟨hlt, hc, hb⟩ := hi
  refine ⟨rest.take i, rest.drop (i + 1), ?_, ?_, ?_⟩
  · have hc' : rest[i] = c := by simpa using hc
    rw [← hc', List.getElem_cons_drop, List.take_append_drop]
  · intro hm
    obtain ⟨j, hj, hjc⟩ := List.mem_iff_getElem.mp hm
    simp only [List.length_take] at hj
    have := hb j (by omega)
    simp only [List.getElem_take] at hjc
    simp [hjc] at this
  · simp only [List.length_take]; omega

theorem loop_spec (c : Byte) (cs replace : List Byte) :
    ∀ (n : Nat) (pre rest : List Byte) (st : Bool) (fuel : Nat), rest.length ≤ n → n < fuel →
      ∃ t, substituteLoop (c :: cs) replace fuel (pre ++ rest)
          (strchrFrom (pre ++ rest) pre.length c) st =
            some (pre ++ t, st || decide ((c :: cs) <:+: rest)) ∧
        Subst (c :: cs) replace rest t := by
  intro n
  induction n with
  | zero =>
    intro pre rest st fuel hl hf
    have : rest = [] := by cases rest <;> simp_all
    subst this
    have : strchrFrom (pre ++ []) pre.length c = none := strchr_none.mpr (by simp)
    rw [this]
    exact ⟨[], by simp [substituteLoop], .nil⟩
  | succ n ih =>
    intro pre rest st fuel hl hf
    match hq : strchrFrom (pre ++ rest) pre.length c with
    | none =>
      have hc := strchr_none.mp hq
      refine ⟨rest, ?_, ?_⟩
      · have : ¬ (c :: cs) <:+: rest := by
          rintro ⟨a, b, rfl⟩; exact hc (by simp)
        simp [substituteLoop, this]
      · simpa using skip_many hc (Subst.nil : Subst (c :: cs) replace [] [])
    | some p =>
      obtain ⟨a, b, rfl, ha, rfl⟩ := strchr_some hq
      obtain ⟨fuel, rfl⟩ : ∃ f, fuel = f + 1 := ⟨fuel - 1, by omega⟩
      simp only [substituteLoop]
      have hdrop : (pre ++ (a ++ c :: b)).drop (pre.length + a.length) = c :: b := by
        rw [← List.append_assoc, ← List.length_append, List.drop_left]
      have hlen : a.length + b.length + 1 ≤ n + 1 := by simp at hl; omega
      by_cases hp : (c :: cs) <+: (c :: b)
      · obtain ⟨b', hb'⟩ := hp
        have hb : b = cs ++ b' := by simp at hb'; exact hb'.symm
        subst hb
        rw [hdrop, if_pos (by rw [List.isPrefixOf_iff_prefix]; exact ⟨b', rfl⟩)]
        have htake : (pre ++ (a ++ c :: (cs ++ b'))).take (pre.length + a.length) = pre ++ a := by
          rw [← List.append_assoc, ← List.length_append, List.take_left]
        have hdrop2 : (pre ++ (a ++ c :: (cs ++ b'))).drop
            (pre.length + a.length + (c :: cs).length) = b' := by
          rw [← List.drop_drop, hdrop,
            show c :: (cs ++ b') = (c :: cs) ++ b' from rfl, List.drop_left]
        rw [htake, hdrop2]
        simp only [substituteLoop.substituteNext]
        have hlen' : pre.length + a.length + replace.length = (pre ++ a ++ replace).length := by
          simp [Nat.add_assoc]
        rw [hlen']
        obtain ⟨t, h1, h2⟩ := ih (pre ++ a ++ replace) b' true fuel
          (by simp at hlen; omega) (by omega)
        refine ⟨a ++ (replace ++ t), ?_, ?_⟩
        · rw [h1]
          have : (c :: cs) <:+: (a ++ c :: (cs ++ b')) := ⟨a, b', by simp⟩
          simp [this]
        · exact skip_many ha (.hit (search := c :: cs) h2)
      · rw [hdrop, if_neg (by rw [List.isPrefixOf_iff_prefix]; exact hp)]
        simp only [substituteLoop.substituteNext]
        have e : pre ++ (a ++ c :: b) = (pre ++ a ++ [c]) ++ b := by simp
        have hlen' : pre.length + a.length + 1 = (pre ++ a ++ [c]).length := by
          simp [Nat.add_assoc]
        rw [hlen', e]
        obtain ⟨t, h1, h2⟩ := ih (pre ++ a ++ [c]) b st fuel (by omega) (by omega)
        refine ⟨a ++ (c :: t), ?_, skip_many ha (.skip hp h2)⟩
        rw [h1]
        have : ((c :: cs) <:+: (a ++ c :: b)) ↔ (c :: cs) <:+: b := by
          constructor
          · intro h
            clear hq hl hdrop hlen e ih hlen' h1
            induction a with
            | nil =>
              rcases List.infix_cons_iff.mp h with h | h
              · exact absurd h hp
              · exact h
            | cons d a iha =>
              simp only [List.mem_cons, not_or] at ha
              rcases List.infix_cons_iff.mp h with h | h
              · obtain ⟨t, ht⟩ := h
                simp at ht; exact absurd ht.1 ha.1
              · exact iha ha.2 h
          · rintro ⟨x, y, h⟩
            exact ⟨a ++ c :: x, y, by rw [← h]; simp⟩
        simp [this]

/-- **C09** For every text, non-empty search text and replacement, `SubstituteString` terminates
(within `length+1` rounds) with the left-to-right replacement of every occurrence, and reports
success exactly when the search text occurs. -/
theorem C09_substitute (s search replace : List Byte) (hne : search ≠ []) (fuel : Nat)
    (hf : s.length < fuel) :
    ∃ t, substituteString fuel s search replace = some (t, decide (search <:+: s)) ∧
      Subst search replace s t := by
  cases search with
  | nil => exact absurd rfl hne
  | cons c cs =>
    obtain ⟨t, h1, h2⟩ := loop_spec c cs replace s.length [] s false fuel (Nat.le_refl _) hf
    exact ⟨t, by simpa [substituteString, substituteLoop.substituteNext] using h1, h2⟩

theorem subst_id {search replace s : List Byte} (h : ¬ search <:+: s) :
    Subst search replace s s := by
  induction s with
  | nil => exact .nil
  | cons c s ih =>
    rw [List.infix_cons_iff, not_or] at h
    exact .skip h.1 (ih h.2)

/-- **C09** A text in which the search text does not occur is left unchanged. -/
theorem C09_substitute_absent (s search replace : List Byte) (hne : search ≠ []) (fuel : Nat)
    (hf : s.length < fuel) (h : ¬ search <:+: s) :
    substituteString fuel s search replace = some (s, false) := by
  obtain ⟨t, h1, h2⟩ := C09_substitute s search replace hne fuel hf
  rw [h1, subst_unique hne h2 (subst_id h)]
  simp [h]

/-- With an empty search string the loop never ends: `strchr` keeps finding the terminating NUL,
the text grows by the replacement each round, and no amount of fuel suffices. -/
theorem C09_substitute_empty_violated (s replace : List Byte) (fuel : Nat) :
    substituteString fuel s [] replace = none := by
  have h : ∀ (f : Nat) (s : List Byte) (st : Bool),
      substituteLoop [] replace f s (some s.length) st = none := by
    intro f
    induction f with
    | zero => intros; rfl
    | succ f ih =>
      intro s st
      simp only [substituteLoop, List.isPrefixOf_nil_left, if_true, List.take_length,
        List.length_nil, Nat.add_zero, List.drop_length, List.append_nil,
        substituteLoop.substituteNext]
      rw [show s.length + replace.length = (s ++ replace).length by simp,
        if_pos (Nat.le_refl _)]
      exact ih _ _
  simp only [substituteString, substituteLoop.substituteNext, Nat.zero_le, if_true]
  exact h _ _ _

example : substituteString 9 [1, 2, 1, 2, 1, 1] [1, 2, 1] [7] = some ([7, 2, 1, 1], true) := by
  decide +kernel
example : ([1, 2, 1] : List Byte) ≠ [] ∧ ([1, 2, 1, 2, 1, 1] : List Byte).length < 9 := by decide

end Wizard.Props

import Verif.Model.Basic
/-! Specification: dictionary order on byte strings. -/
namespace Wizard.Spec
open Wizard

/-- Dictionary order on byte strings (unsigned bytes, a proper prefix comes first). -/
abbrev DictLT (a b : List Byte) : Prop := List.Lex (· < ·) a b

theorem dict_irrefl (a : List Byte) : ¬ DictLT a a := by
  intro h
  induction a with
  | nil => cases h
  | cons x xs ih =>
    cases h with
    | cons h => exact ih h
    | rel h => exact absurd (BitVec.lt_def.mp h) (Nat.lt_irrefl _)

theorem dict_trans {a b c : List Byte} (h1 : DictLT a b) (h2 : DictLT b c) : DictLT a c := by
  induction h1 generalizing c with
  | nil => cases h2 <;> exact List.Lex.nil
  | cons h ih =>
    cases h2 with
    | cons h2 => exact List.Lex.cons (ih h2)
    | rel h2 => exact List.Lex.rel h2
  | rel h =>
    cases h2 with
    | cons h2 => exact List.Lex.rel h
    | rel h2 =>
      exact List.Lex.rel (BitVec.lt_def.mpr
        (Nat.lt_trans (BitVec.lt_def.mp h) (BitVec.lt_def.mp h2)))

theorem dict_asymm {a b : List Byte} (h : DictLT a b) : ¬ DictLT b a :=
  fun h' => dict_irrefl _ (dict_trans h h')

theorem dict_ne {a b : List Byte} (h : DictLT a b) : a ≠ b := fun e => dict_irrefl b (e ▸ h)

theorem dict_total (a b : List Byte) : DictLT a b ∨ a = b ∨ DictLT b a := by
  induction a generalizing b with
  | nil => cases b <;> simp
  | cons x xs ih =>
    cases b with
    | nil => simp
    | cons y ys =>
      rcases Nat.lt_trichotomy x.toNat y.toNat with h | h | h
      · left; exact List.Lex.rel (BitVec.lt_def.mpr h)
      · have : x = y := BitVec.eq_of_toNat_eq h
        subst this
        rcases ih ys with h | h | h
        · left; exact List.Lex.cons h
        · right; left; rw [h]
        · right; right; exact List.Lex.cons h
      · right; right; exact List.Lex.rel (BitVec.lt_def.mpr h)

end Wizard.Spec

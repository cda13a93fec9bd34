import Verif.Model.Basic
/-! Weakest-precondition style reasoning on outcomes. -/
namespace Wizard

/-- Not fatal, and `P` of the value if there is one. -/
def Res.NoFatal {α : Type} (P : α → Prop) : Res α → Prop
  | .ok a => P a
  | .ub => True
  | .fatal => False

theorem Res.NoFatal.bind {α β : Type} {P : α → Prop} {Q : β → Prop} {r : Res α} {f : α → Res β}
    (h : r.NoFatal P) (h' : ∀ a, P a → (f a).NoFatal Q) : (r >>= f).NoFatal Q := by
  cases r with
  | ok a => exact h' a h
  | ub => exact trivial
  | fatal => exact h

theorem Res.NoFatal.mono {α : Type} {P Q : α → Prop} {r : Res α} (h : r.NoFatal P)
    (hpq : ∀ a, P a → Q a) : r.NoFatal Q := by
  cases r with
  | ok a => exact hpq a h
  | ub => exact trivial
  | fatal => exact h

/-- A value (no undefined behaviour, not fatal), satisfying `P`. -/
def Res.Ok {α : Type} (P : α → Prop) (r : Res α) : Prop := ∃ a, r = .ok a ∧ P a

theorem Res.Ok.bind {α β : Type} {P : α → Prop} {Q : β → Prop} {r : Res α} {f : α → Res β}
    (h : r.Ok P) (h' : ∀ a, P a → (f a).Ok Q) : (r >>= f).Ok Q := by
  obtain ⟨a, rfl, ha⟩ := h
  exact h' a ha

theorem Res.Ok.mono {α : Type} {P Q : α → Prop} {r : Res α} (h : r.Ok P)
    (hpq : ∀ a, P a → Q a) : r.Ok Q := by
  obtain ⟨a, rfl, ha⟩ := h
  exact ⟨a, rfl, hpq a ha⟩

end Wizard

open Lean.Parser.Tactic in
/-- `simp` that leaves bit-vector literals in the form they were written in. -/
macro "bsimp" args:(simpArgs)? loc:(location)? : tactic => do
  match args with
  | some a =>
    match a with
    | `(simpArgs| [$as,*]) =>
      `(tactic| simp -bitVecOfNat [-BitVec.ofNat_eq_ofNat, $as,*] $[$loc]?)
    | _ => Lean.Macro.throwUnsupported
  | none => `(tactic| simp -bitVecOfNat [-BitVec.ofNat_eq_ofNat] $[$loc]?)

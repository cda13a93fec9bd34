import Verif.Model.Serpent
import Verif.Spec.Serpent
import Verif.Lemmas.Res
/-! The S-box macros of serpent.c are the published S-boxes. -/
set_option linter.unusedSimpArgs false
namespace Wizard
open Spec.Serpent

theorem getLsbD_ofBits (f : Nat → Bool) (j : Nat) (h : j < 32) : (ofBits f).getLsbD j = f j := by
  rw [ofBits, BitVec.getLsbD_setWidth, BitVec.getLsbD_ofBoolListLE]
  simp [h, List.getD_eq_getElem?_getD]

/-- The registers, by formal parameter, in which `EncipherSbox`n leaves its four outputs. -/
def sboxOut : Nat → SerpentReg × SerpentReg × SerpentReg × SerpentReg
  | 0 => (.gamma, .beta, .delta, .alpha)
  | 1 => (.epsilon, .gamma, .delta, .alpha)
  | 2 => (.epsilon, .beta, .alpha, .delta)
  | 3 => (.delta, .epsilon, .beta, .alpha)
  | 4 => (.beta, .gamma, .delta, .epsilon)
  | 5 => (.epsilon, .alpha, .beta, .delta)
  | 6 => (.gamma, .epsilon, .beta, .delta)
  | _ => (.epsilon, .gamma, .delta, .alpha)

/-- The same for `DecipherSbox`n. -/
def sboxInvOut : Nat → SerpentReg × SerpentReg × SerpentReg × SerpentReg
  | 0 => (.gamma, .epsilon, .beta, .alpha)
  | 1 => (.epsilon, .beta, .gamma, .delta)
  | 2 => (.beta, .epsilon, .delta, .gamma)
  | 3 => (.gamma, .alpha, .epsilon, .delta)
  | 4 => (.alpha, .gamma, .epsilon, .delta)
  | 5 => (.beta, .epsilon, .alpha, .gamma)
  | 6 => (.gamma, .epsilon, .delta, .alpha)
  | _ => (.beta, .delta, .alpha, .epsilon)

/-- The words in four registers. -/
def SerpentRegs.view (s : SerpentRegs)
    (v : SerpentReg × SerpentReg × SerpentReg × SerpentReg) : Quad :=
  ⟨s.get v.1, s.get v.2.1, s.get v.2.2.1, s.get v.2.2.2⟩

theorem encipherSbox0_spec (a b c d : Word) :
    (encipherSbox0 a b c d).view (sboxOut 0) = sub 0 ⟨a, b, c, d⟩ := by
  simp only [sub, slice, SerpentRegs.view, SerpentRegs.get, sboxOut, Quad.mk.injEq]
  refine ⟨?_, ?_, ?_, ?_⟩ <;>
  · apply BitVec.eq_of_getLsbD_eq
    intro j hj
    rw [getLsbD_ofBits _ _ hj]
    simp only [encipherSbox0, nibble, BitVec.getLsbD_xor, BitVec.getLsbD_or, BitVec.getLsbD_and,
      BitVec.getLsbD_not, hj, decide_true, Bool.true_and]
    generalize a.getLsbD j = a
    generalize b.getLsbD j = b
    generalize c.getLsbD j = c
    generalize d.getLsbD j = d
    revert a b c d
    decide

theorem encipherSbox1_spec (a b c d : Word) :
    (encipherSbox1 a b c d).view (sboxOut 1) = sub 1 ⟨a, b, c, d⟩ := by
  simp only [sub, slice, SerpentRegs.view, SerpentRegs.get, sboxOut, Quad.mk.injEq]
  refine ⟨?_, ?_, ?_, ?_⟩ <;>
  · apply BitVec.eq_of_getLsbD_eq
    intro j hj
    rw [getLsbD_ofBits _ _ hj]
    simp only [encipherSbox1, nibble, BitVec.getLsbD_xor, BitVec.getLsbD_or, BitVec.getLsbD_and,
      BitVec.getLsbD_not, hj, decide_true, Bool.true_and]
    generalize a.getLsbD j = a
    generalize b.getLsbD j = b
    generalize c.getLsbD j = c
    generalize d.getLsbD j = d
    revert a b c d
    decide

theorem encipherSbox2_spec (a b c d : Word) :
    (encipherSbox2 a b c d).view (sboxOut 2) = sub 2 ⟨a, b, c, d⟩ := by
  simp only [sub, slice, SerpentRegs.view, SerpentRegs.get, sboxOut, Quad.mk.injEq]
  refine ⟨?_, ?_, ?_, ?_⟩ <;>
  · apply BitVec.eq_of_getLsbD_eq
    intro j hj
    rw [getLsbD_ofBits _ _ hj]
    simp only [encipherSbox2, nibble, BitVec.getLsbD_xor, BitVec.getLsbD_or, BitVec.getLsbD_and,
      BitVec.getLsbD_not, hj, decide_true, Bool.true_and]
    generalize a.getLsbD j = a
    generalize b.getLsbD j = b
    generalize c.getLsbD j = c
    generalize d.getLsbD j = d
    revert a b c d
    decide

theorem encipherSbox3_spec (a b c d : Word) :
    (encipherSbox3 a b c d).view (sboxOut 3) = sub 3 ⟨a, b, c, d⟩ := by
  simp only [sub, slice, SerpentRegs.view, SerpentRegs.get, sboxOut, Quad.mk.injEq]
  refine ⟨?_, ?_, ?_, ?_⟩ <;>
  · apply BitVec.eq_of_getLsbD_eq
    intro j hj
    rw [getLsbD_ofBits _ _ hj]
    simp only [encipherSbox3, nibble, BitVec.getLsbD_xor, BitVec.getLsbD_or, BitVec.getLsbD_and,
      BitVec.getLsbD_not, hj, decide_true, Bool.true_and]
    generalize a.getLsbD j = a
    generalize b.getLsbD j = b
    generalize c.getLsbD j = c
    generalize d.getLsbD j = d
    revert a b c d
    decide

theorem encipherSbox4_spec (a b c d : Word) :
    (encipherSbox4 a b c d).view (sboxOut 4) = sub 4 ⟨a, b, c, d⟩ := by
  simp only [sub, slice, SerpentRegs.view, SerpentRegs.get, sboxOut, Quad.mk.injEq]
  refine ⟨?_, ?_, ?_, ?_⟩ <;>
  · apply BitVec.eq_of_getLsbD_eq
    intro j hj
    rw [getLsbD_ofBits _ _ hj]
    simp only [encipherSbox4, nibble, BitVec.getLsbD_xor, BitVec.getLsbD_or, BitVec.getLsbD_and,
      BitVec.getLsbD_not, hj, decide_true, Bool.true_and]
    generalize a.getLsbD j = a
    generalize b.getLsbD j = b
    generalize c.getLsbD j = c
    generalize d.getLsbD j = d
    revert a b c d
    decide

theorem encipherSbox5_spec (a b c d : Word) :
    (encipherSbox5 a b c d).view (sboxOut 5) = sub 5 ⟨a, b, c, d⟩ := by
  simp only [sub, slice, SerpentRegs.view, SerpentRegs.get, sboxOut, Quad.mk.injEq]
  refine ⟨?_, ?_, ?_, ?_⟩ <;>
  · apply BitVec.eq_of_getLsbD_eq
    intro j hj
    rw [getLsbD_ofBits _ _ hj]
    simp only [encipherSbox5, nibble, BitVec.getLsbD_xor, BitVec.getLsbD_or, BitVec.getLsbD_and,
      BitVec.getLsbD_not, hj, decide_true, Bool.true_and]
    generalize a.getLsbD j = a
    generalize b.getLsbD j = b
    generalize c.getLsbD j = c
    generalize d.getLsbD j = d
    revert a b c d
    decide

theorem encipherSbox6_spec (a b c d : Word) :
    (encipherSbox6 a b c d).view (sboxOut 6) = sub 6 ⟨a, b, c, d⟩ := by
  simp only [sub, slice, SerpentRegs.view, SerpentRegs.get, sboxOut, Quad.mk.injEq]
  refine ⟨?_, ?_, ?_, ?_⟩ <;>
  · apply BitVec.eq_of_getLsbD_eq
    intro j hj
    rw [getLsbD_ofBits _ _ hj]
    simp only [encipherSbox6, nibble, BitVec.getLsbD_xor, BitVec.getLsbD_or, BitVec.getLsbD_and,
      BitVec.getLsbD_not, hj, decide_true, Bool.true_and]
    generalize a.getLsbD j = a
    generalize b.getLsbD j = b
    generalize c.getLsbD j = c
    generalize d.getLsbD j = d
    revert a b c d
    decide

theorem encipherSbox7_spec (a b c d : Word) :
    (encipherSbox7 a b c d).view (sboxOut 7) = sub 7 ⟨a, b, c, d⟩ := by
  simp only [sub, slice, SerpentRegs.view, SerpentRegs.get, sboxOut, Quad.mk.injEq]
  refine ⟨?_, ?_, ?_, ?_⟩ <;>
  · apply BitVec.eq_of_getLsbD_eq
    intro j hj
    rw [getLsbD_ofBits _ _ hj]
    simp only [encipherSbox7, nibble, BitVec.getLsbD_xor, BitVec.getLsbD_or, BitVec.getLsbD_and,
      BitVec.getLsbD_not, hj, decide_true, Bool.true_and]
    generalize a.getLsbD j = a
    generalize b.getLsbD j = b
    generalize c.getLsbD j = c
    generalize d.getLsbD j = d
    revert a b c d
    decide

theorem decipherSbox0_spec (a b c d : Word) :
    (decipherSbox0 a b c d).view (sboxInvOut 0) = subInv 0 ⟨a, b, c, d⟩ := by
  simp only [subInv, slice, SerpentRegs.view, SerpentRegs.get, sboxInvOut, Quad.mk.injEq]
  refine ⟨?_, ?_, ?_, ?_⟩ <;>
  · apply BitVec.eq_of_getLsbD_eq
    intro j hj
    rw [getLsbD_ofBits _ _ hj]
    simp only [decipherSbox0, nibble, BitVec.getLsbD_xor, BitVec.getLsbD_or, BitVec.getLsbD_and,
      BitVec.getLsbD_not, hj, decide_true, Bool.true_and]
    generalize a.getLsbD j = a
    generalize b.getLsbD j = b
    generalize c.getLsbD j = c
    generalize d.getLsbD j = d
    revert a b c d
    decide

theorem decipherSbox1_spec (a b c d : Word) :
    (decipherSbox1 a b c d).view (sboxInvOut 1) = subInv 1 ⟨a, b, c, d⟩ := by
  simp only [subInv, slice, SerpentRegs.view, SerpentRegs.get, sboxInvOut, Quad.mk.injEq]
  refine ⟨?_, ?_, ?_, ?_⟩ <;>
  · apply BitVec.eq_of_getLsbD_eq
    intro j hj
    rw [getLsbD_ofBits _ _ hj]
    simp only [decipherSbox1, nibble, BitVec.getLsbD_xor, BitVec.getLsbD_or, BitVec.getLsbD_and,
      BitVec.getLsbD_not, hj, decide_true, Bool.true_and]
    generalize a.getLsbD j = a
    generalize b.getLsbD j = b
    generalize c.getLsbD j = c
    generalize d.getLsbD j = d
    revert a b c d
    decide

theorem decipherSbox2_spec (a b c d : Word) :
    (decipherSbox2 a b c d).view (sboxInvOut 2) = subInv 2 ⟨a, b, c, d⟩ := by
  simp only [subInv, slice, SerpentRegs.view, SerpentRegs.get, sboxInvOut, Quad.mk.injEq]
  refine ⟨?_, ?_, ?_, ?_⟩ <;>
  · apply BitVec.eq_of_getLsbD_eq
    intro j hj
    rw [getLsbD_ofBits _ _ hj]
    simp only [decipherSbox2, nibble, BitVec.getLsbD_xor, BitVec.getLsbD_or, BitVec.getLsbD_and,
      BitVec.getLsbD_not, hj, decide_true, Bool.true_and]
    generalize a.getLsbD j = a
    generalize b.getLsbD j = b
    generalize c.getLsbD j = c
    generalize d.getLsbD j = d
    revert a b c d
    decide

theorem decipherSbox3_spec (a b c d : Word) :
    (decipherSbox3 a b c d).view (sboxInvOut 3) = subInv 3 ⟨a, b, c, d⟩ := by
  simp only [subInv, slice, SerpentRegs.view, SerpentRegs.get, sboxInvOut, Quad.mk.injEq]
  refine ⟨?_, ?_, ?_, ?_⟩ <;>
  · apply BitVec.eq_of_getLsbD_eq
    intro j hj
    rw [getLsbD_ofBits _ _ hj]
    simp only [decipherSbox3, nibble, BitVec.getLsbD_xor, BitVec.getLsbD_or, BitVec.getLsbD_and,
      BitVec.getLsbD_not, hj, decide_true, Bool.true_and]
    generalize a.getLsbD j = a
    generalize b.getLsbD j = b
    generalize c.getLsbD j = c
    generalize d.getLsbD j = d
    revert a b c d
    decide

theorem decipherSbox4_spec (a b c d : Word) :
    (decipherSbox4 a b c d).view (sboxInvOut 4) = subInv 4 ⟨a, b, c, d⟩ := by
  simp only [subInv, slice, SerpentRegs.view, SerpentRegs.get, sboxInvOut, Quad.mk.injEq]
  refine ⟨?_, ?_, ?_, ?_⟩ <;>
  · apply BitVec.eq_of_getLsbD_eq
    intro j hj
    rw [getLsbD_ofBits _ _ hj]
    simp only [decipherSbox4, nibble, BitVec.getLsbD_xor, BitVec.getLsbD_or, BitVec.getLsbD_and,
      BitVec.getLsbD_not, hj, decide_true, Bool.true_and]
    generalize a.getLsbD j = a
    generalize b.getLsbD j = b
    generalize c.getLsbD j = c
    generalize d.getLsbD j = d
    revert a b c d
    decide

theorem decipherSbox5_spec (a b c d : Word) :
    (decipherSbox5 a b c d).view (sboxInvOut 5) = subInv 5 ⟨a, b, c, d⟩ := by
  simp only [subInv, slice, SerpentRegs.view, SerpentRegs.get, sboxInvOut, Quad.mk.injEq]
  refine ⟨?_, ?_, ?_, ?_⟩ <;>
  · apply BitVec.eq_of_getLsbD_eq
    intro j hj
    rw [getLsbD_ofBits _ _ hj]
    simp only [decipherSbox5, nibble, BitVec.getLsbD_xor, BitVec.getLsbD_or, BitVec.getLsbD_and,
      BitVec.getLsbD_not, hj, decide_true, Bool.true_and]
    generalize a.getLsbD j = a
    generalize b.getLsbD j = b
    generalize c.getLsbD j = c
    generalize d.getLsbD j = d
    revert a b c d
    decide

theorem decipherSbox6_spec (a b c d : Word) :
    (decipherSbox6 a b c d).view (sboxInvOut 6) = subInv 6 ⟨a, b, c, d⟩ := by
  simp only [subInv, slice, SerpentRegs.view, SerpentRegs.get, sboxInvOut, Quad.mk.injEq]
  refine ⟨?_, ?_, ?_, ?_⟩ <;>
  · apply BitVec.eq_of_getLsbD_eq
    intro j hj
    rw [getLsbD_ofBits _ _ hj]
    simp only [decipherSbox6, nibble, BitVec.getLsbD_xor, BitVec.getLsbD_or, BitVec.getLsbD_and,
      BitVec.getLsbD_not, hj, decide_true, Bool.true_and]
    generalize a.getLsbD j = a
    generalize b.getLsbD j = b
    generalize c.getLsbD j = c
    generalize d.getLsbD j = d
    revert a b c d
    decide

theorem decipherSbox7_spec (a b c d : Word) :
    (decipherSbox7 a b c d).view (sboxInvOut 7) = subInv 7 ⟨a, b, c, d⟩ := by
  simp only [subInv, slice, SerpentRegs.view, SerpentRegs.get, sboxInvOut, Quad.mk.injEq]
  refine ⟨?_, ?_, ?_, ?_⟩ <;>
  · apply BitVec.eq_of_getLsbD_eq
    intro j hj
    rw [getLsbD_ofBits _ _ hj]
    simp only [decipherSbox7, nibble, BitVec.getLsbD_xor, BitVec.getLsbD_or, BitVec.getLsbD_and,
      BitVec.getLsbD_not, hj, decide_true, Bool.true_and]
    generalize a.getLsbD j = a
    generalize b.getLsbD j = b
    generalize c.getLsbD j = c
    generalize d.getLsbD j = d
    revert a b c d
    decide

end Wizard

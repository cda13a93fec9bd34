import Verif.Model.Twofish
import Verif.Spec.Twofish
import Verif.Lemmas.SerpentSpec
/-! twofish.c computes published Twofish, and its block functions are inverse to each other. -/
namespace Wizard
open Spec.Serpent (Quad)

/-! ### Words -/

theorem add_shifts (x : BitVec 32) (n : Nat) (h0 : 0 < n) (h : n < 32) :
    (x <<< n) + (x >>> (32 - n)) = x.rotateLeft n := by
  rw [BitVec.add_eq_or_of_and_eq_zero, BitVec.rotateLeft_eq_rotateLeftAux_of_lt h, BitVec.rotateLeftAux]
  apply BitVec.eq_of_getLsbD_eq
  intro j hj
  rw [BitVec.getLsbD_and, BitVec.getLsbD_shiftLeft, BitVec.getLsbD_ushiftRight, BitVec.getLsbD_zero]
  by_cases h1 : j < n
  · rw [decide_eq_true h1, Bool.not_true, Bool.and_false, Bool.false_and, Bool.false_and]
  · rw [BitVec.getLsbD_of_ge x (32 - n + j) (by omega), Bool.and_false]

theorem add_shifts_right (x : BitVec 32) : (x >>> 1) + (x <<< 31) = x.rotateRight 1 := by
  rw [BitVec.add_comm, add_shifts x 31 (by decide) (by decide)]
  apply BitVec.eq_of_getLsbD_eq
  intro j hj
  rw [BitVec.getLsbD_rotateRight_of_lt (by decide), BitVec.getLsbD_rotateLeft_of_le (by decide)]

theorem rotateLeft_rotateRight (x : BitVec 32) : (x.rotateRight 1).rotateLeft 1 = x := by
  apply BitVec.eq_of_getLsbD_eq
  intro j hj
  rw [BitVec.getLsbD_rotateLeft_of_le (by decide)]
  by_cases h1 : j < 1
  · have : j = 0 := by omega
    subst this
    rw [decide_eq_true h1, cond_true, BitVec.getLsbD_rotateRight_of_lt (by decide)]; rfl
  · rw [decide_eq_false h1, cond_false, BitVec.getLsbD_rotateRight_of_lt (by decide),
      decide_eq_true hj, Bool.true_and, decide_eq_true (by omega : j - 1 < 32 - 1), cond_true]
    congr 1; omega

theorem twofishRead32_eq (b : List Byte) (i : Nat) : twofishRead32 b i = Spec.Serpent.word b i := by
  unfold twofishRead32 Spec.Serpent.word
  apply BitVec.eq_of_getLsbD_eq
  intro j hj
  simp only [BitVec.getLsbD_xor, BitVec.getLsbD_shiftLeft, BitVec.getLsbD_setWidth, BitVec.getLsbD_append]
  have g : ∀ (x : Byte) m, 8 ≤ m → x.getLsbD m = false := fun x m h => BitVec.getLsbD_of_ge x m h
  by_cases h1 : j < 8
  · simp only [h1, hj, decide_true, show j < 16 by omega, show j < 24 by omega, if_true]
    simp [h1]
  · by_cases h2 : j < 16
    · simp [h1, h2, hj, g _ j (by omega), show j < 24 by omega, show j - 8 < 8 by omega, show j-8 < 32 by omega]
    · by_cases h3 : j < 24
      · simp [h1, h2, h3, hj, g _ j (by omega), g _ (j-8) (by omega), show ¬ j - 8 < 8 by omega, show j-16 < 8 by omega, show j-16 <32 by omega, show j - 8 - 8 = j - 16 by omega]
      · simp [h1, h2, h3, hj, g _ j (by omega), g _ (j-8) (by omega), g _ (j-16) (by omega), show ¬ j - 8 < 8 by omega, show ¬ j-8-8 < 8 by omega, show j-24 <32 by omega, show j - 8 - 8 -8 = j - 24 by omega]

theorem twofishWrite32_eq (w : Word) : twofishWrite32 w = Spec.Serpent.wordBytes w := by
  rw [twofishWrite32, Spec.Serpent.wordBytes]
  rfl

/-! ### The block functions are inverse -/

theorem twofishStep_inverse (t : TwofishInfo) (i : Nat) (r : TwofishRegs) :
    twofishDecipherStep t i (twofishEncipherStep t i r) = r := by
  unfold twofishDecipherStep twofishEncipherStep
  dsimp only
  rw [add_shifts_right, add_shifts_right]
  have e1 : ∀ x : BitVec 32, (x <<< 1) + (x >>> 31) = x.rotateLeft 1 :=
    fun x => add_shifts x 1 (by decide) (by decide)
  rw [e1, e1, rotateLeft_rotateRight, xor_cancel, BitVec.add_assoc (twofishG2 t r.beta), xor_cancel,
    rotateRight_rotateLeft _ 1 (by decide)]

theorem TwofishRegs.swap_swap (r : TwofishRegs) : r.swap.swap = r := rfl

theorem twofishRound_inverse (t : TwofishInfo) (r : TwofishRegs) (c : Bool × Nat) :
    twofishRound (twofishDecipherStep t) (twofishRound (twofishEncipherStep t) r c) c = r := by
  obtain ⟨b, i⟩ := c
  cases b
  · exact twofishStep_inverse t i r
  · show (twofishDecipherStep t i (twofishEncipherStep t i r.swap).swap.swap).swap = r
    rw [TwofishRegs.swap_swap, twofishStep_inverse, TwofishRegs.swap_swap]

theorem twofishRounds_inverse (t : TwofishInfo) (l : List (Bool × Nat)) : ∀ r : TwofishRegs,
    l.reverse.foldl (twofishRound (twofishDecipherStep t)) (l.foldl (twofishRound (twofishEncipherStep t)) r)
      = r := by
  induction l with
  | nil => intro r; rfl
  | cons c l ih =>
    intro r
    rw [List.reverse_cons, List.foldl_append, List.foldl_cons, List.foldl_cons, ih]
    exact twofishRound_inverse t r c

theorem twofishDecipherRounds_eq : twofishDecipherRounds = twofishEncipherRounds.reverse := by decide

theorem encipherTwofishBlock_length (t : TwofishInfo) (b : List Byte) :
    (encipherTwofishBlock t b).length = 16 := rfl

theorem decipherTwofishBlock_length (t : TwofishInfo) (b : List Byte) :
    (decipherTwofishBlock t b).length = 16 := rfl

/-- The whole block as bytes. -/
theorem toBytes_eq (a b c d : Word) :
    twofishWrite32 a ++ twofishWrite32 b ++ twofishWrite32 c ++ twofishWrite32 d
      = Spec.Serpent.toBytes ⟨a, b, c, d⟩ := by
  simp only [twofishWrite32_eq, Spec.Serpent.toBytes]

theorem twofish_read_toBytes (q : Quad) :
    twofishRead32 (Spec.Serpent.toBytes q) 0 = q.x0 ∧ twofishRead32 (Spec.Serpent.toBytes q) 1 = q.x1 ∧
    twofishRead32 (Spec.Serpent.toBytes q) 2 = q.x2 ∧ twofishRead32 (Spec.Serpent.toBytes q) 3 = q.x3 := by
  have h := ofBytes_toBytes q
  rw [Spec.Serpent.ofBytes] at h
  simp only [twofishRead32_eq]
  refine ⟨congrArg Quad.x0 h, congrArg Quad.x1 h, congrArg Quad.x2 h, congrArg Quad.x3 h⟩

theorem twofish_inverse (t : TwofishInfo) (b : List Byte) (hb : b.length = 16) :
    decipherTwofishBlock t (encipherTwofishBlock t b) = b := by
  unfold decipherTwofishBlock encipherTwofishBlock
  dsimp only
  rw [toBytes_eq, toBytes_eq]
  obtain ⟨h0, h1, h2, h3⟩ := twofish_read_toBytes
    ⟨(List.foldl (twofishRound (twofishEncipherStep t))
        ⟨twofishRead32 b 0 ^^^ t.w.getD 0 0, twofishRead32 b 1 ^^^ t.w.getD 1 0,
          twofishRead32 b 2 ^^^ t.w.getD 2 0, twofishRead32 b 3 ^^^ t.w.getD 3 0⟩
        twofishEncipherRounds).gamma ^^^ t.w.getD 4 0,
      (List.foldl (twofishRound (twofishEncipherStep t))
        ⟨twofishRead32 b 0 ^^^ t.w.getD 0 0, twofishRead32 b 1 ^^^ t.w.getD 1 0,
          twofishRead32 b 2 ^^^ t.w.getD 2 0, twofishRead32 b 3 ^^^ t.w.getD 3 0⟩
        twofishEncipherRounds).delta ^^^ t.w.getD 5 0,
      (List.foldl (twofishRound (twofishEncipherStep t))
        ⟨twofishRead32 b 0 ^^^ t.w.getD 0 0, twofishRead32 b 1 ^^^ t.w.getD 1 0,
          twofishRead32 b 2 ^^^ t.w.getD 2 0, twofishRead32 b 3 ^^^ t.w.getD 3 0⟩
        twofishEncipherRounds).alpha ^^^ t.w.getD 6 0,
      (List.foldl (twofishRound (twofishEncipherStep t))
        ⟨twofishRead32 b 0 ^^^ t.w.getD 0 0, twofishRead32 b 1 ^^^ t.w.getD 1 0,
          twofishRead32 b 2 ^^^ t.w.getD 2 0, twofishRead32 b 3 ^^^ t.w.getD 3 0⟩
        twofishEncipherRounds).beta ^^^ t.w.getD 7 0⟩
  rw [h0, h1, h2, h3]
  simp only [xor_cancel]
  rw [twofishDecipherRounds_eq, twofishRounds_inverse]
  simp only [xor_cancel, twofishRead32_eq]
  exact toBytes_ofBytes b hb

/-! ### The tables -/
open Spec.Twofish

theorem tq0_eq : ∀ x : BitVec 8, tq0 x = q0 x := by decide +kernel
theorem tq1_eq : ∀ x : BitVec 8, tq1 x = q1 x := by decide +kernel
theorem tsb_even : ∀ x : BitVec 8, tsb (2 * x.toNat) = q0 x := by decide +kernel
theorem tsb_odd : ∀ x : BitVec 8, tsb (2 * x.toNat + 1) = q1 x := by decide +kernel
theorem mds0_eq : ∀ x : BitVec 8, twofishMds0.getD x.toNat 0 = (mds ⟨q1 x, 0, 0, 0⟩).word := by
  decide +kernel
theorem mds1_eq : ∀ x : BitVec 8, twofishMds1.getD x.toNat 0 = (mds ⟨0, q0 x, 0, 0⟩).word := by
  decide +kernel
theorem mds2_eq : ∀ x : BitVec 8, twofishMds2.getD x.toNat 0 = (mds ⟨0, 0, q1 x, 0⟩).word := by
  decide +kernel
theorem mds3_eq : ∀ x : BitVec 8, twofishMds3.getD x.toNat 0 = (mds ⟨0, 0, 0, q0 x⟩).word := by
  decide +kernel

theorem Vec.word_add (u v : Vec) : (Vec.add u v).word = u.word ^^^ v.word := by
  unfold Vec.word Vec.add
  apply BitVec.eq_of_getLsbD_eq
  intro j hj
  simp only [BitVec.getLsbD_xor, BitVec.getLsbD_append]
  by_cases h1 : j < 8
  · simp only [h1, if_true]
  · by_cases h2 : j - 8 < 8
    · simp only [h1, h2, if_true, if_false]
    · by_cases h3 : j - 8 - 8 < 8
      · simp only [h1, h2, h3, if_true, if_false]
      · simp only [h1, h2, h3, if_false]

theorem dot4 (r a b c d x y z u : Byte) :
    dot r [a, b, c, d] [x, y, z, u] = mul r a x ^^^ mul r b y ^^^ mul r c z ^^^ mul r d u := by
  show 0#8 ^^^ mul r a x ^^^ mul r b y ^^^ mul r c z ^^^ mul r d u = _
  rw [BitVec.zero_xor]

theorem byte_xor0 (x : Byte) : x ^^^ 0 = x := BitVec.xor_zero
theorem byte_0xor (x : Byte) : 0 ^^^ x = x := BitVec.zero_xor

theorem mds_split (v : Vec) : mds v = Vec.add (Vec.add (Vec.add (mds ⟨v.b0, 0, 0, 0⟩) (mds ⟨0, v.b1, 0, 0⟩))
    (mds ⟨0, 0, v.b2, 0⟩)) (mds ⟨0, 0, 0, v.b3⟩) := by
  have z : mul 0x69 0x01 0 = 0 ∧ mul 0x69 0xEF 0 = 0 ∧ mul 0x69 0x5B 0 = 0 := by decide
  simp only [mds, Vec.add, dot4, z.1, z.2.1, z.2.2, byte_xor0, byte_0xor]

theorem tmds_eq (x y z u : Byte) : tmds x y z u = (mds ⟨q1 x, q0 y, q1 z, q0 u⟩).word := by
  rw [mds_split, Vec.word_add, Vec.word_add, Vec.word_add, tmds]
  rw [mds0_eq x, mds1_eq y, mds2_eq z, mds3_eq u]

end Wizard

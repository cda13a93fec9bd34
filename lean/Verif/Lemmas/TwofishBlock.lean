import Verif.Lemmas.TwofishKey
/-! `EncipherTwofishBlock` computes published Twofish. -/
namespace Wizard
open Spec.Serpent (Quad)
open Spec.Twofish

theorem toNat_byte (a : Word) (n : Nat) : ((a >>> n) &&& 0xFF).toNat = (a.extractLsb' n 8).toNat := by
  rw [show (a >>> n) &&& 0xFF = (a.extractLsb' n 8).setWidth 32 from ?_]
  · rw [BitVec.toNat_setWidth, Nat.mod_eq_of_lt]
    exact Nat.lt_trans (a.extractLsb' n 8).isLt (by decide)
  · apply BitVec.eq_of_getLsbD_eq
    intro j hj
    rw [BitVec.getLsbD_and, BitVec.getLsbD_ushiftRight, BitVec.getLsbD_setWidth, BitVec.getLsbD_extractLsb']
    have : ∀ j, j < 32 → (0xFF : BitVec 32).getLsbD j = decide (j < 8) := by decide
    rw [this j hj, decide_eq_true hj, Bool.true_and, Bool.and_comm]

theorem toNat_byte0 (a : Word) : (a &&& 0xFF).toNat = (a.extractLsb' 0 8).toNat := by
  rw [← toNat_byte, BitVec.ushiftRight_zero]

theorem toNat_byte3 (a : Word) : (a >>> 24).toNat = (a.extractLsb' 24 8).toNat := by
  rw [← toNat_byte]
  congr 1
  apply BitVec.eq_of_getLsbD_eq
  intro j hj
  rw [BitVec.getLsbD_and, BitVec.getLsbD_ushiftRight]
  have : ∀ j, j < 32 → (0xFF : BitVec 32).getLsbD j = decide (j < 8) := by decide
  rw [this j hj]
  by_cases h : j < 8
  · rw [decide_eq_true h, Bool.and_true]
  · rw [BitVec.getLsbD_of_ge _ (24 + j) (by omega), Bool.false_and]

theorem vec_rotate (a : BitVec 32) : vec (a.rotateLeft 8) =
    ⟨a.extractLsb' 24 8, a.extractLsb' 0 8, a.extractLsb' 8 8, a.extractLsb' 16 8⟩ := by
  have f : ∀ n m, (∀ j, j < 8 → (if n + j < 8 then 32 - 8 + (n + j) else n + j - 8) = m + j) → n + 8 ≤ 32 →
      (a.rotateLeft 8).extractLsb' n 8 = a.extractLsb' m 8 := by
    intro n m h hn
    apply BitVec.eq_of_getLsbD_eq
    intro j hj
    rw [BitVec.getLsbD_extractLsb', BitVec.getLsbD_extractLsb', BitVec.getLsbD_rotateLeft_of_le (by decide),
      decide_eq_true hj, Bool.true_and, Bool.true_and, ← h j hj]
    by_cases h1 : n + j < 8
    · rw [decide_eq_true h1, cond_true, if_pos h1]
    · rw [decide_eq_false h1, cond_false, if_neg h1, decide_eq_true (by omega), Bool.true_and]
  unfold vec
  rw [f 0 24, f 8 0, f 16 8, f 24 16]
  all_goals first | decide | skip

theorem twofishG_eq (t : TwofishInfo) (e : List Byte) (r : TwofishReady t e) (a : Word) :
    twofishG1 t a = g e a ∧ twofishG2 t a = g e (a.rotateLeft 8) := by
  constructor
  · rw [twofishG1, toNat_byte0, toNat_byte, toNat_byte, toNat_byte3, r.s]
    rfl
  · rw [twofishG2, toNat_byte0, toNat_byte, toNat_byte, toNat_byte3, g, vec_rotate, ← r.s]
    rw [BitVec.xor_comm _ (t.s0.getD _ 0), ← BitVec.xor_assoc, ← BitVec.xor_assoc]

/-- Registers as a block of the published description. -/
def TwofishRegs.quad (r : TwofishRegs) : Quad := ⟨r.alpha, r.beta, r.gamma, r.delta⟩

theorem twofishStep_eq (t : TwofishInfo) (e : List Byte) (h : TwofishReady t e) (i : Nat) (hi : i < 16)
    (r : TwofishRegs) : (twofishEncipherStep t i r).swap.quad = Spec.Twofish.round e i r.quad := by
  unfold twofishEncipherStep Spec.Twofish.round F TwofishRegs.swap TwofishRegs.quad
  dsimp only
  have e1 : ∀ x : BitVec 32, (x <<< 1) + (x >>> 31) = x.rotateLeft 1 :=
    fun x => add_shifts x 1 (by decide) (by decide)
  rw [add_shifts_right, e1, (twofishG_eq t e h r.alpha).1, (twofishG_eq t e h r.beta).2, h.k _ (by omega),
    h.k _ (by omega), show 8 + 2 * i = 2 * i + 8 by omega, show 8 + (2 * i + 1) = 2 * i + 9 by omega]
  have : ∀ a b c : BitVec 32, b + (a + b + c) = a + 2 * b + c := by
    intro a b c
    rw [show 2 * b = b + b from BitVec.two_mul]
    ac_rfl
  rw [this]

theorem twofishTwo_eq (t : TwofishInfo) (e : List Byte) (h : TwofishReady t e) (i : Nat) (hi : i + 1 < 16)
    (r : TwofishRegs) :
    (twofishRound (twofishEncipherStep t) (twofishRound (twofishEncipherStep t) r (false, i)) (true, i + 1)).quad
      = Spec.Twofish.round e (i + 1) (Spec.Twofish.round e i r.quad) := by
  rw [← twofishStep_eq t e h i (by omega), ← twofishStep_eq t e h (i + 1) hi]
  rfl

theorem twofishRounds_eq (t : TwofishInfo) (e : List Byte) (h : TwofishReady t e) (r : TwofishRegs) :
    (twofishEncipherRounds.foldl (twofishRound (twofishEncipherStep t)) r).quad
      = Spec.Twofish.rounds e 16 r.quad := by
  have u := twofishTwo_eq t e h
  simp only [twofishEncipherRounds, List.foldl, Spec.Twofish.rounds]
  rw [u 14 (by decide), u 12 (by decide), u 10 (by decide), u 8 (by decide), u 6 (by decide), u 4 (by decide),
    u 2 (by decide), u 0 (by decide)]

theorem encipherTwofishBlock_eq (t : TwofishInfo) (e : List Byte) (h : TwofishReady t e) (b : List Byte) :
    encipherTwofishBlock t b = Spec.Twofish.encipher e b := by
  unfold encipherTwofishBlock Spec.Twofish.encipher encrypt
  dsimp only
  have hr := twofishRounds_eq t e h
    ⟨twofishRead32 b 0 ^^^ t.w.getD 0 0, twofishRead32 b 1 ^^^ t.w.getD 1 0,
     twofishRead32 b 2 ^^^ t.w.getD 2 0, twofishRead32 b 3 ^^^ t.w.getD 3 0⟩
  revert hr
  generalize List.foldl _ _ _ = r
  intro hr
  rw [toBytes_eq, h.w 4 (by decide), h.w 5 (by decide), h.w 6 (by decide), h.w 7 (by decide)]
  have e0 : Spec.Serpent.ofBytes b = ⟨twofishRead32 b 0, twofishRead32 b 1, twofishRead32 b 2, twofishRead32 b 3⟩ := by
    simp only [twofishRead32_eq]; rfl
  rw [h.w 0 (by decide), h.w 1 (by decide), h.w 2 (by decide), h.w 3 (by decide)] at hr
  have q0 := congrArg Quad.x0 hr
  have q1 := congrArg Quad.x1 hr
  have q2 := congrArg Quad.x2 hr
  have q3 := congrArg Quad.x3 hr
  rw [e0]
  unfold TwofishRegs.quad at q0 q1 q2 q3
  dsimp only at q0 q1 q2 q3 ⊢
  rw [q0, q1, q2, q3]

end Wizard

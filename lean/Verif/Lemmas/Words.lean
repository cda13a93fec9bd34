import Verif.Model.AES
/-! Words of 32 bits as four bytes. -/
namespace Wizard

/-- The word of four bytes, low byte first. -/
def w32 (b0 b1 b2 b3 : Byte) : Word :=
  b0.setWidth 32 ||| (b1.setWidth 32 <<< 8) ||| (b2.setWidth 32 <<< 16) ||| (b3.setWidth 32 <<< 24)

/-- Byte `k` of a word. -/
def byteOf (w : Word) (k : Nat) : Byte := ((w >>> (8 * k : Nat)) &&& 0xff).setWidth 8

theorem w32_getLsbD (b0 b1 b2 b3 : Byte) (i : Nat) (hi : i < 32) :
    (w32 b0 b1 b2 b3).getLsbD i =
      if i < 8 then b0.getLsbD i else if i < 16 then b1.getLsbD (i - 8)
      else if i < 24 then b2.getLsbD (i - 16) else b3.getLsbD (i - 24) := by
  have h0 : ∀ (b : Byte) (j : Nat), 8 ≤ j → b.getLsbD j = false :=
    fun b j hj => BitVec.getLsbD_of_ge b j hj
  simp only [w32, BitVec.getLsbD_or, BitVec.getLsbD_shiftLeft, BitVec.getLsbD_setWidth, hi,
    decide_true, Bool.true_and]
  by_cases h1 : i < 8
  · simp [h1, show i < 16 by omega, show i < 24 by omega]
  · by_cases h2 : i < 16
    · simp [h1, h2, show i < 24 by omega, h0 b0 i (by omega), show i - 8 < 32 by omega]
    · by_cases h3 : i < 24
      · simp [h1, h2, h3, h0 b0 i (by omega), h0 b1 (i - 8) (by omega), show i - 8 < 32 by omega,
          show i - 16 < 32 by omega]
      · simp [h1, h2, h3, h0 b0 i (by omega), h0 b1 (i - 8) (by omega), h0 b2 (i - 16) (by omega),
          show i - 8 < 32 by omega, show i - 16 < 32 by omega, show i - 24 < 32 by omega]

theorem ff_getLsbD {n : Nat} (hn : 8 ≤ n) (i : Nat) :
    (BitVec.ofNat n 255).getLsbD i = decide (i < 8) := by
  rw [BitVec.getLsbD_ofNat]
  by_cases h : i < 8
  · have : Nat.testBit 255 i = true := by
      rcases i with _ | _ | _ | _ | _ | _ | _ | _ | i <;> first | rfl | omega
    simp [h, this, show i < n by omega]
  · have : Nat.testBit 255 i = false := by
      rw [Nat.testBit_lt_two_pow]
      exact Nat.lt_of_lt_of_le (by decide : 255 < 2 ^ 8) (Nat.pow_le_pow_right (by decide) (by omega))
    simp [h, this]

theorem byteOf_getLsbD (w : Word) (k i : Nat) :
    (byteOf w k).getLsbD i = (decide (i < 8) && w.getLsbD (8 * k + i)) := by
  unfold byteOf
  rw [BitVec.getLsbD_setWidth, BitVec.getLsbD_and, BitVec.getLsbD_ushiftRight,
    show (0xff : Word) = BitVec.ofNat 32 255 from rfl, ff_getLsbD (by decide)]
  by_cases h : i < 8 <;> simp [h]

theorem byte_ext {a b : Byte} (h : ∀ i, i < 8 → a.getLsbD i = b.getLsbD i) : a = b :=
  BitVec.eq_of_getLsbD_eq h

theorem byteOf_w32_0 (b0 b1 b2 b3 : Byte) : byteOf (w32 b0 b1 b2 b3) 0 = b0 := by
  apply byte_ext; intro i hi
  rw [byteOf_getLsbD, w32_getLsbD _ _ _ _ _ (by omega)]
  simp [hi]

theorem byteOf_w32_1 (b0 b1 b2 b3 : Byte) : byteOf (w32 b0 b1 b2 b3) 1 = b1 := by
  apply byte_ext; intro i hi
  rw [byteOf_getLsbD, w32_getLsbD _ _ _ _ _ (by omega)]
  simp [hi, show ¬ 8 + i < 8 by omega, show 8 + i < 16 by omega]

theorem byteOf_w32_2 (b0 b1 b2 b3 : Byte) : byteOf (w32 b0 b1 b2 b3) 2 = b2 := by
  apply byte_ext; intro i hi
  rw [byteOf_getLsbD, w32_getLsbD _ _ _ _ _ (by omega)]
  simp [hi, show ¬ 16 + i < 8 by omega, show ¬ 16 + i < 16 by omega, show 16 + i < 24 by omega]

theorem byteOf_w32_3 (b0 b1 b2 b3 : Byte) : byteOf (w32 b0 b1 b2 b3) 3 = b3 := by
  apply byte_ext; intro i hi
  rw [byteOf_getLsbD, w32_getLsbD _ _ _ _ _ (by omega)]
  simp [hi, show ¬ 24 + i < 8 by omega, show ¬ 24 + i < 16 by omega, show ¬ 24 + i < 24 by omega]

theorem w32_byteOf (w : Word) : w32 (byteOf w 0) (byteOf w 1) (byteOf w 2) (byteOf w 3) = w := by
  apply BitVec.eq_of_getLsbD_eq; intro i hi
  rw [w32_getLsbD _ _ _ _ _ hi]
  simp only [byteOf_getLsbD]
  split
  · rename_i h; simp [h]
  · split
    · rename_i h1 h2
      simp [show i - 8 < 8 by omega, show 8 + (i - 8) = i by omega]
    · split
      · rename_i h1 h2 h3
        simp [show i - 16 < 8 by omega, show 16 + (i - 16) = i by omega]
      · rename_i h1 h2 h3
        simp [show i - 24 < 8 by omega, show 24 + (i - 24) = i by omega]

theorem word_ext {a b : Word} (h0 : byteOf a 0 = byteOf b 0) (h1 : byteOf a 1 = byteOf b 1)
    (h2 : byteOf a 2 = byteOf b 2) (h3 : byteOf a 3 = byteOf b 3) : a = b := by
  rw [← w32_byteOf a, ← w32_byteOf b, h0, h1, h2, h3]

theorem byteOf_xor (a b : Word) (k : Nat) : byteOf (a ^^^ b) k = byteOf a k ^^^ byteOf b k := by
  apply byte_ext; intro i hi
  simp only [byteOf_getLsbD, BitVec.getLsbD_xor, hi, decide_true, Bool.true_and]

theorem w32_xor (a0 a1 a2 a3 b0 b1 b2 b3 : Byte) :
    w32 a0 a1 a2 a3 ^^^ w32 b0 b1 b2 b3 =
      w32 (a0 ^^^ b0) (a1 ^^^ b1) (a2 ^^^ b2) (a3 ^^^ b3) := by
  apply word_ext <;> rw [byteOf_xor] <;>
    simp only [byteOf_w32_0, byteOf_w32_1, byteOf_w32_2, byteOf_w32_3]

theorem rotl_w32 (b0 b1 b2 b3 : Byte) : aesRotateLeft (w32 b0 b1 b2 b3) = w32 b3 b0 b1 b2 := by
  apply BitVec.eq_of_getLsbD_eq; intro i hi
  rw [w32_getLsbD _ _ _ _ _ hi]
  unfold aesRotateLeft
  rw [BitVec.getLsbD_or, BitVec.getLsbD_and, BitVec.getLsbD_ushiftRight, BitVec.getLsbD_shiftLeft,
    show (0xff : Word) = BitVec.ofNat 32 255 from rfl, ff_getLsbD (by decide)]
  by_cases h1 : i < 8
  · rw [w32_getLsbD _ _ _ _ (24 + i) (by omega)]
    simp [h1, show ¬ 24 + i < 8 by omega, show ¬ 24 + i < 16 by omega, show ¬ 24 + i < 24 by omega]
  · rw [w32_getLsbD _ _ _ _ (i - 8) (by omega)]
    by_cases h2 : i < 16
    · simp [h1, h2, hi, show i - 8 < 8 by omega]
    · by_cases h3 : i < 24
      · simp [h1, h2, h3, hi, show ¬ i - 8 < 8 by omega, show i - 8 < 16 by omega,
          show i - 8 - 8 = i - 16 by omega]
      · simp [h1, h2, h3, hi, show ¬ i - 8 < 8 by omega, show ¬ i - 8 < 16 by omega,
          show i - 8 < 24 by omega, show i - 8 - 16 = i - 24 by omega]

theorem rotr_w32 (b0 b1 b2 b3 : Byte) : aesRotateRight (w32 b0 b1 b2 b3) = w32 b1 b2 b3 b0 := by
  apply BitVec.eq_of_getLsbD_eq; intro i hi
  rw [w32_getLsbD _ _ _ _ _ hi]
  unfold aesRotateRight
  rw [BitVec.getLsbD_or, BitVec.getLsbD_shiftLeft, BitVec.getLsbD_and, BitVec.getLsbD_ushiftRight,
    show (0xff : Word) = BitVec.ofNat 32 255 from rfl, ff_getLsbD (by decide)]
  by_cases h : i < 24
  · rw [w32_getLsbD _ _ _ _ (8 + i) (by omega)]
    by_cases h1 : i < 8
    · simp [h1, show ¬ 8 + i < 8 by omega, show 8 + i < 16 by omega, show i < 24 by omega]
    · by_cases h2 : i < 16
      · simp [h1, h2, show ¬ 8 + i < 8 by omega, show ¬ 8 + i < 16 by omega, show 8 + i < 24 by omega,
          show 8 + i - 16 = i - 8 by omega, show i < 24 by omega]
      · simp [h1, h2, h, show ¬ 8 + i < 8 by omega, show ¬ 8 + i < 16 by omega,
          show ¬ 8 + i < 24 by omega, show 8 + i - 24 = i - 16 by omega]
  · rw [w32_getLsbD _ _ _ _ (i - 24) (by omega), BitVec.getLsbD_of_ge _ (8 + i) (by omega)]
    simp [h, hi, show ¬ i < 8 by omega, show ¬ i < 16 by omega, show i - 24 < 8 by omega]

/-- A masked index into a table is a byte of the word. -/
theorem tab_byteOf {α : Type} [OfNat α 0] (t : List α) (w : Word) (k : Nat) :
    tab t ((w >>> (8 * k : Nat)) &&& 0xff) = tab t (byteOf w k) := by
  unfold tab byteOf
  congr 1
  rw [BitVec.toNat_setWidth, Nat.mod_eq_of_lt]
  rw [BitVec.toNat_and]
  exact Nat.lt_of_le_of_lt Nat.and_le_right (by decide)

theorem tab_byteOf0 {α : Type} [OfNat α 0] (t : List α) (w : Word) :
    tab t (w &&& 0xff) = tab t (byteOf w 0) := by
  rw [← tab_byteOf]; simp

/-- `ByteSubTransform` acts on every byte. -/
theorem byteSub_eq (w : Word) (s : List Byte) :
    aesByteSubTransform w s =
      w32 (tab s (byteOf w 0)) (tab s (byteOf w 1)) (tab s (byteOf w 2)) (tab s (byteOf w 3)) := by
  unfold aesByteSubTransform w32
  rw [tab_byteOf0, ← tab_byteOf s w 1, ← tab_byteOf s w 2, ← tab_byteOf s w 3]

/-- One byte of each of four words. -/
theorem pick_eq (a b c d : Word) :
    (a &&& 0x000000ff) ||| (b &&& 0x0000ff00) ||| (c &&& 0x00ff0000) ||| (d &&& 0xff000000) =
      w32 (byteOf a 0) (byteOf b 1) (byteOf c 2) (byteOf d 3) := by
  apply BitVec.eq_of_getLsbD_eq; intro i hi
  rw [w32_getLsbD _ _ _ _ _ hi]
  simp only [byteOf_getLsbD, BitVec.getLsbD_or, BitVec.getLsbD_and]
  have m0 : ∀ i, i < 32 → (0x000000ff : Word).getLsbD i = decide (i < 8) := by decide
  have m1 : ∀ i, i < 32 → (0x0000ff00 : Word).getLsbD i = decide (8 ≤ i ∧ i < 16) := by decide
  have m2 : ∀ i, i < 32 → (0x00ff0000 : Word).getLsbD i = decide (16 ≤ i ∧ i < 24) := by decide
  have m3 : ∀ i, i < 32 → (0xff000000 : Word).getLsbD i = decide (24 ≤ i) := by decide
  rw [m0 i hi, m1 i hi, m2 i hi, m3 i hi]
  by_cases h1 : i < 8
  · simp [h1, show ¬ 8 ≤ i by omega, show ¬ 16 ≤ i by omega, show ¬ 24 ≤ i by omega]
  · by_cases h2 : i < 16
    · simp [h1, h2, show 8 ≤ i by omega, show ¬ 16 ≤ i by omega, show ¬ 24 ≤ i by omega,
        show i - 8 < 8 by omega, show 8 + (i - 8) = i by omega]
    · by_cases h3 : i < 24
      · simp [h1, h2, h3, show 16 ≤ i by omega, show ¬ 24 ≤ i by omega,
          show i - 16 < 8 by omega, show 16 + (i - 16) = i by omega]
      · simp [h1, h2, h3, show 24 ≤ i by omega, show i - 24 < 8 by omega,
          show 24 + (i - 24) = i by omega]

end Wizard

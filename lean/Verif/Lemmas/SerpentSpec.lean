import Verif.Lemmas.Serpent
/-! The published Serpent decryption inverts its encryption, and serpent.c computes both. -/
namespace Wizard
open Spec.Serpent

/-! ### The published cipher is invertible -/

theorem rotateRight_rotateLeft (x : BitVec 32) (n : Nat) (h : n < 32) :
    (x.rotateLeft n).rotateRight n = x := by
  apply BitVec.eq_of_getLsbD_eq
  intro j hj
  rw [BitVec.getLsbD_rotateRight_of_lt h, BitVec.getLsbD_rotateLeft_of_le h,
    BitVec.getLsbD_rotateLeft_of_le h]
  by_cases h1 : j < 32 - n
  · rw [decide_eq_true h1, cond_true, decide_eq_false (by omega : ¬ n + j < n), cond_false,
      decide_eq_true (by omega : n + j < 32), Bool.true_and, Nat.add_sub_cancel_left]
  · rw [decide_eq_false h1, cond_false, decide_eq_true (by omega : j - (32 - n) < n), cond_true,
      decide_eq_true hj, Bool.true_and]
    congr 1
    omega

theorem xor_cancel (x y : BitVec 32) : x ^^^ y ^^^ y = x := by
  rw [BitVec.xor_assoc, BitVec.xor_self, BitVec.xor_zero]

theorem xor_cancel' (x y z : BitVec 32) : x ^^^ y ^^^ z ^^^ y ^^^ z = x := by
  rw [BitVec.xor_assoc x y z, BitVec.xor_assoc _ y z, xor_cancel]

theorem ltInv_lt (q : Quad) : ltInv (lt q) = q := by
  simp only [ltInv, lt, rotateRight_rotateLeft _ 13 (by decide), rotateRight_rotateLeft _ 3 (by decide),
    rotateRight_rotateLeft _ 1 (by decide), rotateRight_rotateLeft _ 7 (by decide),
    rotateRight_rotateLeft _ 5 (by decide), rotateRight_rotateLeft _ 22 (by decide), xor_cancel']

theorem mix_mix (k q : Quad) : mix k (mix k q) = q := by
  simp only [mix, xor_cancel]

theorem nibble_lt (q : Quad) (j : Nat) : nibble q j < 16 := by
  unfold nibble
  cases q.x0.getLsbD j <;> cases q.x1.getLsbD j <;> cases q.x2.getLsbD j <;>
    cases q.x3.getLsbD j <;> decide

theorem testBit_nibble (q : Quad) (j : Nat) :
    (nibble q j).testBit 0 = q.x0.getLsbD j ∧ (nibble q j).testBit 1 = q.x1.getLsbD j ∧
    (nibble q j).testBit 2 = q.x2.getLsbD j ∧ (nibble q j).testBit 3 = q.x3.getLsbD j := by
  unfold nibble
  cases q.x0.getLsbD j <;> cases q.x1.getLsbD j <;> cases q.x2.getLsbD j <;>
    cases q.x3.getLsbD j <;> decide

theorem nibble_slice (f : Nat → Nat) (hf : ∀ x < 16, f x < 16) (q : Quad) (j : Nat) (hj : j < 32) :
    nibble (slice f q) j = f (nibble q j) := by
  have h := hf _ (nibble_lt q j)
  rw [nibble]
  simp only [slice, getLsbD_ofBits _ _ hj]
  revert h
  generalize f (nibble q j) = y
  revert y
  decide

theorem slice_slice (f g : Nat → Nat) (hf : ∀ x < 16, f x < 16) (hg : ∀ x < 16, g (f x) = x)
    (q : Quad) : slice g (slice f q) = q := by
  rw [slice]
  have e : ∀ j, j < 32 → g (nibble (slice f q) j) = nibble q j := fun j hj => by
    rw [nibble_slice f hf q j hj, hg _ (nibble_lt q j)]
  cases q with
  | mk x0 x1 x2 x3 =>
    rw [Quad.mk.injEq]
    refine ⟨?_, ?_, ?_, ?_⟩ <;> apply BitVec.eq_of_getLsbD_eq <;> intro j hj <;>
      rw [getLsbD_ofBits _ _ hj, e j hj]
    · exact (testBit_nibble _ j).1
    · exact (testBit_nibble _ j).2.1
    · exact (testBit_nibble _ j).2.2.1
    · exact (testBit_nibble _ j).2.2.2

theorem subInv_sub (n : Nat) (q : Quad) : subInv n (sub n q) = q := by
  rw [subInv, sub]
  apply slice_slice
  · match n with
    | 0 | 1 | 2 | 3 | 4 | 5 | 6 => decide
    | n + 7 => exact (by decide : ∀ x < 16, (S 7).getD x 0 < 16)
  · match n with
    | 0 | 1 | 2 | 3 | 4 | 5 | 6 => decide
    | n + 7 => exact (by decide : ∀ x < 16, (S 7).idxOf ((S 7).getD x 0) = x)

theorem roundsInv_rounds (K : Nat → Quad) (q : Quad) (n : Nat) :
    roundsInv K n (rounds K n q) = q := by
  induction n with
  | zero => rfl
  | succ n ih => rw [rounds, roundsInv, ltInv_lt, subInv_sub, mix_mix, ih]

theorem decrypt_encrypt (K : Nat → Quad) (q : Quad) : decrypt K (encrypt K q) = q := by
  rw [decrypt, encrypt, mix_mix, subInv_sub, mix_mix, roundsInv_rounds]

/-! ### Blocks as bytes -/

theorem serpentRead32_eq (b : List Byte) (i : Nat) : serpentRead32 b i = word b i := by
  unfold serpentRead32 word
  generalize b.getD (4 * i) 0 = b0
  generalize b.getD (4 * i + 1) 0 = b1
  generalize b.getD (4 * i + 2) 0 = b2
  generalize b.getD (4 * i + 3) 0 = b3
  apply BitVec.eq_of_getLsbD_eq
  intro j hj
  have f : ∀ (x : Byte) (m : Nat), 8 ≤ m → x.getLsbD m = false := fun x m h =>
    BitVec.getLsbD_of_ge x m h
  simp only [BitVec.getLsbD_or, BitVec.getLsbD_shiftLeft, BitVec.getLsbD_setWidth,
    BitVec.getLsbD_append, hj, decide_true, Bool.true_and]
  by_cases h1 : j < 8
  · simp [h1, show j < 16 by omega, show j < 24 by omega]
  · by_cases h2 : j < 16
    · simp [h1, h2, show j < 24 by omega, f b0 j (by omega), show j - 8 < 32 by omega, show j - 8 < 8 by omega]
    · by_cases h3 : j < 24
      · simp [h1, h2, h3, f b0 j (by omega), f b1 (j - 8) (by omega), show j - 16 < 32 by omega,
          show j - 16 < 8 by omega,
          show ¬ j - 8 < 8 by omega, show j - 8 - 8 = j - 16 by omega]
      · simp [h1, h2, h3, f b0 j (by omega), f b1 (j - 8) (by omega), f b2 (j - 16) (by omega),
          show j - 24 < 32 by omega, show ¬ j - 8 < 8 by omega,
          show j - 8 - 8 - 8 = j - 24 by omega, show ¬ j - 8 - 8 < 8 by omega]

theorem serpentWrite32_eq (w : Word) : serpentWrite32 w = wordBytes w := by
  simp only [serpentWrite32, wordBytes, List.cons.injEq, and_true]
  refine ⟨?_, ?_, ?_, ?_⟩ <;> apply BitVec.eq_of_getLsbD_eq <;> intro j hj <;>
    simp [hj]

theorem wordBytes_word (b : List Byte) (i : Nat) :
    wordBytes (word b i) = [b.getD (4 * i) 0, b.getD (4 * i + 1) 0, b.getD (4 * i + 2) 0,
      b.getD (4 * i + 3) 0] := by
  unfold word wordBytes
  generalize b.getD (4 * i) 0 = b0
  generalize b.getD (4 * i + 1) 0 = b1
  generalize b.getD (4 * i + 2) 0 = b2
  generalize b.getD (4 * i + 3) 0 = b3
  simp only [List.cons.injEq, and_true]
  refine ⟨?_, ?_, ?_, ?_⟩ <;> apply BitVec.eq_of_getLsbD_eq <;> intro j hj <;>
    simp only [BitVec.getLsbD_extractLsb', BitVec.getLsbD_append, hj, decide_true, Bool.true_and]
  · rw [if_pos (by omega), Nat.zero_add]
  · rw [if_neg (by omega), if_pos (by omega), Nat.add_sub_cancel_left]
  · rw [if_neg (by omega), if_neg (by omega), if_pos (by omega)]
    congr 1
    omega
  · rw [if_neg (by omega), if_neg (by omega), if_neg (by omega)]
    congr 1
    omega

theorem word_wordBytes (w : Word) : word (wordBytes w) 0 = w := by
  apply BitVec.eq_of_getLsbD_eq
  intro j hj
  simp only [word, wordBytes, List.getD_eq_getElem?_getD, BitVec.getLsbD_append]
  simp only [List.getElem?_cons_zero, List.getElem?_cons_succ, Option.getD_some,
    BitVec.getLsbD_extractLsb']
  by_cases h1 : j < 8
  · simp [h1]
  · by_cases h2 : j < 16
    · simp [h1, show j - 8 < 8 by omega, show 8 + (j - 8) = j by omega]
    · by_cases h3 : j < 24
      · simp [h1, show ¬ j - 8 < 8 by omega, show j - 8 - 8 < 8 by omega,
          show 16 + (j - 8 - 8) = j by omega]
      · simp [h1, show ¬ j - 8 < 8 by omega, show ¬ j - 8 - 8 < 8 by omega,
          show j - 8 - 8 - 8 < 8 by omega, show 24 + (j - 8 - 8 - 8) = j by omega]

theorem ofBytes_toBytes (q : Quad) : ofBytes (toBytes q) = q := by
  cases q with
  | mk x0 x1 x2 x3 =>
    simp only [ofBytes, Quad.mk.injEq]
    exact ⟨word_wordBytes x0, word_wordBytes x1, word_wordBytes x2, word_wordBytes x3⟩

theorem toBytes_ofBytes (b : List Byte) (h : b.length = 16) : toBytes (ofBytes b) = b := by
  simp only [toBytes, ofBytes, wordBytes_word]
  match b, h with
  | [_, _, _, _, _, _, _, _, _, _, _, _, _, _, _, _], _ => rfl

theorem ofBytes_take (b : List Byte) : ofBytes (b.take 16) = ofBytes b := by
  have e : ∀ i, i < 16 → (b.take 16).getD i 0 = b.getD i 0 := fun i hi => by
    rw [List.getD_eq_getElem?_getD, List.getD_eq_getElem?_getD, List.getElem?_take_of_lt hi]
  simp only [ofBytes, word]
  simp only [e _ (by decide : 4 * 0 < 16), e _ (by decide : 4 * 0 + 1 < 16), e _ (by decide : 4 * 0 + 2 < 16),
    e _ (by decide : 4 * 0 + 3 < 16), e _ (by decide : 4 * 1 < 16), e _ (by decide : 4 * 1 + 1 < 16),
    e _ (by decide : 4 * 1 + 2 < 16), e _ (by decide : 4 * 1 + 3 < 16), e _ (by decide : 4 * 2 < 16),
    e _ (by decide : 4 * 2 + 1 < 16), e _ (by decide : 4 * 2 + 2 < 16), e _ (by decide : 4 * 2 + 3 < 16),
    e _ (by decide : 4 * 3 < 16), e _ (by decide : 4 * 3 + 1 < 16), e _ (by decide : 4 * 3 + 2 < 16),
    e _ (by decide : 4 * 3 + 3 < 16)]

/-! ### The block functions -/

def encTrace : Nat → List AOp
  | 0 => [.mix 0]
  | n + 1 => encTrace n ++ [.sub (n % 8), .ltMix (n + 1)]

def decTrace : Nat → List AOp
  | 0 => [.mix 0]
  | n + 1 => .mixLtInv (n + 1) :: .subInv (n % 8) :: decTrace n

theorem encTrace_fold (mem : List Word) (q : Quad) (n : Nat) :
    (encTrace n).foldl AOp.apply (mem, q) =
      (mem, mix (quadAt mem (4 * n)) (rounds (fun i => quadAt mem (4 * i)) n q)) := by
  induction n with
  | zero => rfl
  | succ n ih => rw [encTrace, List.foldl_append, ih]; rfl

theorem decTrace_fold (mem : List Word) (n : Nat) : ∀ (q : Quad),
    (decTrace n).foldl AOp.apply (mem, q) =
      (mem, roundsInv (fun i => quadAt mem (4 * i)) n (mix (quadAt mem (4 * n)) q)) := by
  induction n with
  | zero => intro q; rfl
  | succ n ih => intro q; exact ih _

theorem encipher_trace : absOps (.alpha, .beta, .gamma, .delta) 0 encipherSerpentOps =
    some (encTrace 31 ++ [.sub 7, .mix 32], (.alpha, .beta, .gamma, .delta), 0) := by
  decide +kernel

theorem decipher_trace : absOps (.alpha, .beta, .gamma, .delta) 0 decipherSerpentOps =
    some ([.mix 32, .subInv 7] ++ decTrace 31, (.gamma, .delta, .beta, .epsilon), 0) := by
  decide +kernel

theorem encipherSerpentBlock_eq (k : List Word) (b : List Byte) (hk : k.length = 132) :
    encipherSerpentBlock k b =
      .ok (toBytes (encrypt (fun i => quadAt k (4 * i)) (ofBytes b))) := by
  obtain ⟨s, e, -, -, q⟩ := absOps_sound _ _ _ ⟨k, 0, 0, ⟨serpentRead32 b 0, serpentRead32 b 1,
    serpentRead32 b 2, serpentRead32 b 3, 0⟩⟩ _ _ encipher_trace hk
  rw [encipherSerpentBlock, e, Res.ok_bind]
  rw [List.foldl_append, encTrace_fold] at q
  have q2 := congrArg Prod.snd q
  simp only [List.foldl_cons, List.foldl_nil, AOp.apply] at q2
  have q3 : s.regs.view (.alpha, .beta, .gamma, .delta) =
      encrypt (fun i => quadAt k (4 * i)) (ofBytes b) := by
    rw [q2]
    simp only [SerpentRegs.view, SerpentRegs.get, serpentRead32_eq]
    rfl
  rw [← q3]
  simp only [serpentWrite32_eq]
  rfl

theorem decipherSerpentBlock_eq (k : List Word) (b : List Byte) (hk : k.length = 132) :
    decipherSerpentBlock k b =
      .ok (toBytes (decrypt (fun i => quadAt k (4 * i)) (ofBytes b))) := by
  obtain ⟨s, e, -, -, q⟩ := absOps_sound _ _ _ ⟨k, 0, 0, ⟨serpentRead32 b 0, serpentRead32 b 1,
    serpentRead32 b 2, serpentRead32 b 3, 0⟩⟩ _ _ decipher_trace hk
  rw [decipherSerpentBlock, e, Res.ok_bind]
  rw [List.foldl_append] at q
  simp only [List.foldl_cons, List.foldl_nil, AOp.apply] at q
  rw [decTrace_fold] at q
  have q2 := congrArg Prod.snd q
  simp only [] at q2
  have q3 : s.regs.view (.gamma, .delta, .beta, .epsilon) =
      decrypt (fun i => quadAt k (4 * i)) (ofBytes b) := by
    rw [q2]
    simp only [SerpentRegs.view, SerpentRegs.get, serpentRead32_eq]
    rfl
  rw [← q3]
  simp only [serpentWrite32_eq]
  rfl

end Wizard

import Verif.Lemmas.Words
import Verif.Spec.AES
/-! The AES code computes the transformations of FIPS 197. -/
namespace Wizard
open Spec.AES

/-! ### Tables -/

theorem sbox_table : ∀ x : Byte, tab aesSBox x = sbox x := by decide +kernel

theorem sbox_inverse : ∀ x : Byte, tab aesInverseSBox (tab aesSBox x) = x := by decide +kernel

theorem invSbox_table : ∀ x : Byte, tab aesInverseSBox x = invSbox x := by decide +kernel

theorem D_table' : ∀ x : Byte, tab aesD x = w32 (gmul 2 (tab aesSBox x)) (tab aesSBox x)
    (tab aesSBox x) (gmul 3 (tab aesSBox x)) := by decide +kernel

theorem D_table (x : Byte) :
    tab aesD x = w32 (gmul 2 (sbox x)) (sbox x) (sbox x) (gmul 3 (sbox x)) := by
  rw [D_table', sbox_table]

theorem I_table' : ∀ x : Byte, tab aesI x = w32 (gmul 0x0e (tab aesInverseSBox x))
    (gmul 0x09 (tab aesInverseSBox x)) (gmul 0x0d (tab aesInverseSBox x))
    (gmul 0x0b (tab aesInverseSBox x)) := by decide +kernel

theorem I_table (x : Byte) : tab aesI x = w32 (gmul 0x0e (invSbox x)) (gmul 0x09 (invSbox x))
    (gmul 0x0d (invSbox x)) (gmul 0x0b (invSbox x)) := by
  rw [I_table', invSbox_table]

theorem mul_e : ∀ x : Byte, aesByteMultiply 0xe x = (gmul 0x0e x).setWidth 32 := by decide +kernel
theorem mul_b : ∀ x : Byte, aesByteMultiply 0xb x = (gmul 0x0b x).setWidth 32 := by decide +kernel
theorem mul_d : ∀ x : Byte, aesByteMultiply 0xd x = (gmul 0x0d x).setWidth 32 := by decide +kernel
theorem mul_9 : ∀ x : Byte, aesByteMultiply 0x9 x = (gmul 0x09 x).setWidth 32 := by decide +kernel

theorem xtime_eq : ∀ x : Byte, aesXTime x = (xtime x).setWidth 32 := by decide +kernel

theorem invSbox_sbox (x : Byte) : invSbox (sbox x) = x := by
  rw [← invSbox_table, ← sbox_table, sbox_inverse]

theorem inverse_sbox : ∀ x : Byte, tab aesSBox (tab aesInverseSBox x) = x := by decide +kernel

theorem sbox_invSbox (x : Byte) : sbox (invSbox x) = x := by
  rw [← invSbox_table, ← sbox_table, inverse_sbox]

/-- `inverse` is the multiplicative inverse. -/
theorem gmul_inverse : ∀ x : Byte, x ≠ 0 → gmul x (inverse x) = 1 := by decide +kernel

/-! ### The field -/

theorem gmul_xor (a b c : Byte) : gmul a (b ^^^ c) = gmul a b ^^^ gmul a c := by
  have h : ∀ i x : Byte, ∀ p q : Bool, (if (p ^^ q) = true then x else (0 : Byte)) =
      (if p = true then x else 0) ^^^ (if q = true then x else 0) := by
    intro i x p q; cases p <;> cases q <;> simp
  have hr : List.range 8 = [0, 1, 2, 3, 4, 5, 6, 7] := rfl
  simp only [gmul, hr, List.foldl_cons, List.foldl_nil, BitVec.getLsbD_xor, h 0]
  generalize hx0 : (if b.getLsbD 0 = true then xpow a 0 else 0) = x0
  generalize hx1 : (if b.getLsbD 1 = true then xpow a 1 else 0) = x1
  generalize hx2 : (if b.getLsbD 2 = true then xpow a 2 else 0) = x2
  generalize hx3 : (if b.getLsbD 3 = true then xpow a 3 else 0) = x3
  generalize hx4 : (if b.getLsbD 4 = true then xpow a 4 else 0) = x4
  generalize hx5 : (if b.getLsbD 5 = true then xpow a 5 else 0) = x5
  generalize hx6 : (if b.getLsbD 6 = true then xpow a 6 else 0) = x6
  generalize hx7 : (if b.getLsbD 7 = true then xpow a 7 else 0) = x7
  generalize hy0 : (if c.getLsbD 0 = true then xpow a 0 else 0) = y0
  generalize hy1 : (if c.getLsbD 1 = true then xpow a 1 else 0) = y1
  generalize hy2 : (if c.getLsbD 2 = true then xpow a 2 else 0) = y2
  generalize hy3 : (if c.getLsbD 3 = true then xpow a 3 else 0) = y3
  generalize hy4 : (if c.getLsbD 4 = true then xpow a 4 else 0) = y4
  generalize hy5 : (if c.getLsbD 5 = true then xpow a 5 else 0) = y5
  generalize hy6 : (if c.getLsbD 6 = true then xpow a 6 else 0) = y6
  generalize hy7 : (if c.getLsbD 7 = true then xpow a 7 else 0) = y7
  rw [show (0 : Byte) = 0 ^^^ 0 by rfl]
  simp only [show (0 : Byte) ^^^ 0 = 0 by rfl]
  have hz : ∀ z : Byte, 0 ^^^ z = z := fun z => by simp
  simp only [hz]
  ac_rfl

theorem imc0 : ∀ x : Byte, gmul 0x0e (gmul 2 x) ^^^ gmul 0x0b x ^^^ gmul 0x0d x ^^^
    gmul 0x09 (gmul 3 x) = x := by decide +kernel
theorem imc1 : ∀ x : Byte, gmul 0x0e (gmul 3 x) ^^^ gmul 0x0b (gmul 2 x) ^^^ gmul 0x0d x ^^^
    gmul 0x09 x = 0 := by decide +kernel
theorem imc2 : ∀ x : Byte, gmul 0x0e x ^^^ gmul 0x0b (gmul 3 x) ^^^ gmul 0x0d (gmul 2 x) ^^^
    gmul 0x09 x = 0 := by decide +kernel
theorem imc3 : ∀ x : Byte, gmul 0x0e x ^^^ gmul 0x0b x ^^^ gmul 0x0d (gmul 3 x) ^^^
    gmul 0x09 (gmul 2 x) = 0 := by decide +kernel

theorem mci0 : ∀ x : Byte, gmul 2 (gmul 0x0e x) ^^^ gmul 3 (gmul 0x09 x) ^^^ gmul 0x0d x ^^^
    gmul 0x0b x = x := by decide +kernel
theorem mci1 : ∀ x : Byte, gmul 2 (gmul 0x0b x) ^^^ gmul 3 (gmul 0x0e x) ^^^ gmul 0x09 x ^^^
    gmul 0x0d x = 0 := by decide +kernel
theorem mci2 : ∀ x : Byte, gmul 2 (gmul 0x0d x) ^^^ gmul 3 (gmul 0x0b x) ^^^ gmul 0x0e x ^^^
    gmul 0x09 x = 0 := by decide +kernel
theorem mci3 : ∀ x : Byte, gmul 2 (gmul 0x09 x) ^^^ gmul 3 (gmul 0x0d x) ^^^ gmul 0x0b x ^^^
    gmul 0x0e x = 0 := by decide +kernel

theorem fin4_add (r : Fin 4) : r + 1 + 1 = r + 2 ∧ r + 1 + 2 = r + 3 ∧ r + 1 + 3 = r ∧
    r + 2 + 1 = r + 3 ∧ r + 2 + 2 = r ∧ r + 2 + 3 = r + 1 ∧
    r + 3 + 1 = r ∧ r + 3 + 2 = r + 1 ∧ r + 3 + 3 = r + 2 := by
  revert r; decide

theorem xor4 {x a b c d : Byte} (h0 : a = x) (h1 : b = 0) (h2 : c = 0) (h3 : d = 0) :
    a ^^^ b ^^^ c ^^^ d = x := by
  subst h0 h1 h2 h3; simp

theorem invMix_mix (s : State) : invMixColumns (mixColumns s) = s := by
  funext r c
  obtain ⟨e1, e2, e3, e4, e5, e6, e7, e8, e9⟩ := fin4_add r
  simp only [invMixColumns, mixColumns, e1, e2, e3, e4, e5, e6, e7, e8, e9, gmul_xor]
  refine Eq.trans ?_ (xor4 (imc0 (s r c)) (imc1 (s (r + 1) c)) (imc2 (s (r + 2) c))
    (imc3 (s (r + 3) c)))
  ac_rfl

theorem mix_invMix (s : State) : mixColumns (invMixColumns s) = s := by
  funext r c
  obtain ⟨e1, e2, e3, e4, e5, e6, e7, e8, e9⟩ := fin4_add r
  simp only [invMixColumns, mixColumns, e1, e2, e3, e4, e5, e6, e7, e8, e9, gmul_xor]
  refine Eq.trans ?_ (xor4 (mci0 (s r c)) (mci1 (s (r + 1) c)) (mci2 (s (r + 2) c))
    (mci3 (s (r + 3) c)))
  ac_rfl

theorem invMix_xor (s t : State) :
    invMixColumns (fun r c => s r c ^^^ t r c) =
      fun r c => invMixColumns s r c ^^^ invMixColumns t r c := by
  funext r c
  simp only [invMixColumns, gmul_xor]
  ac_rfl

theorem invShift_shift (s : State) : invShiftRows (shiftRows s) = s := by
  funext r c
  simp only [invShiftRows, shiftRows]
  congr 1; revert r c; decide

theorem shift_invShift (s : State) : shiftRows (invShiftRows s) = s := by
  funext r c
  simp only [invShiftRows, shiftRows]
  congr 1; revert r c; decide

theorem invSub_sub (s : State) : invSubBytes (subBytes s) = s := by
  funext r c; exact invSbox_sbox _

theorem sub_invSub (s : State) : subBytes (invSubBytes s) = s := by
  funext r c; exact sbox_invSbox _

theorem addRoundKey_twice (w : Schedule) (n : Nat) (s : State) :
    addRoundKey w n (addRoundKey w n s) = s := by
  funext r c; simp [addRoundKey, BitVec.xor_assoc]

theorem rounds_shift (w : Schedule) (s : State) (n : Nat) :
    invRounds w n (shiftRows (subBytes (rounds w s n))) = shiftRows (subBytes s) := by
  induction n with
  | zero => rfl
  | succ n ih =>
    rw [invRounds, invShift_shift, invSub_sub]
    show invRounds w n (invMixColumns (addRoundKey w (n + 1) (addRoundKey w (n + 1) _))) = _
    rw [addRoundKey_twice, invMix_mix, ih]

/-- FIPS 197's inverse cipher inverts its cipher. -/
theorem invCipher_cipher (nr : Nat) (w : Schedule) (s : State) :
    invCipher nr w (cipher nr w s) = s := by
  unfold invCipher cipher
  rw [addRoundKey_twice, rounds_shift, invShift_shift, invSub_sub, addRoundKey_twice]

theorem rounds_unshift (w : Schedule) (s : State) (n : Nat) :
    rounds w (invSubBytes (invShiftRows (invRounds w n s))) n = invSubBytes (invShiftRows s) := by
  induction n generalizing s with
  | zero => rfl
  | succ n ih =>
    rw [rounds, invRounds, ih, sub_invSub, shift_invShift, mix_invMix, addRoundKey_twice]

/-- And the cipher inverts the inverse cipher. -/
theorem cipher_invCipher (nr : Nat) (w : Schedule) (s : State) :
    cipher nr w (invCipher nr w s) = s := by
  unfold invCipher cipher
  rw [addRoundKey_twice, rounds_unshift, sub_invSub, shift_invShift, addRoundKey_twice]

/-! ### Packing -/

/-- The four words of a state. -/
def pack (s : State) : Fin 4 → Word := fun c => w32 (s 0 c) (s 1 c) (s 2 c) (s 3 c)

/-- The schedule of a word array. -/
def unpackW (k : Nat → Word) : Schedule := fun i r => byteOf (k i) r

theorem unpackW_w32 (k : Nat → Word) (i : Nat) :
    k i = w32 (unpackW k i 0) (unpackW k i 1) (unpackW k i 2) (unpackW k i 3) :=
  (w32_byteOf _).symm

theorem encMap (t : Fin 4 → Word) : ∀ r j : Fin 4, aesAt aesEncipherMap t r.val j = t (j + r) := by
  have : ∀ r j : Fin 4, (aesEncipherMap.getD r.val []).getD j.val 0 = j + r := by decide
  intro r j; simp only [aesAt, this]

theorem decMap (t : Fin 4 → Word) : ∀ r j : Fin 4, aesAt aesDecipherMap t r.val j = t (j - r) := by
  have : ∀ r j : Fin 4, (aesDecipherMap.getD r.val []).getD j.val 0 = j - r := by decide
  intro r j; simp only [aesAt, this]

theorem encMap1 (t : Fin 4 → Word) (j : Fin 4) : aesAt aesEncipherMap t 1 j = t (j + 1) :=
  encMap t 1 j

theorem encMap2 (t : Fin 4 → Word) (j : Fin 4) : aesAt aesEncipherMap t 2 j = t (j + 2) :=
  encMap t 2 j

theorem encMap3 (t : Fin 4 → Word) (j : Fin 4) : aesAt aesEncipherMap t 3 j = t (j + 3) :=
  encMap t 3 j

theorem decMap1 (t : Fin 4 → Word) (j : Fin 4) : aesAt aesDecipherMap t 1 j = t (j - 1) :=
  decMap t 1 j

theorem decMap2 (t : Fin 4 → Word) (j : Fin 4) : aesAt aesDecipherMap t 2 j = t (j - 2) :=
  decMap t 2 j

theorem decMap3 (t : Fin 4 → Word) (j : Fin 4) : aesAt aesDecipherMap t 3 j = t (j - 3) :=
  decMap t 3 j

theorem byteOf_pack (s : State) (c r : Fin 4) : byteOf (pack s c) r.val = s r c := by
  unfold pack
  match r with
  | 0 => exact byteOf_w32_0 ..
  | 1 => exact byteOf_w32_1 ..
  | 2 => exact byteOf_w32_2 ..
  | 3 => exact byteOf_w32_3 ..

theorem mix_eq (map : List (List (Fin 4))) (T : List Word) (t : Fin 4 → Word) (j : Fin 4) :
    aesMix map T t j = tab T (byteOf (t j) 0) ^^^
      aesRotateLeft (tab T (byteOf (aesAt map t 1 j) 1) ^^^
        aesRotateLeft (tab T (byteOf (aesAt map t 2 j) 2) ^^^
          aesRotateLeft (tab T (byteOf (aesAt map t 3 j) 3)))) := by
  rw [← tab_byteOf T _ 1, ← tab_byteOf T _ 2, ← tab_byteOf T _ 3, ← tab_byteOf0]
  rfl

theorem encMix (s : State) :
    aesMix aesEncipherMap aesD (pack s) = pack (mixColumns (shiftRows (subBytes s))) := by
  funext j
  have b0 : byteOf (pack s j) 0 = s 0 j := byteOf_pack s j 0
  have b1 : byteOf (pack s (j + 1)) 1 = s 1 (j + 1) := byteOf_pack s (j + 1) 1
  have b2 : byteOf (pack s (j + 2)) 2 = s 2 (j + 2) := byteOf_pack s (j + 2) 2
  have b3 : byteOf (pack s (j + 3)) 3 = s 3 (j + 3) := byteOf_pack s (j + 3) 3
  rw [mix_eq, encMap1, encMap2, encMap3]
  rw [b0, b1, b2, b3]
  simp only [D_table, rotl_w32, w32_xor, pack, mixColumns, shiftRows, subBytes]
  have e0 : j + 0 = j := (by decide : ∀ j : Fin 4, j + 0 = j) j
  simp only [show (0 : Fin 4) + 1 = 1 by rfl, show (0 : Fin 4) + 2 = 2 by rfl,
    show (0 : Fin 4) + 3 = 3 by rfl, show (1 : Fin 4) + 1 = 2 by rfl, show (1 : Fin 4) + 2 = 3 by rfl,
    show (1 : Fin 4) + 3 = 0 by rfl, show (2 : Fin 4) + 1 = 3 by rfl, show (2 : Fin 4) + 2 = 0 by rfl,
    show (2 : Fin 4) + 3 = 1 by rfl, show (3 : Fin 4) + 1 = 0 by rfl, show (3 : Fin 4) + 2 = 1 by rfl,
    show (3 : Fin 4) + 3 = 2 by rfl, e0]
  congr 1 <;> ac_rfl

theorem decMix (s : State) :
    aesMix aesDecipherMap aesI (pack s) = pack (invMixColumns (invSubBytes (invShiftRows s))) := by
  funext j
  have b0 : byteOf (pack s j) 0 = s 0 j := byteOf_pack s j 0
  have b1 : byteOf (pack s (j - 1)) 1 = s 1 (j - 1) := byteOf_pack s (j - 1) 1
  have b2 : byteOf (pack s (j - 2)) 2 = s 2 (j - 2) := byteOf_pack s (j - 2) 2
  have b3 : byteOf (pack s (j - 3)) 3 = s 3 (j - 3) := byteOf_pack s (j - 3) 3
  rw [mix_eq, decMap1, decMap2, decMap3]
  rw [b0, b1, b2, b3]
  simp only [I_table, rotl_w32, w32_xor, pack, invMixColumns, invShiftRows, invSubBytes]
  have e0 : j - 0 = j := (by decide : ∀ j : Fin 4, j - 0 = j) j
  simp only [show (0 : Fin 4) + 1 = 1 by rfl, show (0 : Fin 4) + 2 = 2 by rfl,
    show (0 : Fin 4) + 3 = 3 by rfl, show (1 : Fin 4) + 1 = 2 by rfl, show (1 : Fin 4) + 2 = 3 by rfl,
    show (1 : Fin 4) + 3 = 0 by rfl, show (2 : Fin 4) + 1 = 3 by rfl, show (2 : Fin 4) + 2 = 0 by rfl,
    show (2 : Fin 4) + 3 = 1 by rfl, show (3 : Fin 4) + 1 = 0 by rfl, show (3 : Fin 4) + 2 = 1 by rfl,
    show (3 : Fin 4) + 3 = 2 by rfl, e0]
  congr 1 <;> ac_rfl

theorem encLast (s : State) :
    aesLast aesEncipherMap aesSBox (pack s) = pack (shiftRows (subBytes s)) := by
  funext j
  have b0 : byteOf (pack s j) 0 = s 0 j := byteOf_pack s j 0
  have b1 : byteOf (pack s (j + 1)) 1 = s 1 (j + 1) := byteOf_pack s (j + 1) 1
  have b2 : byteOf (pack s (j + 2)) 2 = s 2 (j + 2) := byteOf_pack s (j + 2) 2
  have b3 : byteOf (pack s (j + 3)) 3 = s 3 (j + 3) := byteOf_pack s (j + 3) 3
  unfold aesLast
  rw [byteSub_eq, pick_eq, encMap1, encMap2, encMap3]
  rw [b0, b1, b2, b3]
  have e0 : j + 0 = j := (by decide : ∀ j : Fin 4, j + 0 = j) j
  simp only [byteOf_w32_0, byteOf_w32_1, byteOf_w32_2, byteOf_w32_3, sbox_table, pack, shiftRows,
    subBytes, e0]

theorem decLast (s : State) :
    aesLast aesDecipherMap aesInverseSBox (pack s) = pack (invSubBytes (invShiftRows s)) := by
  funext j
  have b0 : byteOf (pack s j) 0 = s 0 j := byteOf_pack s j 0
  have b1 : byteOf (pack s (j - 1)) 1 = s 1 (j - 1) := byteOf_pack s (j - 1) 1
  have b2 : byteOf (pack s (j - 2)) 2 = s 2 (j - 2) := byteOf_pack s (j - 2) 2
  have b3 : byteOf (pack s (j - 3)) 3 = s 3 (j - 3) := byteOf_pack s (j - 3) 3
  unfold aesLast
  rw [byteSub_eq, pick_eq, decMap1, decMap2, decMap3]
  rw [b0, b1, b2, b3]
  have e0 : j - 0 = j := (by decide : ∀ j : Fin 4, j - 0 = j) j
  simp only [byteOf_w32_0, byteOf_w32_1, byteOf_w32_2, byteOf_w32_3, invSbox_table, pack,
    invShiftRows, invSubBytes, e0]

theorem addKey_pack (s : State) (k : Nat → Word) (n : Nat) :
    aesAddRoundKey (pack s) k (4 * n) = pack (addRoundKey (unpackW k) n s) := by
  funext j
  unfold aesAddRoundKey
  rw [unpackW_w32 k]
  simp only [pack, w32_xor, addRoundKey]
  congr 1 <;> exact BitVec.xor_comm _ _

theorem load_eq (p : List Byte) (i : Nat) : aesLoad p i =
    w32 (p.getD (4 * i) 0) (p.getD (4 * i + 1) 0) (p.getD (4 * i + 2) 0) (p.getD (4 * i + 3) 0) := rfl

theorem load_pack (p : List Byte) (j : Fin 4) : aesLoad p j = pack (toState p) j := by
  rw [load_eq]
  simp only [pack, toState]
  congr 1
  · exact congrArg (p.getD · 0) (Nat.zero_add _).symm
  · exact congrArg (p.getD · 0) (Nat.add_comm _ 1)
  · exact congrArg (p.getD · 0) (Nat.add_comm _ 2)
  · exact congrArg (p.getD · 0) (Nat.add_comm _ 3)

theorem initKey_pack (p : List Byte) (k : Nat → Word) (n : Nat) :
    aesInitializeRoundKey p k (4 * n) = pack (addRoundKey (unpackW k) n (toState p)) := by
  rw [← addKey_pack]
  funext j
  unfold aesInitializeRoundKey aesAddRoundKey
  rw [load_pack]

theorem finKey_pack (s : State) (k : Nat → Word) (n : Nat) :
    aesFinalizeRoundKey (pack s) k (4 * n) = ofState (addRoundKey (unpackW k) n s) := by
  have h : ∀ i j : Fin 4, ((((pack s i ^^^ k (4 * n + i)) >>> (8 * j.val : Nat)) &&& 0xff).setWidth 8 :
      Byte) = addRoundKey (unpackW k) n s j i := by
    intro i j
    show byteOf _ _ = _
    rw [byteOf_xor, byteOf_pack]
    rfl
  simp only [aesFinalizeRoundKey, List.flatMap_cons, List.flatMap_nil, List.map_cons, List.map_nil,
    ofState]
  simp only [← h]
  rfl

/-! ### The block functions -/

theorem encRounds_eq (k : Nat → Word) (m : Nat) (n : Nat) (s0 : State) :
    aesEncipherRounds k n (m + 1) (pack (rounds (unpackW k) s0 m)) =
      pack (rounds (unpackW k) s0 (m + n)) := by
  induction n generalizing m with
  | zero => rfl
  | succ n ih =>
    rw [aesEncipherRounds, encMix, addKey_pack]
    have := ih (m + 1)
    rw [rounds] at this
    rw [this]
    congr 2; omega

theorem encipher_eq (a : AESInfo) (p : List Byte) :
    encipherAESBlock a p = ofState (cipher a.rounds (unpackW a.encipherKey) (toState p)) := by
  unfold encipherAESBlock cipher
  simp only []
  rw [show (0 : Nat) = 4 * 0 from rfl, initKey_pack]
  have := encRounds_eq a.encipherKey 0 (a.rounds - 1) (addRoundKey (unpackW a.encipherKey) 0 (toState p))
  simp only [rounds, Nat.zero_add] at this
  rw [this, encLast, finKey_pack]

theorem decRounds_eq (k : Nat → Word) (w : Schedule) (n : Nat)
    (hw : ∀ i, 1 ≤ i → i ≤ n → ∀ r c : Fin 4, unpackW k (4 * i + c) r =
      invMixColumns (fun r c => w (4 * i + c) r) r c) (s : State) :
    aesDecipherRounds k n (pack s) = pack (invRounds w n s) := by
  induction n generalizing s with
  | zero => rfl
  | succ n ih =>
    rw [aesDecipherRounds, decMix, addKey_pack]
    have : addRoundKey (unpackW k) (n + 1) (invMixColumns (invSubBytes (invShiftRows s))) =
        invMixColumns (addRoundKey w (n + 1) (invSubBytes (invShiftRows s))) := by
      have hx := invMix_xor (invSubBytes (invShiftRows s)) (fun r c => w (4 * (n + 1) + c) r)
      unfold addRoundKey
      rw [hx]
      funext r c
      rw [hw (n + 1) (by omega) (by omega)]
    rw [this, ih (fun i h1 h2 => hw i h1 (by omega)), invRounds]

theorem decipher_eq (a : AESInfo) (w : Schedule) (c : List Byte)
    (h0 : ∀ r c : Fin 4, unpackW a.decipherKey c r = w c r)
    (hn : ∀ r c : Fin 4, unpackW a.decipherKey (4 * a.rounds + c) r = w (4 * a.rounds + c) r)
    (hw : ∀ i, 1 ≤ i → i ≤ a.rounds - 1 → ∀ r c : Fin 4, unpackW a.decipherKey (4 * i + c) r =
      invMixColumns (fun r c => w (4 * i + c) r) r c) :
    decipherAESBlock a c = ofState (invCipher a.rounds w (toState c)) := by
  unfold decipherAESBlock invCipher
  simp only []
  rw [initKey_pack]
  have e1 : addRoundKey (unpackW a.decipherKey) a.rounds (toState c) =
      addRoundKey w a.rounds (toState c) := by
    funext r c; simp only [addRoundKey, hn]
  rw [e1, decRounds_eq _ w _ hw, decLast, show (0 : Nat) = 4 * 0 from rfl, finKey_pack]
  congr 1
  funext r c
  simp only [addRoundKey]
  congr 1
  have := h0 r c
  simpa using this

theorem toState_ofState (s : State) : toState (ofState s) = s := by
  funext r c
  match r, c with
  | 0, 0 => rfl | 0, 1 => rfl | 0, 2 => rfl | 0, 3 => rfl
  | 1, 0 => rfl | 1, 1 => rfl | 1, 2 => rfl | 1, 3 => rfl
  | 2, 0 => rfl | 2, 1 => rfl | 2, 2 => rfl | 2, 3 => rfl
  | 3, 0 => rfl | 3, 1 => rfl | 3, 2 => rfl | 3, 3 => rfl

theorem ofState_toState (b : List Byte) (h : b.length = 16) : ofState (toState b) = b := by
  match b, h with
  | [b0, b1, b2, b3, b4, b5, b6, b7, b8, b9, b10, b11, b12, b13, b14, b15], _ => rfl

/-! ### The key schedule -/

theorem setWidth_w32 (b : Byte) : (b.setWidth 32 : Word) = w32 b 0 0 0 := by
  simp [w32]

theorem byteOf_sub (w : Word) (t : List Byte) (r : Fin 4) :
    byteOf (aesByteSubTransform w t) r.val = tab t (byteOf w r.val) := by
  rw [byteSub_eq]
  match r with
  | 0 => exact byteOf_w32_0 ..
  | 1 => exact byteOf_w32_1 ..
  | 2 => exact byteOf_w32_2 ..
  | 3 => exact byteOf_w32_3 ..

theorem byteOf_rotr (w : Word) (r : Fin 4) :
    byteOf (aesRotateRight w) r.val = byteOf w (r + 1).val := by
  have h : aesRotateRight w = w32 (byteOf w 1) (byteOf w 2) (byteOf w 3) (byteOf w 0) := by
    rw [← rotr_w32, w32_byteOf]
  rw [h]
  match r with
  | 0 => exact byteOf_w32_0 ..
  | 1 => exact byteOf_w32_1 ..
  | 2 => exact byteOf_w32_2 ..
  | 3 => exact byteOf_w32_3 ..

theorem byteOf_setWidth (b : Byte) (r : Fin 4) :
    byteOf (b.setWidth 32) r.val = if r = 0 then b else 0 := by
  rw [setWidth_w32]
  match r with
  | 0 => exact byteOf_w32_0 ..
  | 1 => exact byteOf_w32_1 ..
  | 2 => exact byteOf_w32_2 ..
  | 3 => exact byteOf_w32_3 ..

theorem setWidth_byte (b : Byte) : ((((b.setWidth 32 : Word)) &&& 0xff).setWidth 8 : Byte) = b := by
  have := byteOf_setWidth b 0
  simpa [byteOf] using this

/-- What has been computed of the key schedule. -/
structure KeyInv (n : Nat) (key : Nat → Fin 4 → Byte) (w : List Word) (beta : Word) : Prop where
  len : n ≤ w.length
  words : ∀ j, j < w.length → ∀ r : Fin 4, byteOf (w.getD j 0) r.val = keyWord n key j r
  beta : beta = (xpow 1 ((w.length + n - 1) / n - 1)).setWidth 32

theorem expand0 {n m : Nat} {w : List Word} {beta : Word} (h : w.length % n = 0) :
    aesExpand n (m + 1) w beta = aesExpand n m (w ++ [w.getD (w.length - n) 0 ^^^
      (aesByteSubTransform (aesRotateRight (w.getD (w.length - 1) 0)) aesSBox ^^^ beta)])
      (aesXTime ((beta &&& 0xff).setWidth 8)) := by
  rw [aesExpand]; simp only [if_pos h]

theorem expand4 {n m : Nat} {w : List Word} {beta : Word} (h : ¬ w.length % n = 0)
    (h4 : n > 6 ∧ w.length % n = 4) :
    aesExpand n (m + 1) w beta = aesExpand n m (w ++ [w.getD (w.length - n) 0 ^^^
      aesByteSubTransform (w.getD (w.length - 1) 0) aesSBox]) beta := by
  rw [aesExpand]; simp only [if_neg h, if_pos h4]

theorem expandE {n m : Nat} {w : List Word} {beta : Word} (h : ¬ w.length % n = 0)
    (h4 : ¬ (n > 6 ∧ w.length % n = 4)) :
    aesExpand n (m + 1) w beta = aesExpand n m (w ++ [w.getD (w.length - n) 0 ^^^
      w.getD (w.length - 1) 0]) beta := by
  rw [aesExpand]; simp only [if_neg h, if_neg h4]

theorem expand_spec {n : Nat} (hn : n = 4 ∨ n = 6 ∨ n = 8) (key : Nat → Fin 4 → Byte) (m : Nat) :
    ∀ (w : List Word) (beta : Word), KeyInv n key w beta →
      (aesExpand n m w beta).length = w.length + m ∧
      ∀ j, j < w.length + m → ∀ r : Fin 4,
        byteOf ((aesExpand n m w beta).getD j 0) r.val = keyWord n key j r := by
  induction m with
  | zero => intro w beta h; exact ⟨rfl, h.words⟩
  | succ m ih =>
    intro w beta h
    have hpos : 0 < n := by omega
    have key1 : ∀ (x beta' : Word), (∀ r : Fin 4, byteOf x r.val = keyWord n key w.length r) →
        beta' = (xpow 1 ((w.length + 1 + n - 1) / n - 1)).setWidth 32 →
        KeyInv n key (w ++ [x]) beta' := by
      intro x beta' hx hb
      refine ⟨by have := h.len; simp; omega, ?_, by simpa using hb⟩
      intro j hj r
      by_cases hjw : j < w.length
      · rw [List.getD_eq_getElem?_getD, List.getElem?_append_left hjw, ← List.getD_eq_getElem?_getD]; exact h.words j hjw r
      · have : j = w.length := by simp at hj; omega
        subst this
        simpa using hx r
    have main : ∀ (x beta' : Word), aesExpand n (m + 1) w beta = aesExpand n m (w ++ [x]) beta' →
        KeyInv n key (w ++ [x]) beta' →
        (aesExpand n (m + 1) w beta).length = w.length + (m + 1) ∧
        ∀ j, j < w.length + (m + 1) → ∀ r : Fin 4,
          byteOf ((aesExpand n (m + 1) w beta).getD j 0) r.val = keyWord n key j r := by
      intro x beta' he hk
      rw [he]
      have := ih _ _ hk
      simp only [List.length_append, List.length_cons, List.length_nil] at this
      exact ⟨by omega, fun j hj => this.2 j (by omega)⟩
    have hlen := h.len
    have w1 := h.words (w.length - 1) (by omega)
    have w2 := h.words (w.length - n) (by omega)
    have nlt : ¬ (w.length < n ∨ n = 0) := by omega
    by_cases h0 : w.length % n = 0
    · refine main _ _ (expand0 h0) (key1 _ _ ?_ ?_)
      · intro r
        rw [keyWord, dif_neg nlt]
        simp only [if_pos h0]
        rw [byteOf_xor, byteOf_xor, w2, byteOf_sub, byteOf_rotr, w1, h.beta, byteOf_setWidth,
          sbox_table]
        have : (w.length + n - 1) / n = w.length / n := by
          rcases hn with rfl | rfl | rfl <;> omega
        rw [this]
      · rw [h.beta, setWidth_byte, xtime_eq]
        have : (w.length + 1 + n - 1) / n - 1 = ((w.length + n - 1) / n - 1) + 1 := by
          rcases hn with rfl | rfl | rfl <;> omega
        rw [this, xpow]
    · have hb : beta = (xpow 1 ((w.length + 1 + n - 1) / n - 1)).setWidth 32 := by
        rw [h.beta]
        have : (w.length + 1 + n - 1) / n - 1 = (w.length + n - 1) / n - 1 := by
          rcases hn with rfl | rfl | rfl <;> omega
        rw [this]
      by_cases h4 : n > 6 ∧ w.length % n = 4
      · refine main _ _ (expand4 h0 h4) (key1 _ _ ?_ hb)
        intro r
        rw [keyWord, dif_neg nlt]
        simp only [if_neg h0, if_pos h4]
        rw [byteOf_xor, w2, byteOf_sub, w1, sbox_table]
      · refine main _ _ (expandE h0 h4) (key1 _ _ ?_ hb)
        intro r
        rw [keyWord, dif_neg nlt]
        simp only [if_neg h0, if_neg h4]
        rw [byteOf_xor, w2, w1]

theorem load_key (p : List Byte) (i : Nat) (r : Fin 4) : byteOf (aesLoad p i) r.val = keyWords p i r := by
  rw [load_eq]
  match r with
  | 0 => exact byteOf_w32_0 ..
  | 1 => exact byteOf_w32_1 ..
  | 2 => exact byteOf_w32_2 ..
  | 3 => exact byteOf_w32_3 ..

theorem inverseByte_eq (a : Word) : ∀ j : Fin 4, aesInverseByte a j.val =
    (gmul 0x0e (byteOf a j.val) ^^^ gmul 0x0b (byteOf a (j + 1).val) ^^^
      gmul 0x0d (byteOf a (j + 2).val) ^^^ gmul 0x09 (byteOf a (j + 3).val)).setWidth 32 := by
  intro j
  have hv : ∀ j : Fin 4, (j.val + 1) % 4 = (j + 1).val ∧ (j.val + 2) % 4 = (j + 2).val ∧
      (j.val + 3) % 4 = (j + 3).val := by decide
  obtain ⟨h1, h2, h3⟩ := hv j
  unfold aesInverseByte
  rw [h1, h2, h3, mul_e, mul_b, mul_d, mul_9]
  simp only [← BitVec.setWidth_xor]
  rfl

theorem inverseWord_byte (a : Word) (r : Fin 4) : byteOf (aesInverseWord a) r.val =
    gmul 0x0e (byteOf a r.val) ^^^ gmul 0x0b (byteOf a (r + 1).val) ^^^
      gmul 0x0d (byteOf a (r + 2).val) ^^^ gmul 0x09 (byteOf a (r + 3).val) := by
  have h : ∀ r : Fin 4, ∃ b : Byte, aesInverseByte a r.val = b.setWidth 32 ∧ b =
      gmul 0x0e (byteOf a r.val) ^^^ gmul 0x0b (byteOf a (r + 1).val) ^^^
      gmul 0x0d (byteOf a (r + 2).val) ^^^ gmul 0x09 (byteOf a (r + 3).val) :=
    fun r => ⟨_, inverseByte_eq a r, rfl⟩
  obtain ⟨b0, e0, h0⟩ := h 0
  obtain ⟨b1, e1, h1⟩ := h 1
  obtain ⟨b2, e2, h2⟩ := h 2
  obtain ⟨b3, e3, h3⟩ := h 3
  have : aesInverseWord a = w32 b0 b1 b2 b3 := by
    show (((0 ||| aesInverseByte a ((0 : Fin 4)).val <<< 0) ||| aesInverseByte a ((1 : Fin 4)).val <<< 8)
      ||| aesInverseByte a ((2 : Fin 4)).val <<< 16) ||| aesInverseByte a ((3 : Fin 4)).val <<< 24 = _
    rw [e0, e1, e2, e3]
    simp [w32]
  rw [this]
  match r with
  | 0 => rw [← h0]; exact byteOf_w32_0 ..
  | 1 => rw [← h1]; exact byteOf_w32_1 ..
  | 2 => rw [← h2]; exact byteOf_w32_2 ..
  | 3 => rw [← h3]; exact byteOf_w32_3 ..

/-- The number of key words `SetAESKey` uses for a key of the given length. -/
def keySize (length : Nat) : Nat := if 32 ≤ length then 8 else if 24 ≤ length then 6 else 4

theorem aesSize_eq (l : Nat) : aesSize l = (keySize l, nr (keySize l)) := by
  unfold aesSize keySize
  by_cases h1 : 32 ≤ l
  · simp [h1, show 8 * l ≥ 256 by omega, nr]
  · by_cases h2 : 24 ≤ l
    · simp [h1, h2, show ¬ 8 * l ≥ 256 by omega, show 8 * l ≥ 192 by omega, nr]
    · simp [h1, h2, show ¬ 8 * l ≥ 256 by omega, show ¬ 8 * l ≥ 192 by omega, nr]

/-- The key bytes used: truncated to 32 or padded with zeros. -/
def paddedKey (key : List Byte) : List Byte := key.take 32 ++ List.replicate (32 - key.length) 0

theorem keyWords_spec (key : List Byte) (j : Nat) (hj : j < 4 * (nr (keySize key.length) + 1))
    (r : Fin 4) : byteOf ((aesKeyWords key).getD j 0) r.val =
      keyWord (keySize key.length) (keyWords (paddedKey key)) j r := by
  have hn : keySize key.length = 4 ∨ keySize key.length = 6 ∨ keySize key.length = 8 := by
    unfold keySize; split <;> (try split) <;> omega
  unfold aesKeyWords
  rw [aesSize_eq]
  generalize keySize key.length = n at *
  simp only []
  have hinv : KeyInv n (keyWords (paddedKey key)) ((List.range n).map (aesLoad (paddedKey key))) 1 := by
    refine ⟨by simp, ?_, ?_⟩
    · intro j hj r
      rw [List.length_map, List.length_range] at hj
      rw [keyWord, dif_pos (.inl hj), List.getD_eq_getElem?_getD, List.getElem?_map,
        List.getElem?_range hj]
      exact load_key _ _ _
    · rw [List.length_map, List.length_range]
      rcases hn with rfl | rfl | rfl <;> rfl
  have := (expand_spec hn _ (4 * (nr n + 1) - n) _ _ hinv).2 j
    (by rw [List.length_map, List.length_range]; simp only [nr] at hj ⊢; omega) r
  exact this

theorem setKey_spec (key : List Byte) :
    (setAESKey key).rounds = nr (keySize key.length) ∧
    (∀ j, j < 4 * (nr (keySize key.length) + 1) → ∀ r : Fin 4,
      unpackW (setAESKey key).encipherKey j r =
        keyWord (keySize key.length) (keyWords (paddedKey key)) j r) ∧
    ∀ j, unpackW (setAESKey key).decipherKey j =
      if j < 4 ∨ 4 * (nr (keySize key.length) + 1) - 4 ≤ j then
        unpackW (setAESKey key).encipherKey j
      else fun r => byteOf (aesInverseWord ((setAESKey key).encipherKey j)) r.val := by
  refine ⟨by simp only [setAESKey, aesSize_eq], fun j hj r => keyWords_spec key j hj r, ?_⟩
  intro j
  funext r
  simp only [unpackW, setAESKey, aesDecipherWord, aesSize_eq]
  split <;> rfl

theorem addRoundKey_congr {w w' : Schedule} {N n : Nat} (hn : n ≤ N)
    (h : ∀ j, j < 4 * (N + 1) → ∀ r, w j r = w' j r) (s : State) :
    addRoundKey w n s = addRoundKey w' n s := by
  funext r c
  simp only [addRoundKey]
  rw [h _ (by have := c.isLt; omega)]

theorem rounds_congr {w w' : Schedule} {N : Nat} (h : ∀ j, j < 4 * (N + 1) → ∀ r, w j r = w' j r)
    (s : State) (n : Nat) (hn : n ≤ N) : rounds w s n = rounds w' s n := by
  induction n with
  | zero => rfl
  | succ n ih => rw [rounds, rounds, ih (by omega), addRoundKey_congr hn h]

theorem cipher_congr {w w' : Schedule} {N : Nat} (h : ∀ j, j < 4 * (N + 1) → ∀ r, w j r = w' j r)
    (s : State) : cipher N w s = cipher N w' s := by
  unfold cipher
  rw [addRoundKey_congr (Nat.le_refl N) h, addRoundKey_congr (Nat.zero_le N) h,
    rounds_congr h _ _ (by omega)]

theorem aes_encipher (key block : List Byte) :
    encipherAESBlock (setAESKey key) block =
      encrypt (keySize key.length) (paddedKey key) block := by
  obtain ⟨h1, h2, -⟩ := setKey_spec key
  rw [encipher_eq, h1, cipher_congr h2]
  rfl

theorem aes_decipher (key block : List Byte) :
    decipherAESBlock (setAESKey key) block =
      decrypt (keySize key.length) (paddedKey key) block := by
  obtain ⟨h1, h2, h3⟩ := setKey_spec key
  rw [decipher_eq (setAESKey key) (keyWord (keySize key.length) (keyWords (paddedKey key)))]
  · rw [h1]; rfl
  · intro r c
    have hc := c.isLt
    rw [h3, if_pos (.inl hc)]
    exact h2 _ (by omega) r
  · intro r c
    have hc := c.isLt
    rw [h3, h1, if_pos (.inr (by omega))]
    exact h2 _ (by omega) r
  · intro i hi1 hi2 r c
    have hc := c.isLt
    rw [h1] at hi2
    have hb : ¬ (4 * i + c.val < 4 ∨ 4 * (nr (keySize key.length) + 1) - 4 ≤ 4 * i + c.val) := by
      omega
    rw [h3, if_neg hb, inverseWord_byte]
    simp only [invMixColumns]
    have h2' := h2 (4 * i + c.val) (by omega)
    simp only [← h2']
    rfl

end Wizard

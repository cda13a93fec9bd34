import Verif.Lemmas.AES
/-! C23, C65: the AES block cipher. -/
namespace Wizard.Props
open Wizard Wizard.Spec

/-- **C23** For every key of every length, deciphering an enciphered 16-byte block gives the block, and
enciphering a deciphered block gives the block: encryption is a permutation of the blocks. -/
theorem C23_aes_inverse (key block : List Byte) (h : block.length = 16) :
    decipherAESBlock (setAESKey key) (encipherAESBlock (setAESKey key) block) = block ∧
    encipherAESBlock (setAESKey key) (decipherAESBlock (setAESKey key) block) = block ∧
    (encipherAESBlock (setAESKey key) block).length = 16 := by
  rw [aes_encipher, aes_decipher, aes_encipher, aes_decipher]
  refine ⟨?_, ?_, rfl⟩
  · unfold AES.decrypt AES.encrypt
    rw [toState_ofState, invCipher_cipher, ofState_toState block h]
  · unfold AES.decrypt AES.encrypt
    rw [toState_ofState, cipher_invCipher, ofState_toState block h]

/-- Hence enciphering under one key never maps two blocks to one. -/
theorem C23_aes_injective (key b b' : List Byte) (h : b.length = 16) (h' : b'.length = 16)
    (he : encipherAESBlock (setAESKey key) b = encipherAESBlock (setAESKey key) b') : b = b' := by
  rw [← (C23_aes_inverse key b h).1, he, (C23_aes_inverse key b' h').1]

theorem keyWord_congr {n : Nat} (hn : 0 < n) {k k' : List Byte}
    (h : ∀ i, i < 4 * n → k.getD i 0 = k'.getD i 0) (i : Nat) :
    ∀ r, AES.keyWord n (AES.keyWords k) i r = AES.keyWord n (AES.keyWords k') i r := by
  induction i using Nat.strongRecOn with
  | ind i ih =>
    intro r
    rw [AES.keyWord.eq_def n (AES.keyWords k) i r, AES.keyWord.eq_def n (AES.keyWords k') i r]
    by_cases hi : i < n ∨ n = 0
    · simp only [dif_pos hi]
      exact h _ (by have := r.isLt; omega)
    · simp only [dif_neg hi]
      have e1 : AES.keyWord n (AES.keyWords k) (i - 1) = AES.keyWord n (AES.keyWords k') (i - 1) :=
        funext (ih (i - 1) (by omega))
      rw [e1, ih (i - n) (by omega) r]

theorem getD_take_pad (key : List Byte) (m : Nat) (i : Nat) (hi : i < m) (l : List Byte)
    (hl : ∀ x ∈ l, x = 0) : (key.take m ++ l).getD i 0 = key.getD i 0 := by
  rw [List.getD_eq_getElem?_getD, List.getD_eq_getElem?_getD]
  by_cases hk : i < key.length
  · rw [List.getElem?_append_left (by rw [List.length_take]; omega), List.getElem?_take_of_lt hi]
  · rw [List.getElem?_append_right (by rw [List.length_take]; omega), List.getElem?_eq_none (l := key) (by omega)]
    cases hx : l[i - (key.take m).length]? with
    | none => rfl
    | some x => exact hl x (List.mem_of_getElem? hx)

theorem encrypt_congr {n : Nat} (hn : 0 < n) {k k' : List Byte}
    (h : ∀ i, i < 4 * n → k.getD i 0 = k'.getD i 0) (block : List Byte) :
    AES.encrypt n k block = AES.encrypt n k' block ∧ AES.decrypt n k block = AES.decrypt n k' block := by
  have : AES.keyWord n (AES.keyWords k) = AES.keyWord n (AES.keyWords k') :=
    funext fun i => funext (keyWord_congr hn h i)
  unfold AES.encrypt AES.decrypt
  rw [this]
  exact ⟨rfl, rfl⟩

theorem padded_getD (key : List Byte) (i : Nat) (hi : i < 32) :
    (paddedKey key).getD i 0 = key.getD i 0 :=
  getD_take_pad key 32 i hi _ fun _ h => List.eq_of_mem_replicate h

/-- **C65** For the key sizes of the standard (16, 24 and 32 bytes), the block functions are exactly
FIPS 197's `Cipher` and `InvCipher` under its key expansion. -/
theorem C65_aes_fips197 (key block : List Byte) (nk : Nat) (hnk : nk = 4 ∨ nk = 6 ∨ nk = 8)
    (hk : key.length = 4 * nk) :
    encipherAESBlock (setAESKey key) block = AES.encrypt nk key block ∧
    decipherAESBlock (setAESKey key) block = AES.decrypt nk key block := by
  have hs : keySize key.length = nk := by
    rw [hk]; rcases hnk with rfl | rfl | rfl <;> rfl
  rw [aes_encipher, aes_decipher, hs]
  exact encrypt_congr (by omega) (fun i hi => padded_getD key i (by omega)) block

/-- Keys of other lengths: shorter than 16 bytes they are padded with zeros to 16, and otherwise cut to
the next standard length below. -/
theorem C65_aes_other_key_sizes (key block : List Byte) :
    (32 ≤ key.length →
      encipherAESBlock (setAESKey key) block = AES.encrypt 8 (key.take 32) block) ∧
    (24 ≤ key.length → key.length < 32 →
      encipherAESBlock (setAESKey key) block = AES.encrypt 6 (key.take 24) block) ∧
    (16 ≤ key.length → key.length < 24 →
      encipherAESBlock (setAESKey key) block = AES.encrypt 4 (key.take 16) block) ∧
    (key.length < 16 → encipherAESBlock (setAESKey key) block =
      AES.encrypt 4 (key ++ List.replicate (16 - key.length) 0) block) := by
  rw [aes_encipher]
  have tk : ∀ m i, i < m → (key.take m).getD i 0 = key.getD i 0 := by
    intro m i hi
    have := getD_take_pad key m i hi [] (by simp)
    rwa [List.append_nil] at this
  refine ⟨?_, ?_, ?_, ?_⟩
  · intro h
    rw [show keySize key.length = 8 by unfold keySize; rw [if_pos h]]
    exact (encrypt_congr (by omega) (fun i hi => by
      rw [padded_getD key i (by omega), tk 32 i (by omega)]) block).1
  · intro h h2
    rw [show keySize key.length = 6 by unfold keySize; rw [if_neg (by omega), if_pos h]]
    exact (encrypt_congr (by omega) (fun i hi => by
      rw [padded_getD key i (by omega), tk 24 i (by omega)]) block).1
  · intro h h2
    rw [show keySize key.length = 4 by unfold keySize; rw [if_neg (by omega), if_neg (by omega)]]
    exact (encrypt_congr (by omega) (fun i hi => by
      rw [padded_getD key i (by omega), tk 16 i (by omega)]) block).1
  · intro h
    rw [show keySize key.length = 4 by unfold keySize; rw [if_neg (by omega), if_neg (by omega)]]
    exact (encrypt_congr (by omega) (fun i hi => by
      rw [padded_getD key i (by omega)]
      have := getD_take_pad key 16 i (by omega) (List.replicate (16 - key.length) 0)
        fun _ h => List.eq_of_mem_replicate h
      rw [List.take_of_length_le (by omega)] at this
      exact this.symm) block).1

/-- A key and a block that meet the hypotheses: those of FIPS 197, appendix C.1. -/
example : ((List.range 16).map (BitVec.ofNat 8)).length = 4 * 4 ∧
    ((List.range 16).map fun i => BitVec.ofNat 8 (17 * i)).length = 16 := by decide


end Wizard.Props

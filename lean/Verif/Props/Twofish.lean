import Verif.Lemmas.TwofishBlock
import Verif.Props.Cipher
/-! Properties of twofish.c, alone and as used by cipher.c. -/
namespace Wizard.Props
open Spec

/-- **C25** For all key schedules and S-boxes whatsoever, deciphering the 16 bytes that enciphering a block
made gives the block back. -/
theorem C25_twofish_inverse (t : TwofishInfo) (b : List Byte) (hb : b.length = 16) :
    (encipherTwofishBlock t b).length = 16 ∧ decipherTwofishBlock t (encipherTwofishBlock t b) = b :=
  ⟨rfl, twofish_inverse t b hb⟩

/-- **C25** Two different blocks never encipher to the same block. -/
theorem C25_twofish_injective (t : TwofishInfo) (b b' : List Byte) (hb : b.length = 16) (hb' : b'.length = 16)
    (h : encipherTwofishBlock t b = encipherTwofishBlock t b') : b = b' := by
  rw [← twofish_inverse t b hb, h, twofish_inverse t b' hb']

/-- **C71** `SetTwofishKey` with a key of 16, 24, or 32 and more bytes (of which the first 32 are used), then
`EncipherTwofishBlock`, computes published Twofish; `DecipherTwofishBlock` undoes published Twofish. -/
theorem C71_twofish_conforms (key : StringInfo) (hw : key.WF)
    (hk : key.length = 16 ∨ key.length = 24 ∨ 32 ≤ key.length) (b : List Byte) (hb : b.length = 16) :
    encipherTwofishBlock (setTwofishKey key) b = Twofish.encipher (key.bytes.take 32) b ∧
    decipherTwofishBlock (setTwofishKey key) (Twofish.encipher (key.bytes.take 32) b) = b := by
  have hl : key.bytes.length = key.length := by
    rw [StringInfo.bytes, List.length_take]; exact Nat.min_eq_left (Nat.le_trans (Nat.le_add_right _ _) hw)
  have r := setTwofishKey_ready key hl
  have e : twofishEffectiveKey key.bytes = key.bytes.take 32 := by
    rw [twofishEffectiveKey, hl]
    rcases hk with h | h | h
    · rw [if_neg (by omega), if_neg (by omega), if_pos (by omega), List.take_of_length_le (by omega),
        List.take_of_length_le (by omega)]
    · rw [if_neg (by omega), if_pos (by omega), List.take_of_length_le (by omega),
        List.take_of_length_le (by omega)]
    · rw [if_pos h]
  rw [e] at r
  have c := encipherTwofishBlock_eq _ _ r b
  exact ⟨c, by rw [← c]; exact twofish_inverse _ b hb⟩

/-- The published test vector for the all-zero 128-bit key, on the model and on the specification. -/
example : encipherTwofishBlock (setTwofishKey ⟨16, List.replicate 144 0⟩) (List.replicate 16 0) =
      [0x9f, 0x58, 0x9f, 0x5c, 0xf6, 0x12, 0x2c, 0x32, 0xb6, 0xbf, 0xec, 0x2f, 0x2a, 0xe8, 0xc3, 0x5a] ∧
    (⟨16, List.replicate 144 0⟩ : StringInfo).WF := by
  refine ⟨by decide +kernel, ?_⟩
  rw [StringInfo.WF, List.length_replicate]; decide

/-- **C72** (what holds): keys of any length.  The cipher is published Twofish for the key cut down to 32, 24
or 16 bytes or, if it is shorter than 16, filled up with a byte 1 and then zeros. -/
theorem C72_twofish_key_partial (key : StringInfo) (hw : key.WF) (b : List Byte) :
    encipherTwofishBlock (setTwofishKey key) b = Twofish.encipher
      (if 32 ≤ key.length then key.bytes.take 32 else if 24 ≤ key.length then key.bytes.take 24
       else if 16 ≤ key.length then key.bytes.take 16
       else key.bytes ++ 1 :: List.replicate (15 - key.length) 0) b := by
  have hl : key.bytes.length = key.length := by
    rw [StringInfo.bytes, List.length_take]; exact Nat.min_eq_left (Nat.le_trans (Nat.le_add_right _ _) hw)
  have r := setTwofishKey_ready key hl
  rw [twofishEffectiveKey, hl] at r
  exact encipherTwofishBlock_eq _ _ r b

/-- **C72** is false: bytes 16 to 22 of a Twofish key of 17 to 23 bytes, and bytes 24 to 30 of one of 25 to 31
bytes, have no influence whatever: two keys that differ only there are the same cipher. -/
theorem C72_key_bytes_ignored_violated (key key' : StringInfo) (hw : key.WF) (hw' : key'.WF) (n : Nat)
    (hn : n = 16 ∨ n = 24) (hl : n ≤ key.length ∧ key.length < n + 8)
    (hl' : n ≤ key'.length ∧ key'.length < n + 8) (h : key.bytes.take n = key'.bytes.take n) (b : List Byte) :
    encipherTwofishBlock (setTwofishKey key) b = encipherTwofishBlock (setTwofishKey key') b := by
  rw [C72_twofish_key_partial key hw, C72_twofish_key_partial key' hw']
  rcases hn with rfl | rfl
  · rw [if_neg (by omega), if_neg (by omega), if_pos (by omega), if_neg (by omega), if_neg (by omega),
      if_pos (by omega), h]
  · rw [if_neg (by omega), if_pos (by omega), if_neg (by omega), if_pos (by omega), h]

/-- Two such keys, different in byte 16. -/
example : ∃ key key' : StringInfo, key.WF ∧ key'.WF ∧ (16 ≤ key.length ∧ key.length < 16 + 8) ∧
    (16 ≤ key'.length ∧ key'.length < 16 + 8) ∧ key.bytes.take 16 = key'.bytes.take 16 ∧ key.bytes ≠ key'.bytes := by
  refine ⟨⟨20, List.replicate 148 0⟩, ⟨20, List.replicate 16 0 ++ List.replicate 132 1⟩, ?_, ?_, by decide, by decide,
    by decide, by decide⟩
  · rw [StringInfo.WF, List.length_replicate]; decide
  · rw [StringInfo.WF, List.length_append, List.length_replicate, List.length_replicate]; decide

/-- **C72** The published rule for short keys (append zero bytes) is not followed: the key of no bytes does
not give the cipher of the all-zero 128-bit key. -/
theorem C72_short_key_violated : ∃ key : StringInfo, key.WF ∧ key.length < 16 ∧ ∃ b : List Byte, b.length = 16 ∧
    encipherTwofishBlock (setTwofishKey key) b ≠
      Twofish.encipher (key.bytes ++ List.replicate (16 - key.length) 0) b := by
  refine ⟨⟨0, List.replicate 128 0⟩, ?_, by decide, List.replicate 16 0, by decide, by decide +kernel⟩
  rw [StringInfo.WF, List.length_replicate]; decide

/-! ### Twofish in the cipher interface -/

theorem twofish_sized_invertible (t : TwofishInfo) :
    (twofishCipher t).Sized ∧ (twofishCipher t).Invertible :=
  ⟨fun _ _ => ⟨rfl, rfl⟩, fun b hb => twofish_inverse t b hb⟩

/-- **C27** for Twofish: every mode round trips, for every key. -/
theorem C27_twofish (mode : CipherMode) (t : TwofishInfo) (c : CipherInfo) (h : c.Ready)
    (hc : c.cipher = twofishCipher t) (s s' : StringInfo) (hs : s.WF) (he : encipherCipher mode c s = .ok s') :
    ∃ r, decipherCipher mode c s' = .ok r ∧ r.length = s.length ∧ r.bytes = s.bytes := by
  have hlen := encipher_byte mode c h s s' hs he
  have hw : s.length + maxCipherBlocksize ≤ s.datum.length := hs
  exact C27_round_trip mode c c h (hc ▸ (twofish_sized_invertible t).2) rfl rfl s s' s' hs he
    (by show s'.length + maxCipherBlocksize ≤ s'.datum.length; rw [hlen.1, hlen.2.1]; exact hw) rfl rfl

/-- A ready Twofish cipher. -/
example : ∃ c : CipherInfo, c.Ready ∧ c.cipher = twofishCipher (setTwofishKey ⟨16, List.replicate 144 0⟩) :=
  let ⟨c, _, h, e⟩ := (C68_ready (twofishCipher (setTwofishKey ⟨16, List.replicate 144 0⟩)) (by decide) (by decide)
    (twofish_sized_invertible _).1).1 .ofb (fun i => BitVec.ofNat 8 i) (fun _ => 7)
  ⟨c, h, e⟩

end Wizard.Props

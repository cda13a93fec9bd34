import Verif.Lemmas.SerpentKey
import Verif.Props.Cipher
/-! Properties of serpent.c, alone and as used by cipher.c. -/
namespace Wizard.Props
open Spec Spec.Serpent

theorem serpentEncrypt_congr (K K' : Nat → Quad) (h : ∀ i, i < 33 → K i = K' i) (q : Quad) :
    encrypt K q = encrypt K' q := by
  have e : ∀ n, n ≤ 31 → rounds K n q = rounds K' n q := by
    intro n
    induction n with
    | zero => intro _; rfl
    | succ n ih => intro hn; rw [rounds, rounds, ih (by omega), h n (by omega)]
  rw [encrypt, encrypt, e 31 (by decide), h 31 (by decide), h 32 (by decide)]

theorem serpentDecrypt_congr (K K' : Nat → Quad) (h : ∀ i, i < 33 → K i = K' i) (q : Quad) :
    decrypt K q = decrypt K' q := by
  have e : ∀ n, n ≤ 31 → ∀ q, roundsInv K n q = roundsInv K' n q := by
    intro n
    induction n with
    | zero => intro _ q; rfl
    | succ n ih => intro hn q; rw [roundsInv, roundsInv, ih (by omega), h n (by omega)]
  rw [decrypt, decrypt, e 31 (by decide), h 31 (by decide), h 32 (by decide)]

theorem toBytes_length (q : Quad) : (toBytes q).length = 16 := rfl

/-- **C24** For all round keys whatsoever, deciphering the 16 bytes that enciphering a block made gives the
block back; neither reads outside the array of round keys (`ub`). -/
theorem C24_serpent_inverse (k : List Word) (b : List Byte) (hk : k.length = 132) (hb : b.length = 16) :
    ∃ c, encipherSerpentBlock k b = .ok c ∧ c.length = 16 ∧ decipherSerpentBlock k c = .ok b := by
  refine ⟨_, encipherSerpentBlock_eq k b hk, toBytes_length _, ?_⟩
  rw [decipherSerpentBlock_eq k _ hk, ofBytes_toBytes, decrypt_encrypt, toBytes_ofBytes b hb]

/-- **C24** from `SetSerpentKey`: for every key, whatever key was set before. -/
theorem C24_serpent_key (k : List Word) (key : StringInfo) (hk : k.length = 132) :
    ∃ k', setSerpentKey k key = .ok k' ∧ ∀ b, b.length = 16 →
      ∃ c, encipherSerpentBlock k' b = .ok c ∧ c.length = 16 ∧ decipherSerpentBlock k' c = .ok b := by
  obtain ⟨k', e, l, _⟩ := setSerpentKey_eq k key hk
  exact ⟨k', e, fun b hb => C24_serpent_inverse k' b l hb⟩

/-- **C70** `SetSerpentKey` with any key (of which at most 32 bytes are used) and any earlier contents of
the `SerpentInfo`, followed by `EncipherSerpentBlock` or `DecipherSerpentBlock`, computes published Serpent
on the first 16 bytes of the buffer, without leaving the array of round keys. -/
theorem C70_serpent_conforms (k : List Word) (key : StringInfo) (hk : k.length = 132) :
    ∃ k', setSerpentKey k key = .ok k' ∧ k'.length = 132 ∧ ∀ b,
      encipherSerpentBlock k' b = .ok (Serpent.encipher (key.bytes.take 32) b) ∧
      decipherSerpentBlock k' b = .ok (Serpent.decipher (key.bytes.take 32) b) := by
  obtain ⟨k', e, l, h⟩ := setSerpentKey_eq k key hk
  refine ⟨k', e, l, fun b => ⟨?_, ?_⟩⟩
  · rw [encipherSerpentBlock_eq k' b l, Serpent.encipher, serpentEncrypt_congr _ _ h]
  · rw [decipherSerpentBlock_eq k' b l, Serpent.decipher, serpentDecrypt_congr _ _ h]

/-- A NESSIE test vector, on the model: key 80 00 .. 00 (16 bytes), block 00 .. 00. -/
example : (do
    let k ← setSerpentKey acquireSerpentKeys ⟨16, 0x80 :: List.replicate 143 0⟩
    encipherSerpentBlock k (List.replicate 16 0)) =
    .ok [0x26, 0x4e, 0x54, 0x81, 0xef, 0xf4, 0x2a, 0x46, 0x06, 0xab, 0xda, 0x06, 0xc0, 0xbf, 0xda, 0x3d] := by
  decide +kernel

example : acquireSerpentKeys.length = 132 := List.length_replicate

/-! ### Serpent in the cipher interface -/

theorem serpent_encipher (k : List Word) (hk : k.length = 132) (b : List Byte) :
    (serpentCipher k).encipher b = toBytes (encrypt (fun i => quadAt k (4 * i)) (ofBytes b)) ++ b.drop 16 := by
  simp only [serpentCipher, encipherSerpentBlock_eq k b hk]

theorem serpent_decipher (k : List Word) (hk : k.length = 132) (b : List Byte) :
    (serpentCipher k).decipher b = toBytes (decrypt (fun i => quadAt k (4 * i)) (ofBytes b)) ++ b.drop 16 := by
  simp only [serpentCipher, decipherSerpentBlock_eq k b hk]

theorem serpent_sized_invertible (k : List Word) (hk : k.length = 132) :
    (serpentCipher k).Sized ∧ (serpentCipher k).Invertible := by
  constructor
  · intro b hb
    have hb : b.length = 32 := hb
    rw [serpent_encipher k hk, serpent_decipher k hk, List.length_append, List.length_append,
      toBytes_length, toBytes_length, List.length_drop, hb]
    exact ⟨rfl, rfl⟩
  · intro b hb
    have hb : b.length = 32 := hb
    rw [serpent_encipher k hk, serpent_decipher k hk]
    have e : ∀ t d : List Byte, t.length = 16 → ofBytes (t ++ d) = ofBytes t := by
      intro t d ht
      rw [← ofBytes_take (t ++ d), List.take_left' ht]
    rw [e _ _ (toBytes_length _), ofBytes_toBytes, decrypt_encrypt, List.drop_left' (toBytes_length _)]
    rw [← ofBytes_take b, toBytes_ofBytes _ (by rw [List.length_take]; omega), List.take_append_drop]

/-- **C27** for Serpent: every mode round trips, for every key. -/
theorem C27_serpent (mode : CipherMode) (k : List Word) (hk : k.length = 132) (c : CipherInfo) (h : c.Ready)
    (hc : c.cipher = serpentCipher k) (s s' : StringInfo) (hs : s.WF) (he : encipherCipher mode c s = .ok s') :
    ∃ r, decipherCipher mode c s' = .ok r ∧ r.length = s.length ∧ r.bytes = s.bytes := by
  have hlen := encipher_byte mode c h s s' hs he
  have hw : s.length + maxCipherBlocksize ≤ s.datum.length := hs
  exact C27_round_trip mode c c h (hc ▸ (serpent_sized_invertible k hk).2) rfl rfl s s' s' hs he
    (by show s'.length + maxCipherBlocksize ≤ s'.datum.length; rw [hlen.1, hlen.2.1]; exact hw) rfl rfl

/-- Bytes 16 to 31 of a block pass through. -/
theorem serpent_tail (k : List Word) (hk : k.length = 132) (b : List Byte) (j : Nat) (hj : 16 ≤ j) :
    ((serpentCipher k).encipher b).getD j 0 = b.getD j 0 := by
  rw [serpent_encipher k hk, List.getD_eq_getElem?_getD, List.getD_eq_getElem?_getD,
    List.getElem?_append_right (by rw [toBytes_length]; exact hj), toBytes_length, List.getElem?_drop]
  congr 2
  omega

/-- **C30** is false for Serpent in ECB mode: the cipher interface advances 32 bytes per block while the
block function transforms 16, so half of every message is left in the clear, whatever the key. -/
theorem C30_serpent_ecb_violated (k : List Word) (hk : k.length = 132) (c : CipherInfo) (h : c.Ready)
    (hc : c.cipher = serpentCipher k) (s : StringInfo) (hs : s.WF) :
    ∃ s', encipherCipher .ecb c s = .ok s' ∧
      ∀ i, i < s.length → 16 ≤ i % 32 → s'.bytes.getD i 0 = s.bytes.getD i 0 := by
  obtain ⟨s', d, h1, h2, h3, h4, h5⟩ := encipher_ecb_byte c h s hs
  refine ⟨s', h1, ?_⟩
  intro i hi h16
  have hw : s.length + maxCipherBlocksize ≤ s.datum.length := hs
  have hbs : c.cipher.blocksize = 32 := by rw [hc]; rfl
  have h5 := h5 i hi
  rw [hbs, hc, serpent_tail k hk _ _ h16] at h5
  rw [h5, List.getD_eq_getElem?_getD, List.getElem?_take_of_lt (by omega), List.getElem?_drop,
    StringInfo.bytes, List.getD_eq_getElem?_getD, Nat.div_add_mod, ← h3, List.getElem?_take_of_lt hi]

/-- **C30** is false for Serpent in CTR mode: bytes 16 to 31 of every 32 are xored with the public counter
block only. -/
theorem C30_serpent_ctr_violated (k : List Word) (hk : k.length = 132) (c : CipherInfo) (h : c.Ready)
    (hc : c.cipher = serpentCipher k) (s s' : StringInfo) (hs : s.WF) (he : encipherCipher .ctr c s = .ok s') :
    ∀ i, i < s.length → 16 ≤ i % 32 → s'.bytes.getD i 0 = s.bytes.getD i 0 ^^^
      (Modes.counterBlock 32 (beNat c.nonce.bytes + i / 32)).getD (i % 32) 0 := by
  obtain ⟨_, _, e, _⟩ := encipher_byte .ctr c h s s' hs he
  have hbs : c.cipher.blocksize = 32 := by rw [hc]; rfl
  intro i hi h16
  have := e rfl i hi
  rw [hbs, hc, serpent_tail k hk _ _ h16] at this
  exact this

/-- **C30** is false for Serpent in OFB mode: bytes 16 to 31 of every 32 are xored with the public nonce
only. -/
theorem C30_serpent_ofb_violated (k : List Word) (hk : k.length = 132) (c : CipherInfo) (h : c.Ready)
    (hc : c.cipher = serpentCipher k) (s s' : StringInfo) (hs : s.WF) (he : encipherCipher .ofb c s = .ok s') :
    ∀ i, i < s.length → 16 ≤ i % 32 →
      s'.bytes.getD i 0 = s.bytes.getD i 0 ^^^ c.nonce.bytes.getD (i % 32) 0 := by
  obtain ⟨_, _, _, e⟩ := encipher_byte .ofb c h s s' hs he
  have hbs : c.cipher.blocksize = 32 := by rw [hc]; rfl
  intro i hi h16
  have := e rfl i hi
  rw [hbs, hc] at this
  rw [this]
  have it : ∀ n b, (iter (serpentCipher k).encipher n b).getD (i % 32) 0 = List.getD b (i % 32) 0 := by
    intro n
    induction n with
    | zero => intro b; rfl
    | succ n ih => intro b; exact (ih _).trans (serpent_tail k hk _ _ h16)
  rw [it]

/-- A ready Serpent cipher, and a message with such bytes. -/
example : (∃ c : CipherInfo, c.Ready ∧ c.cipher = serpentCipher acquireSerpentKeys) ∧
    (⟨200, List.replicate 328 5⟩ : StringInfo).WF ∧ 16 ≤ 20 % 32 :=
  ⟨let ⟨c, _, h, e⟩ := (C68_ready (serpentCipher acquireSerpentKeys) (by decide) (by decide)
    (serpent_sized_invertible _ List.length_replicate).1).1 .ofb (fun i => BitVec.ofNat 8 i) (fun _ => 7)
   ⟨c, h, e⟩, by rw [StringInfo.WF, List.length_replicate]; decide, by decide⟩

/-- **C30** (what holds) for ChaCha: there is a key under which every byte of every block changes. -/
theorem C30_chacha_partial : ∃ key, ∀ b : List Byte, b.length = 64 → ∀ i, i < 64 →
    ((chachaCipher acquireChachaInfo key).encipher b).getD i 0 ≠ b.getD i 0 := by
  refine ⟨List.replicate 32 1, fun b hb i hi => ?_⟩
  have he : (chachaCipher acquireChachaInfo (List.replicate 32 1)).encipher b =
      List.zipWith (· ^^^ ·) b (chachaStream (setChachaKey acquireChachaInfo (List.replicate 32 1))) :=
    encipherChacha_xor _ b hb
  rw [he]
  have hx := xorBlock_getD b (chachaStream (setChachaKey acquireChachaInfo (List.replicate 32 1)))
    (by rw [hb, chachaStream_length]) i
  unfold xorBlock at hx
  rw [hx]
  have hk : ∀ i, i < 64 →
      (chachaStream (setChachaKey acquireChachaInfo (List.replicate 32 1))).getD i 0 ≠ 0 := by
    decide +kernel
  have h0 := hk i hi
  intro h
  apply h0
  have := congrArg (b.getD i 0 ^^^ ·) h
  simp only [← BitVec.xor_assoc, BitVec.xor_self, BitVec.zero_xor] at this
  exact this

end Wizard.Props

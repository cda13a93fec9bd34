import Verif.Lemmas.Modes
import Verif.Props.AES
import Verif.Props.Chacha
/-! C27, C28, C29, C31, C68, C69: the cipher modes. -/
namespace Wizard.Props
open Wizard Wizard.Spec

/-- AES under any key is a block cipher in the sense of these theorems. -/
theorem aes_sized_invertible (key : List Byte) : (aesCipher key).Sized ∧ (aesCipher key).Invertible := by
  refine ⟨fun b _ => ⟨?_, ?_⟩, fun b hb => (C23_aes_inverse key b hb).1⟩
  · show (encipherAESBlock (setAESKey key) b).length = 16
    rw [aes_encipher]; rfl
  · show (decipherAESBlock (setAESKey key) b).length = 16
    rw [aes_decipher]; rfl

/-- So is ChaCha. -/
theorem chacha_sized_invertible (k : ChachaInfo) (key : List Byte) :
    (chachaCipher k key).Sized ∧ (chachaCipher k key).Invertible :=
  ⟨fun b hb => ⟨(C26_chacha_involution _ b hb).2.2, (C26_chacha_involution _ b hb).2.2⟩,
    fun b hb => (C26_chacha_involution _ b hb).1⟩

/-! ### The nonce -/

theorem acquire_wf (n : Nat) (s : StringInfo) (h : acquireStringInfo n = .ok s) :
    s.length = n ∧ s.datum.length = n + maxCipherBlocksize := by
  unfold acquireStringInfo at h
  split at h
  · injection h with h; subst h; simp
  · cases h

/-- **C68** (nonce) The library makes a nonce of one block for every mode, from random bytes; in CTR mode
only the first half is random and the rest, the counter, is zero. -/
theorem C68_generated_nonce (mode : CipherMode) (n : Nat) (hn : n ≤ maxCipherBlocksize) (draw : Nat → Byte) :
    ∃ r, generateCipherNonce mode n draw = .ok r ∧ r.WF ∧ r.length = n ∧
      (mode ≠ .ctr → r.bytes = (List.range n).map draw) ∧
      (mode = .ctr → r.bytes = (List.range ((n + 1) / 2)).map draw ++ List.replicate (n - (n + 1) / 2) 0) := by
  have hmax : maxCipherBlocksize = 128 := rfl
  have hs : n + maxCipherBlocksize < sizeMax := by
    unfold sizeMax
    omega
  unfold generateCipherNonce acquireStringInfo
  rw [if_pos hs]
  split
  · rename_i hm
    subst hm
    have e1 : resetStringInfo ⟨n, List.replicate (n + maxCipherBlocksize) 0⟩ =
        .ok ⟨n, List.replicate (n + maxCipherBlocksize) 0⟩ := by
      unfold resetStringInfo
      rw [wrN_ok (by simp)]
      simp [Nat.add_sub_cancel_left]
    simp only [Res.ok_bind, e1]
    rw [wrN_ok (by simp; omega)]
    refine ⟨_, rfl, ?_, rfl, by simp, fun _ => ?_⟩
    · simp [StringInfo.WF]; omega
    · simp only [StringInfo.bytes, List.take_zero, List.nil_append]
      rw [List.take_append, List.take_of_length_le (by simp; omega), List.length_map, List.length_range, Nat.zero_add,
        List.drop_replicate, List.take_replicate, Nat.min_eq_left (by omega)]
  · rename_i hm
    simp only [Res.ok_bind]
    rw [wrN_ok (by simp)]
    refine ⟨_, rfl, ?_, rfl, fun _ => ?_, fun h => absurd h hm⟩
    · simp [StringInfo.WF]
    · simp only [StringInfo.bytes, List.take_zero, List.nil_append]
      rw [List.take_append_of_le_length (by simp), List.take_of_length_le (by simp)]

/-- **C68** (life of a cipher) `AcquireCipherInfo` with AES or any other block cipher of at most 128 bytes
gives a cipher that is ready; `SetCipherNonce` and `ResetCipherNonce` keep it so and install the first
block of the given bytes, filled up with zeros (all zeros). -/
theorem C68_ready (b : BlockCipher) (h0 : 0 < b.blocksize) (h1 : b.blocksize ≤ maxCipherBlocksize)
    (hb : b.Sized) :
    (∀ mode draw random, ∃ c, acquireCipherInfo b mode draw random = .ok c ∧ c.Ready ∧ c.cipher = b) ∧
    (∀ c : CipherInfo, c.Ready → ∀ nonce : StringInfo, nonce.WF →
      ∃ c', setCipherNonce c nonce = .ok c' ∧ c'.Ready ∧ c'.cipher = c.cipher ∧
        c'.nonce.bytes = nonce.bytes.take c.cipher.blocksize ++
          List.replicate (c.cipher.blocksize - nonce.length) 0) ∧
    (∀ c : CipherInfo, c.Ready → ∃ c', resetCipherNonce c = .ok c' ∧ c'.Ready ∧ c'.cipher = c.cipher ∧
        c'.nonce.bytes = List.replicate c.cipher.blocksize 0) := by
  refine ⟨?_, ?_, ?_⟩
  · intro mode draw random
    obtain ⟨r, hr, hw, hl, _⟩ := C68_generated_nonce mode b.blocksize h1 draw
    exact ⟨⟨b, r, random⟩, by unfold acquireCipherInfo; rw [hr]; rfl, ⟨h0, h1, hw, hl, hb⟩, rfl⟩
  · intro c hc nonce hn
    obtain ⟨r, hr, hl, hdl, hby, _⟩ := setStringInfo_spec c.nonce nonce hc.nonce hn
    have hcw : c.nonce.length + maxCipherBlocksize ≤ c.nonce.datum.length := hc.nonce
    refine ⟨{ c with nonce := r }, by unfold setCipherNonce; rw [hr]; rfl,
      ⟨hc.pos, hc.le, ?_, by rw [hl]; exact hc.nonceLength, hc.sized⟩, rfl, ?_⟩
    · show r.length + maxCipherBlocksize ≤ r.datum.length
      omega
    · rw [← hc.nonceLength]; exact hby
  · intro c hc
    have hcw : c.nonce.length + maxCipherBlocksize ≤ c.nonce.datum.length := hc.nonce
    have hw : wrN c.nonce.datum 0 (List.replicate c.nonce.length 0) =
        .ok (List.replicate c.nonce.length 0 ++ c.nonce.datum.drop c.nonce.length) := by
      rw [wrN_ok (by simp; omega)]; simp
    refine ⟨{ c with nonce := ⟨c.nonce.length, List.replicate c.nonce.length 0 ++ c.nonce.datum.drop c.nonce.length⟩ },
      by unfold resetCipherNonce resetStringInfo; rw [hw]; rfl,
      ⟨hc.pos, hc.le, ?_, hc.nonceLength, hc.sized⟩, rfl, ?_⟩
    · show c.nonce.length + maxCipherBlocksize ≤ _
      simp; omega
    · simp only [StringInfo.bytes]
      rw [List.take_append_of_le_length (by simp), List.take_of_length_le (by simp), hc.nonceLength]

/-- A ready cipher and a message: AES with an arbitrary key, and every message the library makes. -/
example : ∃ c : CipherInfo, c.Ready ∧ c.cipher.Invertible ∧ c.cipher = aesCipher [1, 2, 3] :=
  let ⟨c, _, h, e⟩ := (C68_ready (aesCipher [1, 2, 3]) (by decide) (by decide) (aes_sized_invertible _).1).1
    .cbc (fun i => BitVec.ofNat 8 i) (fun _ => 7)
  ⟨c, h, e ▸ (aes_sized_invertible _).2, e⟩

example : (⟨20, List.replicate 148 5⟩ : StringInfo).WF := by simp [StringInfo.WF, maxCipherBlocksize]

/-! ### Encipherment and decipherment are the modes of SP 800-38A -/

/-- **C68** `EncipherCipher` computes, for every block cipher, key, nonce, mode and message, the mode of
NIST SP 800-38A on the message followed by the padding (none in CFB mode), writes the result over the
message and the slack behind it, leaves the rest alone and keeps the length. Only CTR mode can fail: when
the counter would wrap. -/
theorem C68_encipher (mode : CipherMode) (c : CipherInfo) (h : c.Ready) (s : StringInfo) (hs : s.WF) :
    ∃ m, m = s.bytes ++ (if mode = .cfb then [] else
        padding c.random (c.cipher.blocksize - s.length % c.cipher.blocksize)) ∧
      m.length ≤ s.length + c.cipher.blocksize ∧
      encipherCipher mode c s =
        if mode = .ctr ∧ 256 ^ c.cipher.blocksize ≤ beNat c.nonce.bytes + (s.length / c.cipher.blocksize + 1)
        then .fatal
        else .ok ⟨s.length,
          Modes.encipher mode c.cipher.encipher c.cipher.blocksize c.nonce.bytes m ++ s.datum.drop m.length⟩ := by
  obtain ⟨m, h1, h2, h3⟩ := encipher_modes mode c h s hs
  obtain ⟨d, _, _, h4, _⟩ := encipherMode_eq mode c h s hs
  exact ⟨m, h1, by omega, h3⟩

/-- **C68** `DecipherCipher` computes the inverse mode on the whole blocks that cover the message. -/
theorem C68_decipher (mode : CipherMode) (c : CipherInfo) (h : c.Ready) (s : StringInfo) (hs : s.WF)
    (hlen : s.length ≠ 0) :
    ∃ m, m = s.datum.take (covered mode c.cipher.blocksize s.length) ∧
      m.length = covered mode c.cipher.blocksize s.length ∧
      decipherCipher mode c s =
        if mode = .ctr ∧
          256 ^ c.cipher.blocksize ≤ beNat c.nonce.bytes + (s.length + c.cipher.blocksize - 1) / c.cipher.blocksize
        then .fatal
        else .ok ⟨s.length,
          Modes.decipher mode c.cipher.encipher c.cipher.decipher c.cipher.blocksize c.nonce.bytes m ++
            s.datum.drop m.length⟩ :=
  decipher_modes mode c h s hs hlen

/-! ### Round trip -/

/-- **C27** Deciphering what was enciphered gives the message: for every invertible block cipher, key,
nonce, mode and message. The deciphering side may be another object with the same key and nonce, and of
the enciphered buffer it needs only the whole blocks that cover the message. -/
theorem C27_round_trip (mode : CipherMode) (c c' : CipherInfo) (h : c.Ready) (hi : c.cipher.Invertible)
    (hc : c'.cipher = c.cipher) (hn : c'.nonce = c.nonce)
    (s s' t : StringInfo) (hs : s.WF) (he : encipherCipher mode c s = .ok s')
    (ht : t.WF) (hl : t.length = s'.length)
    (hd : t.datum.take (covered mode c.cipher.blocksize s.length) =
      s'.datum.take (covered mode c.cipher.blocksize s.length)) :
    ∃ r, decipherCipher mode c' t = .ok r ∧ r.length = s.length ∧ r.bytes = s.bytes := by
  have hr' : c'.Ready := ⟨hc ▸ h.pos, hc ▸ h.le, hn ▸ h.nonce, by rw [hn, hc]; exact h.nonceLength, hc ▸ h.sized⟩
  have hw : s.length + maxCipherBlocksize ≤ s.datum.length := hs
  have hwt : t.length + maxCipherBlocksize ≤ t.datum.length := ht
  obtain ⟨d, h1, h2, h3, h4, h5, h6, h7⟩ := encipherMode_eq mode c h s hs
  have hlen := (encipher_byte mode c h s s' hs he).1
  have hpos : 0 < modeStride mode c.cipher := by have := h.pos; unfold modeStride; split <;> omega
  have hle := h.le
  have hk := (mode_keeps mode c.cipher h.sized h.pos).1
  have hsz := chunks_size (modeStride mode c.cipher) (encTurns mode c.cipher s.length) d (by omega)
  have hle' : modeStride mode c.cipher ≤ maxCipherBlocksize := by have := h.le; have := h.pos; unfold modeStride; split <;> omega
  have hroom := turns_lt (modeStride mode c.cipher) s.length hpos
  have hge := turns_ge (modeStride mode c.cipher) s.length hpos
  have htt : turns (modeStride mode c.cipher) s.length ≤ encTurns mode c.cipher s.length := by
    apply Nat.le_of_lt_succ
    apply Nat.lt_of_mul_lt_mul_left (a := modeStride mode c.cipher)
    rw [Nat.mul_succ]
    omega
  rw [he] at h7
  cases hr : runSteps (encStep mode c.cipher) (startReg mode c)
          (chunks (modeStride mode c.cipher) (encTurns mode c.cipher s.length) d) with
  | ub => rw [hr] at h7; cases h7
  | fatal => rw [hr] at h7; cases h7
  | ok r =>
    rw [hr, Res.ok_bind] at h7
    injection h7 with h7
    obtain ⟨hr1, hr2⟩ := runSteps_length hk _ _ _ (startReg_inv mode c h) hsz hr
    rw [chunks_length] at hr1
    have hreg : startReg mode c' = startReg mode c := by unfold startReg; rw [hc, hn]
    rw [decipherMode_eq mode c' hr' t ht, hc, hreg, hl, hlen]
    rw [covered_eq] at hd
    have hcong : chunks (modeStride mode c.cipher) (turns (modeStride mode c.cipher) s.length) t.datum =
        r.take (turns (modeStride mode c.cipher) s.length) := by
      rw [chunks_congr _ _ t.datum s'.datum hd, h7]
      exact chunks_flatten_append _ _ _ hr2 _ (by omega)
    rw [hcong, runSteps_undo hk (mode_undoes mode c.cipher h.sized hi) _ _ _ (startReg_inv mode c h) hsz hr,
      chunks_take _ _ _ _ htt, Res.ok_bind]
    refine ⟨_, rfl, rfl, ?_⟩
    simp only [StringInfo.bytes]
    rw [chunks_flatten, List.take_append_of_le_length (by rw [List.length_take]; omega), List.take_take,
      Nat.min_eq_left hge, h2]

/-- **C27** In the modes CFB, CTR and OFB the enciphered bytes of the message length suffice. -/
theorem C27_stream_round_trip (mode : CipherMode) (hm : mode = .cfb ∨ mode = .ctr ∨ mode = .ofb)
    (c c' : CipherInfo) (h : c.Ready) (hi : c.cipher.Invertible) (hc : c'.cipher = c.cipher) (hn : c'.nonce = c.nonce)
    (s s' t : StringInfo) (hs : s.WF) (he : encipherCipher mode c s = .ok s')
    (ht : t.WF) (hl : t.length = s'.length) (hd : t.bytes = s'.bytes) :
    ∃ r, decipherCipher mode c' t = .ok r ∧ r.length = s.length ∧ r.bytes = s.bytes := by
  have hlen := encipher_byte mode c h s s' hs he
  have hbt : t.datum.take s.length = s'.datum.take s.length := by
    have := hd
    rw [StringInfo.bytes, StringInfo.bytes, hl, hlen.1] at this
    exact this
  have hw : s.length + maxCipherBlocksize ≤ s.datum.length := hs
  have hwt : t.length + maxCipherBlocksize ≤ t.datum.length := ht
  by_cases hcfb : mode = .cfb
  · refine C27_round_trip mode c c' h hi hc hn s s' t hs he ht hl ?_
    rw [show covered mode c.cipher.blocksize s.length = s.length by unfold covered; rw [if_pos hcfb]]
    exact hbt
  · have hws' : s'.WF := by
      show s'.length + maxCipherBlocksize ≤ s'.datum.length
      rw [hlen.1, hlen.2.1]; exact hw
    obtain ⟨r0, hr0, hr0l, hr0b⟩ := C27_round_trip mode c c' h hi hc hn s s' s' hs he hws' rfl rfl
    have hr' : c'.Ready := ⟨hc ▸ h.pos, hc ▸ h.le, hn ▸ h.nonce, by rw [hn, hc]; exact h.nonceLength, hc ▸ h.sized⟩
    have hst : modeStride mode c'.cipher = c'.cipher.blocksize := if_neg hcfb
    have hle := hr'.le
    have hroom := turns_lt c'.cipher.blocksize s.length hr'.pos
    have hge := turns_ge c'.cipher.blocksize s.length hr'.pos
    have hlt : t.length = s.length := by rw [hl, hlen.1]
    have hsd := hlen.2.1
    have hiv : (startReg mode c').length = c'.cipher.blocksize := by
      have := startReg_inv mode c' hr'
      rcases hm with rfl | rfl | rfl
      · exact absurd rfl hcfb
      · rcases this with h | h
        · cases h
        · exact h
      · rcases this with h | h
        · cases h
        · exact h
    have hstream : ∃ f, Stream c'.cipher.blocksize (fun st => st.length = c'.cipher.blocksize) (decStep mode c'.cipher) f := by
      rcases hm with rfl | rfl | rfl
      · exact absurd rfl hcfb
      · exact ⟨_, ctr_stream c'.cipher hr'.sized⟩
      · exact ⟨_, ofb_stream c'.cipher hr'.sized⟩
    obtain ⟨f, hf⟩ := hstream
    rw [decipherMode_eq mode c' hr' s' hws', hst, hlen.1] at hr0
    rw [decipherMode_eq mode c' hr' t ht, hst, hlt]
    cases hr : runSteps (decStep mode c'.cipher) (startReg mode c')
        (chunks c'.cipher.blocksize (turns c'.cipher.blocksize s.length) s'.datum) with
    | ub => rw [hr] at hr0; cases hr0
    | fatal => rw [hr] at hr0; cases hr0
    | ok r =>
      rw [hr, Res.ok_bind] at hr0
      injection hr0 with hr0
      obtain ⟨r', hr'1, hr'2⟩ := stream_prefix hf _
        (chunks c'.cipher.blocksize (turns c'.cipher.blocksize s.length) t.datum) s.length _ r hiv
        (by rw [chunks_length, chunks_length]) (chunks_size _ _ _ (by omega)) (chunks_size _ _ _ (by omega))
        (by rw [chunks_flatten, chunks_flatten, List.take_take, List.take_take, Nat.min_eq_left hge]; exact hbt.symm) hr
      rw [hr'1, Res.ok_bind]
      refine ⟨_, rfl, rfl, ?_⟩
      rw [← hr0b, ← hr0]
      have hk : KeepsSize c'.cipher.blocksize (ModeInv mode c'.cipher) (decStep mode c'.cipher) := by
        have := (mode_keeps mode c'.cipher hr'.sized hr'.pos).2
        rwa [hst] at this
      have q1 := runSteps_length hk _ _ _ (startReg_inv mode c' hr') (chunks_size _ _ _ (by omega)) hr
      have q2 := runSteps_length hk _ _ _ (startReg_inv mode c' hr') (chunks_size _ _ _ (by omega)) hr'1
      rw [chunks_length] at q1 q2
      have q1' := flatten_length r q1.2
      have q2' := flatten_length r' q2.2
      rw [q1.1] at q1'
      rw [q2.1] at q2'
      simp only [StringInfo.bytes]
      rw [List.take_append_of_le_length (by omega), List.take_append_of_le_length (by omega), hr'2]

/-- **C27** for AES: whatever the key, mode, nonce and message, the round trip is exact. -/
theorem C27_aes (mode : CipherMode) (key : List Byte) (c : CipherInfo) (h : c.Ready) (hc : c.cipher = aesCipher key)
    (s s' : StringInfo) (hs : s.WF) (he : encipherCipher mode c s = .ok s') :
    ∃ r, decipherCipher mode c s' = .ok r ∧ r.length = s.length ∧ r.bytes = s.bytes := by
  have hlen := encipher_byte mode c h s s' hs he
  have hw : s.length + maxCipherBlocksize ≤ s.datum.length := hs
  exact C27_round_trip mode c c h (hc ▸ (aes_sized_invertible key).2) rfl rfl s s' s' hs he
    (by show s'.length + maxCipherBlocksize ≤ s'.datum.length; rw [hlen.1, hlen.2.1]; exact hw) rfl rfl

/-- **C27** for ChaCha. -/
theorem C27_chacha (mode : CipherMode) (k : ChachaInfo) (key : List Byte) (c : CipherInfo) (h : c.Ready)
    (hc : c.cipher = chachaCipher k key) (s s' : StringInfo) (hs : s.WF) (he : encipherCipher mode c s = .ok s') :
    ∃ r, decipherCipher mode c s' = .ok r ∧ r.length = s.length ∧ r.bytes = s.bytes := by
  have hlen := encipher_byte mode c h s s' hs he
  have hw : s.length + maxCipherBlocksize ≤ s.datum.length := hs
  exact C27_round_trip mode c c h (hc ▸ (chacha_sized_invertible k key).2) rfl rfl s s' s' hs he
    (by show s'.length + maxCipherBlocksize ≤ s'.datum.length; rw [hlen.1, hlen.2.1]; exact hw) rfl rfl

/-! ### Bounds -/

/-- **C28** Encipherment of any byte string the library makes never leaves the allocation (`ub`), keeps
its length and size, and changes nothing beyond one block behind the message. -/
theorem C28_encipher_bounds (mode : CipherMode) (c : CipherInfo) (h : c.Ready) (s : StringInfo) (hs : s.WF) :
    (∃ s', encipherCipher mode c s = .ok s' ∧ s'.length = s.length ∧ s'.datum.length = s.datum.length ∧
      s'.datum.drop (s.length + c.cipher.blocksize) = s.datum.drop (s.length + c.cipher.blocksize)) ∨
    (mode = .ctr ∧ encipherCipher mode c s = .fatal) := by
  obtain ⟨m, h1, h2, h3⟩ := C68_encipher mode c h s hs
  by_cases hf : mode = .ctr ∧ 256 ^ c.cipher.blocksize ≤ beNat c.nonce.bytes + (s.length / c.cipher.blocksize + 1)
  · right; exact ⟨hf.1, by rw [h3, if_pos hf]⟩
  · left
    rw [if_neg hf] at h3
    obtain ⟨e1, e2, _⟩ := encipher_byte mode c h s _ hs h3
    refine ⟨_, h3, e1, e2, ?_⟩
    have hw : s.length + maxCipherBlocksize ≤ s.datum.length := hs
    have hle := h.le
    simp only [List.length_append, List.length_drop] at e2
    have hlen : (Modes.encipher mode c.cipher.encipher c.cipher.blocksize c.nonce.bytes m).length = m.length := by
      omega
    simp only
    rw [List.drop_append, List.drop_eq_nil_of_le (by omega), List.nil_append, List.drop_drop, hlen]
    congr 1
    omega

/-- **C28** Decipherment stays inside the allocation as well. -/
theorem C28_decipher_bounds (mode : CipherMode) (c : CipherInfo) (h : c.Ready) (s : StringInfo) (hs : s.WF) :
    (∃ s', decipherCipher mode c s = .ok s' ∧ s'.length = s.length ∧ s'.datum.length = s.datum.length ∧
      s'.datum.drop (s.length + c.cipher.blocksize) = s.datum.drop (s.length + c.cipher.blocksize)) ∨
    (mode = .ctr ∧ decipherCipher mode c s = .fatal) := by
  have hw : s.length + maxCipherBlocksize ≤ s.datum.length := hs
  have hle := h.le
  have hp := h.pos
  have hpos : 0 < modeStride mode c.cipher := by unfold modeStride; split <;> omega
  have hle' : modeStride mode c.cipher ≤ c.cipher.blocksize := by unfold modeStride; split <;> omega
  have hroom := turns_lt (modeStride mode c.cipher) s.length hpos
  have hk := (mode_keeps mode c.cipher h.sized h.pos).2
  rw [decipherMode_eq mode c h s hs]
  cases hr : runSteps (decStep mode c.cipher) (startReg mode c)
      (chunks (modeStride mode c.cipher) (turns (modeStride mode c.cipher) s.length) s.datum) with
  | ub => exact absurd hr (runSteps_noUb (mode_noUb mode c.cipher).2 _ _)
  | fatal =>
    right
    refine ⟨?_, rfl⟩
    apply Classical.byContradiction
    intro hm
    obtain ⟨r, hr'⟩ := runSteps_total (mode_total mode c.cipher hm).2 (chunks (modeStride mode c.cipher)
      (turns (modeStride mode c.cipher) s.length) s.datum) (startReg mode c)
    rw [hr'] at hr; cases hr
  | ok r =>
    left
    obtain ⟨q1, q2⟩ := runSteps_length hk _ _ _ (startReg_inv mode c h) (chunks_size _ _ _ (by omega)) hr
    have q3 := flatten_length r q2
    rw [q1, chunks_length] at q3
    refine ⟨_, rfl, rfl, ?_, ?_⟩
    · simp only; rw [List.length_append, List.length_drop]; omega
    · simp only
      rw [List.drop_append, List.drop_eq_nil_of_le (by omega), List.nil_append, List.drop_drop]
      congr 1
      omega

/-- C28's slack is needed: on a byte string without it every mode that pads writes out of bounds. -/
theorem C28_slack_is_needed (mode : CipherMode) (hm : mode ≠ .cfb) (c : CipherInfo) (h : c.Ready) (s : StringInfo)
    (hs : s.datum.length = s.length) : encipherCipher mode c s = .ub := by
  have hpad : padBuffer c s = .ub := by
    unfold padBuffer
    have hmod := Nat.mod_lt s.length h.pos
    rw [if_neg (by have := h.pos; omega)]
    generalize hp : c.cipher.blocksize - s.length % c.cipher.blocksize = pad
    have h1 : 1 ≤ pad := by omega
    by_cases h2 : pad = 1
    · subst h2
      have e1 : wrN s.datum s.length ((List.range (1 - 1)).map c.random) = .ok s.datum := by
        rw [wrN_ok (by simp [hs])]; simp
      have e2 : wr s.datum (s.length + (1 - 1)) (BitVec.ofNat 8 (1 - 1)) = .ub := by
        unfold wr; rw [if_neg (by omega)]
      simp only [e1, Res.ok_bind, e2]
      rfl
    · have : wrN s.datum s.length ((List.range (pad - 1)).map c.random) = .ub := by
        unfold wrN; rw [if_neg (by simp; omega)]
      simp only [this]
      rfl
  have hp : ∀ step st, encipherPadded c s step st = .ub := by
    intro step st; unfold encipherPadded; rw [hpad]; rfl
  obtain ⟨st, h1, _, _⟩ := loadNonce_ok c h.pos h.le h.nonce
  cases mode with
  | cfb => exact absurd rfl hm
  | _ => simp only [encipherCipher, h1, Res.ok_bind, hp]

/-! ### Counters -/

/-- **C29** Within one message, CTR mode never uses a counter block twice: byte `i` of the message is
xored with byte `i mod n` of the encipherment of the counter block for the number `N + i/n`, where `N` is
the nonce read as a big-endian number; these blocks are pairwise distinct, none is skipped, and when the
counter would wrap the call ends with a fatal error instead. -/
theorem C29_counters (c : CipherInfo) (h : c.Ready) (s : StringInfo) (hs : s.WF) :
    (256 ^ c.cipher.blocksize ≤ beNat c.nonce.bytes + (s.length / c.cipher.blocksize + 1) ∧
      encipherCipher .ctr c s = .fatal) ∨
    ∃ s', encipherCipher .ctr c s = .ok s' ∧ s'.length = s.length ∧
      (∀ i, i < s.length → s'.bytes.getD i 0 = s.bytes.getD i 0 ^^^
        (c.cipher.encipher (Modes.counterBlock c.cipher.blocksize (beNat c.nonce.bytes + i / c.cipher.blocksize))).getD
          (i % c.cipher.blocksize) 0) ∧
      ∀ i j, i ≤ s.length / c.cipher.blocksize → j ≤ s.length / c.cipher.blocksize →
        Modes.counterBlock c.cipher.blocksize (beNat c.nonce.bytes + i) =
          Modes.counterBlock c.cipher.blocksize (beNat c.nonce.bytes + j) → i = j := by
  obtain ⟨m, h1, h2, h3⟩ := C68_encipher .ctr c h s hs
  by_cases hf : 256 ^ c.cipher.blocksize ≤ beNat c.nonce.bytes + (s.length / c.cipher.blocksize + 1)
  · left; exact ⟨hf, by rw [h3, if_pos ⟨rfl, hf⟩]⟩
  · right
    rw [if_neg (by simp [hf])] at h3
    obtain ⟨e1, _, e2, _⟩ := encipher_byte .ctr c h s _ hs h3
    refine ⟨_, h3, e1, e2 rfl, ?_⟩
    intro i j hi hj e
    have := congrArg beNat e
    rw [beNat_counterBlock _ _ (by omega), beNat_counterBlock _ _ (by omega)] at this
    omega

/-- Both cases of C29 occur: a nonce of all ones has no block left. -/
example : 256 ^ 16 ≤ beNat (List.replicate 16 (255 : Byte)) + (20 / 16 + 1) ∧
    ¬ 256 ^ 16 ≤ beNat (List.replicate 16 (7 : Byte)) + (20 / 16 + 1) := by decide +kernel

/-- **C69** is false: two messages enciphered one after the other under one cipher in CTR or OFB mode use
the same keystream (`EncipherCipher` starts from the nonce each time and does not advance it), so the xor
of the two ciphertexts is the xor of the two messages, whatever the key. The `encipher` utility calls
`EncipherCipher` once for every chunk of a file. -/
theorem C69_keystream_reuse_violated (mode : CipherMode) (hm : mode = .ctr ∨ mode = .ofb) (c c' : CipherInfo)
    (h : c.Ready) (hc : c'.cipher = c.cipher) (hn : c'.nonce = c.nonce) (s s' t t' : StringInfo) (hs : s.WF) (ht : t.WF)
    (h1 : encipherCipher mode c s = .ok s') (h2 : encipherCipher mode c' t = .ok t') :
    ∀ i, i < s.length → i < t.length →
      s'.bytes.getD i 0 ^^^ t'.bytes.getD i 0 = s.bytes.getD i 0 ^^^ t.bytes.getD i 0 := by
  have hr' : c'.Ready := ⟨hc ▸ h.pos, hc ▸ h.le, hn ▸ h.nonce, by rw [hn, hc]; exact h.nonceLength, hc ▸ h.sized⟩
  obtain ⟨_, _, a1, a2⟩ := encipher_byte mode c h s s' hs h1
  obtain ⟨_, _, b1, b2⟩ := encipher_byte mode c' hr' t t' ht h2
  have x : ∀ a b k : Byte, (a ^^^ k) ^^^ (b ^^^ k) = a ^^^ b := by
    intro a b k
    rw [BitVec.xor_comm b k, BitVec.xor_assoc, ← BitVec.xor_assoc k k, BitVec.xor_self, BitVec.zero_xor]
  intro i hi hj
  rcases hm with rfl | rfl
  · rw [a1 rfl i hi, b1 rfl i hj, hc, hn, x]
  · rw [a2 rfl i hi, b2 rfl i hj, hc, hn, x]

/-! ### ChaCha as a block cipher -/

/-- **C31** is false in ECB mode: every 64-byte block of a message is xored with the same 64 bytes, so
bytes 64 apart show the xor of the two message bytes. (In CBC mode the same keystream is added to
the xor of a block and the ciphertext before it.) -/
theorem C31_chacha_ecb_violated (k : ChachaInfo) (key : List Byte) (c : CipherInfo) (h : c.Ready)
    (hc : c.cipher = chachaCipher k key) (s : StringInfo) (hs : s.WF) :
    ∃ s' K, encipherCipher .ecb c s = .ok s' ∧
      ∀ i, i < s.length → s'.bytes.getD i 0 = s.bytes.getD i 0 ^^^ List.getD K (i % 64) 0 := by
  obtain ⟨s', d, h1, h2, h3, h4, h5⟩ := encipher_ecb_byte c h s hs
  refine ⟨s', chachaStream (setChachaKey k key), h1, ?_⟩
  intro i hi
  have hw : s.length + maxCipherBlocksize ≤ s.datum.length := hs
  have hmax : maxCipherBlocksize = 128 := rfl
  have hbs : c.cipher.blocksize = 64 := by rw [hc]; rfl
  have h5 := h5 i hi
  rw [hbs] at h5
  have hl : ((d.drop (64 * (i / 64))).take 64).length = 64 := by
    rw [List.length_take, List.length_drop]; omega
  have he : c.cipher.encipher = encipherChachaBlock (setChachaKey k key) := by rw [hc]; rfl
  rw [he, encipherChacha_xor _ _ hl] at h5
  rw [h5]
  have := xorBlock_getD ((d.drop (64 * (i / 64))).take 64) (chachaStream (setChachaKey k key))
    (by rw [hl, chachaStream_length]) (i % 64)
  unfold xorBlock at this
  rw [this]
  congr 1
  rw [List.getD_eq_getElem?_getD, List.getElem?_take_of_lt (by omega), List.getElem?_drop,
    show 64 * (i / 64) + i % 64 = i by omega, bytes_getD s i hi, List.getD_eq_getElem?_getD]
  have e : d[i]? = s.datum[i]? := by
    rw [← List.getElem?_take_of_lt hi, h3, List.getElem?_take_of_lt hi]
  rw [e]

/-- **C31** is false in CTR mode: since a ChaCha "block" is just xored with one fixed keystream, byte `i`
is xored with the public counter byte and the same key byte for all blocks, so bytes 64 apart show the
xor of the two message bytes up to public values. -/
theorem C31_chacha_ctr_violated (k : ChachaInfo) (key : List Byte) (c : CipherInfo) (h : c.Ready)
    (hc : c.cipher = chachaCipher k key) (s s' : StringInfo) (hs : s.WF) (he : encipherCipher .ctr c s = .ok s') :
    ∃ K, ∀ i, i < s.length → s'.bytes.getD i 0 = s.bytes.getD i 0 ^^^
      ((Modes.counterBlock 64 (beNat c.nonce.bytes + i / 64)).getD (i % 64) 0 ^^^ List.getD K (i % 64) 0) := by
  refine ⟨chachaStream (setChachaKey k key), ?_⟩
  obtain ⟨_, _, e, _⟩ := encipher_byte .ctr c h s s' hs he
  have hbs : c.cipher.blocksize = 64 := by rw [hc]; rfl
  have hE : c.cipher.encipher = encipherChachaBlock (setChachaKey k key) := by rw [hc]; rfl
  intro i hi
  have := e rfl i hi
  rw [hbs, hE] at this
  rw [this]
  have hl : (Modes.counterBlock 64 (beNat c.nonce.bytes + i / 64)).length = 64 := counterBlock_length _ _
  generalize Modes.counterBlock 64 (beNat c.nonce.bytes + i / 64) = b at hl ⊢
  refine congrArg (s.bytes.getD i 0 ^^^ ·) ?_
  rw [encipherChacha_xor _ _ hl]
  exact xorBlock_getD b _ (by rw [hl, chachaStream_length]) _

theorem iter_involution {E : List Byte → List Byte} {n : Nat}
    (hE : ∀ b, b.length = n → E (E b) = b) (j : Nat) :
    ∀ b, b.length = n → iter E (2 * j) b = b := by
  induction j with
  | zero => intro b _; rfl
  | succ j ih =>
    intro b hb
    show iter E (2 * j) (E (E b)) = b
    rw [hE b hb, ih b hb]

/-- **C31** is false in OFB mode, and worse: every second block is xored with the public nonce alone,
so anybody can read half of a message, whatever the key. -/
theorem C31_chacha_ofb_violated (k : ChachaInfo) (key : List Byte) (c : CipherInfo) (h : c.Ready)
    (hc : c.cipher = chachaCipher k key) (s s' : StringInfo) (hs : s.WF) (he : encipherCipher .ofb c s = .ok s') :
    ∀ i, i < s.length → i / 64 % 2 = 1 →
      s'.bytes.getD i 0 = s.bytes.getD i 0 ^^^ c.nonce.bytes.getD (i % 64) 0 := by
  obtain ⟨_, _, _, e⟩ := encipher_byte .ofb c h s s' hs he
  have hbs : c.cipher.blocksize = 64 := by rw [hc]; rfl
  have hE : c.cipher.encipher = encipherChachaBlock (setChachaKey k key) := by rw [hc]; rfl
  have hivl : c.nonce.bytes.length = 64 := by
    have hn := h.nonce
    have : c.nonce.length + maxCipherBlocksize ≤ c.nonce.datum.length := hn
    rw [StringInfo.bytes, List.length_take, h.nonceLength, hbs]
    rw [h.nonceLength, hbs] at this
    omega
  intro i hi hodd
  have := e rfl i hi
  rw [hbs, hE] at this
  rw [this]
  have h2 : i / 64 + 1 = 2 * ((i / 64 + 1) / 2) := by omega
  rw [h2, iter_involution (fun b hb => (C26_chacha_involution _ b hb).2.1) _ _ hivl]

/-- A ready ChaCha cipher and a message of more than one block. -/
example : ∃ c : CipherInfo, c.Ready ∧ c.cipher = chachaCipher acquireChachaInfo (List.replicate 32 9) :=
  let ⟨c, _, h, e⟩ := (C68_ready (chachaCipher acquireChachaInfo (List.replicate 32 9)) (by decide) (by decide)
    (chacha_sized_invertible _ _).1).1 .ofb (fun i => BitVec.ofNat 8 i) (fun _ => 7)
  ⟨c, h, e⟩

example : (⟨200, List.replicate 328 5⟩ : StringInfo).WF ∧ 100 / 64 % 2 = 1 :=
  ⟨by rw [StringInfo.WF, List.length_replicate]; decide, by decide⟩

end Wizard.Props

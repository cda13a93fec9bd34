import Verif.Lemmas.Cipher
/-! The loops of the cipher modes are the equations of SP 800-38A. -/
namespace Wizard
open Spec

theorem blocks_chunks (size n : Nat) (m : List Byte) : Modes.blocks size n m = chunks size n m := by
  induction n generalizing m with
  | zero => rfl
  | succ n ih => rw [Modes.blocks, chunks, ih]

theorem run_ecb (c : BlockCipher) (bl : List (List Byte)) (st : List Byte) :
    runSteps (ecbEncStep c) st bl = .ok (Modes.ecb c.encipher bl) := by
  induction bl with
  | nil => rfl
  | cons b bl ih => simp only [runSteps, ecbEncStep, Res.ok_bind]; rw [ih]; rfl

theorem run_ecbDec (c : BlockCipher) (bl : List (List Byte)) (st : List Byte) :
    runSteps (ecbDecStep c) st bl = .ok (Modes.ecb c.decipher bl) := by
  induction bl with
  | nil => rfl
  | cons b bl ih => simp only [runSteps, ecbDecStep, Res.ok_bind]; rw [ih]; rfl

theorem run_cbc (c : BlockCipher) (bl : List (List Byte)) : ∀ st,
    runSteps (cbcEncStep c) st bl = .ok (Modes.cbc c.encipher st bl) := by
  induction bl with
  | nil => intro st; rfl
  | cons b bl ih => intro st; simp only [runSteps, cbcEncStep, Res.ok_bind]; rw [ih]; rfl

theorem run_cbcDec (c : BlockCipher) (bl : List (List Byte)) : ∀ st,
    runSteps (cbcDecStep c) st bl = .ok (Modes.cbcInv c.decipher st bl) := by
  induction bl with
  | nil => intro st; rfl
  | cons b bl ih => intro st; simp only [runSteps, cbcDecStep, Res.ok_bind]; rw [ih]; rfl

theorem run_ofb (c : BlockCipher) (bl : List (List Byte)) : ∀ st,
    runSteps (ofbStep c) st bl = .ok (Modes.ofb c.encipher st bl) := by
  induction bl with
  | nil => intro st; rfl
  | cons b bl ih => intro st; simp only [runSteps, ofbStep, Res.ok_bind]; rw [ih]; rfl

theorem headD_getD (l : List Byte) : l.getD 0 0 = l.headD 0 := by cases l <;> rfl

theorem run_cfb (c : BlockCipher) (bl : List (List Byte)) : ∀ st, (∀ b ∈ bl, b.length = 1) →
    ∃ r, runSteps (cfbEncStep c) st bl = .ok r ∧ r.flatten = Modes.cfb8 c.encipher st bl.flatten := by
  induction bl with
  | nil => intro st _; exact ⟨[], rfl, rfl⟩
  | cons b bl ih =>
    intro st h
    obtain ⟨x, rfl⟩ := List.length_eq_one_iff.1 (h b (by simp))
    obtain ⟨r, h1, h2⟩ := ih (st.drop 1 ++ [x ^^^ (c.encipher st).getD 0 0]) (fun y hy => h y (by simp [hy]))
    simp only [runSteps, cfbEncStep, Res.ok_bind, List.getD_cons_zero]
    refine ⟨_, by rw [h1]; rfl, ?_⟩
    rw [List.flatten_cons, h2, headD_getD, List.drop_one]
    rfl

theorem run_cfbDec (c : BlockCipher) (bl : List (List Byte)) : ∀ st, (∀ b ∈ bl, b.length = 1) →
    ∃ r, runSteps (cfbDecStep c) st bl = .ok r ∧ r.flatten = Modes.cfb8Inv c.encipher st bl.flatten := by
  induction bl with
  | nil => intro st _; exact ⟨[], rfl, rfl⟩
  | cons b bl ih =>
    intro st h
    obtain ⟨x, rfl⟩ := List.length_eq_one_iff.1 (h b (by simp))
    obtain ⟨r, h1, h2⟩ := ih (st.drop 1 ++ [x]) (fun y hy => h y (by simp [hy]))
    simp only [runSteps, cfbDecStep, Res.ok_bind, List.getD_cons_zero]
    refine ⟨_, by rw [h1]; rfl, ?_⟩
    rw [List.flatten_cons, h2, headD_getD, List.drop_one]
    rfl

theorem counterBlock_length (size n : Nat) : (Modes.counterBlock size n).length = size := by
  simp [Modes.counterBlock]

theorem counterBlock_succ (size a : Nat) (x : Byte) :
    Modes.counterBlock (size + 1) (256 * a + x.toNat) = Modes.counterBlock size a ++ [x] := by
  unfold Modes.counterBlock
  have hx : x.toNat < 256 := x.isLt
  rw [List.range_succ, List.map_append]
  congr 1
  · apply List.map_congr_left
    intro i hi
    have hi := List.mem_range.1 hi
    rw [show size + 1 - 1 - i = (size - 1 - i) + 1 by omega, Nat.pow_succ', ← Nat.div_div_eq_div_mul,
      show (256 * a + x.toNat) / 256 = a by omega]
  · simp only [List.map_cons, List.map_nil, Nat.add_sub_cancel, Nat.sub_self, Nat.pow_zero, Nat.div_one]
    congr 1
    apply BitVec.eq_of_toNat_eq
    rw [BitVec.toNat_ofNat]
    omega

theorem counterBlock_beNat (b : List Byte) : ∀ n, b.length = n → Modes.counterBlock n (beNat b) = b := by
  intro n
  induction n generalizing b with
  | zero => intro h; rw [List.eq_nil_of_length_eq_zero h]; rfl
  | succ n ih =>
    intro h
    obtain ⟨q, x, rfl⟩ : ∃ q x, b = q ++ [x] := by
      rcases List.eq_nil_or_concat b with h' | ⟨q, x, h'⟩
      · simp [h'] at h
      · exact ⟨q, x, by simpa using h'⟩
    rw [beNat_append, counterBlock_succ, ih q (by simpa using h)]

theorem run_ctr (c : BlockCipher) (bl : List (List Byte)) : ∀ st, st.length = c.blocksize → bl ≠ [] →
    runSteps (ctrStep c) st bl =
      if 256 ^ c.blocksize ≤ beNat st + bl.length then .fatal
      else .ok (Modes.ctr c.encipher c.blocksize (beNat st) bl) := by
  induction bl with
  | nil => intro st _ h; exact absurd rfl h
  | cons b bl ih =>
    intro st hst _
    have hspec := incrementNonce_spec c.blocksize st [] hst
    rw [List.append_nil] at hspec
    simp only [runSteps, ctrStep]
    have hc : Modes.counterBlock c.blocksize (beNat st + 0) = st := counterBlock_beNat st _ hst
    rcases hspec with ⟨h1, h2⟩ | ⟨p', h1, h2, h3, h4⟩
    · rw [h1, if_pos (by simp only [List.length_cons]; omega)]
      rfl
    · rw [List.append_nil] at h1
      rw [h1]
      simp only [Res.ok_bind]
      cases bl with
      | nil =>
        rw [if_neg (by simp only [List.length_cons, List.length_nil]; omega)]
        simp only [runSteps, Res.ok_bind, Modes.ctr, List.mapIdx_cons, List.mapIdx_nil, hc]
        rfl
      | cons b2 bl =>
        rw [ih p' h2 (by simp), h3]
        simp only [List.length_cons]
        by_cases hf : 256 ^ c.blocksize ≤ beNat st + 1 + (bl.length + 1)
        · rw [if_pos hf, if_pos (by omega)]
          rfl
        · rw [if_neg hf, if_neg (by omega)]
          simp only [Res.ok_bind]
          congr 1
          unfold Modes.ctr
          rw [List.mapIdx_cons (l := b2 :: bl), hc]
          congr 1
          congr 1
          funext i p
          rw [Nat.add_assoc, Nat.add_comm 1 i]

theorem mul_div_self' {k : Nat} (h : 0 < k) (n : Nat) : k * n / k = n := Nat.mul_div_cancel_left n h

/-- Encipherment in every mode, in terms of SP 800-38A. -/
theorem encipher_modes (mode : CipherMode) (c : CipherInfo) (h : c.Ready) (s : StringInfo) (hs : s.WF) :
    ∃ m, m = s.bytes ++ (if mode = .cfb then [] else
        padding c.random (c.cipher.blocksize - s.length % c.cipher.blocksize)) ∧
      m.length = modeStride mode c.cipher * encTurns mode c.cipher s.length ∧
      encipherCipher mode c s =
        if mode = .ctr ∧ 256 ^ c.cipher.blocksize ≤ beNat c.nonce.bytes + (s.length / c.cipher.blocksize + 1) then .fatal
        else .ok ⟨s.length,
          Modes.encipher mode c.cipher.encipher c.cipher.blocksize c.nonce.bytes m ++ s.datum.drop m.length⟩ := by
  obtain ⟨d, h1, h2, h3, h4, h5, h6, h7⟩ := encipherMode_eq mode c h s hs
  have hw : s.length + maxCipherBlocksize ≤ s.datum.length := hs
  have hp := h.pos
  have hle := h.le
  refine ⟨_, rfl, ?_, ?_⟩
  · have := congrArg List.length h6
    rw [List.length_take, h1, Nat.min_eq_left (by omega)] at this
    exact this.symm
  have hm : d.take (modeStride mode c.cipher * encTurns mode c.cipher s.length) =
      s.bytes ++ (if mode = .cfb then [] else
        padding c.random (c.cipher.blocksize - s.length % c.cipher.blocksize)) := h6
  generalize hM : s.bytes ++ (if mode = .cfb then [] else
        padding c.random (c.cipher.blocksize - s.length % c.cipher.blocksize)) = M at hm ⊢
  have hl : M.length = modeStride mode c.cipher * encTurns mode c.cipher s.length := by
    rw [← hm, List.length_take, h1, Nat.min_eq_left (by omega)]
  have hch : chunks (modeStride mode c.cipher) (encTurns mode c.cipher s.length) d =
      chunks (modeStride mode c.cipher) (encTurns mode c.cipher s.length) M := by
    apply chunks_congr
    rw [hm, ← hl, List.take_length]
  have hiv : c.nonce.datum.take c.cipher.blocksize = c.nonce.bytes := by
    rw [StringInfo.bytes, h.nonceLength]
  have hivl : c.nonce.bytes.length = c.cipher.blocksize := by
    have : c.nonce.length + maxCipherBlocksize ≤ c.nonce.datum.length := h.nonce
    rw [StringInfo.bytes, List.length_take, h.nonceLength]; omega
  rw [h7, hch, ← hl]
  by_cases hc : mode = .cfb
  · subst hc
    rw [if_neg (by simp)]
    have hs1 : ∀ b ∈ chunks 1 (encTurns .cfb c.cipher s.length) M, b.length = 1 :=
      chunks_size _ _ _ (by rw [hl]; exact Nat.le_refl _)
    obtain ⟨r, hr1, hr2⟩ := run_cfb c.cipher _ (startReg .cfb c) hs1
    have : runSteps (encStep .cfb c.cipher) (startReg .cfb c)
        (chunks (modeStride .cfb c.cipher) (encTurns .cfb c.cipher s.length) M) = .ok r := hr1
    rw [this, Res.ok_bind, hr2, chunks_flatten]
    have e : M.take (1 * encTurns .cfb c.cipher s.length) = M := by
      rw [show 1 * encTurns .cfb c.cipher s.length = M.length from hl.symm, List.take_length]
    rw [e]
    simp only [startReg, hiv, Modes.encipher]
    rfl
  · have hst : modeStride mode c.cipher = c.cipher.blocksize := if_neg hc
    have het : encTurns mode c.cipher s.length = s.length / c.cipher.blocksize + 1 := if_neg hc
    have hn : M.length / c.cipher.blocksize = encTurns mode c.cipher s.length := by
      rw [hl, hst, mul_div_self' hp]
    rw [hst]
    cases mode with
    | cfb => exact absurd rfl hc
    | ecb =>
      rw [if_neg (by simp)]
      simp only [Modes.encipher, hn, blocks_chunks, encStep, run_ecb, Res.ok_bind]
    | cbc =>
      rw [if_neg (by simp)]
      simp only [Modes.encipher, hn, blocks_chunks, encStep, run_cbc, Res.ok_bind, startReg]
      simp only [hiv, reduceCtorEq, ite_false]
    | ofb =>
      rw [if_neg (by simp)]
      simp only [Modes.encipher, hn, blocks_chunks, encStep, run_ofb, Res.ok_bind, startReg]
      simp only [hiv, reduceCtorEq, ite_false]
    | ctr =>
      have hreg : startReg .ctr c = c.nonce.bytes := by
        simp only [startReg, hiv, reduceCtorEq, ite_false]
      simp only [true_and, Modes.encipher, hn, blocks_chunks, encStep, hreg]
      rw [run_ctr _ _ _ hivl (by rw [het]; simp [chunks]), chunks_length, het]
      by_cases hf : 256 ^ c.cipher.blocksize ≤ beNat c.nonce.bytes + (s.length / c.cipher.blocksize + 1)
      · rw [if_pos hf, if_pos hf]; rfl
      · rw [if_neg hf, if_neg hf]; rfl

theorem covered_eq (mode : CipherMode) (c : BlockCipher) (len : Nat) :
    covered mode c.blocksize len = modeStride mode c * turns (modeStride mode c) len := by
  unfold covered modeStride
  split
  · rw [turns_one, Nat.one_mul]
  · rw [turns, Nat.mul_comm]

/-- Decipherment in every mode, in terms of SP 800-38A. -/
theorem decipher_modes (mode : CipherMode) (c : CipherInfo) (h : c.Ready) (s : StringInfo) (hs : s.WF)
    (hlen : s.length ≠ 0) :
    ∃ m, m = s.datum.take (covered mode c.cipher.blocksize s.length) ∧
      m.length = covered mode c.cipher.blocksize s.length ∧
      decipherCipher mode c s =
        if mode = .ctr ∧ 256 ^ c.cipher.blocksize ≤ beNat c.nonce.bytes + (s.length + c.cipher.blocksize - 1) / c.cipher.blocksize
        then .fatal
        else .ok ⟨s.length,
          Modes.decipher mode c.cipher.encipher c.cipher.decipher c.cipher.blocksize c.nonce.bytes m ++
            s.datum.drop m.length⟩ := by
  have hw : s.length + maxCipherBlocksize ≤ s.datum.length := hs
  have hp := h.pos
  have hle := h.le
  have hpos : 0 < modeStride mode c.cipher := by unfold modeStride; split <;> omega
  have hle' : modeStride mode c.cipher ≤ maxCipherBlocksize := by unfold modeStride; split <;> omega
  have hroom := turns_lt (modeStride mode c.cipher) s.length hpos
  have hl : (s.datum.take (covered mode c.cipher.blocksize s.length)).length =
      modeStride mode c.cipher * turns (modeStride mode c.cipher) s.length := by
    rw [covered_eq, List.length_take, Nat.min_eq_left (by omega)]
  refine ⟨_, rfl, by rw [hl, covered_eq], ?_⟩
  generalize hM : s.datum.take (covered mode c.cipher.blocksize s.length) = M at hl ⊢
  have hch : chunks (modeStride mode c.cipher) (turns (modeStride mode c.cipher) s.length) s.datum =
      chunks (modeStride mode c.cipher) (turns (modeStride mode c.cipher) s.length) M := by
    apply chunks_congr
    rw [← hM, covered_eq, List.take_take, Nat.min_self]
  have hiv : c.nonce.datum.take c.cipher.blocksize = c.nonce.bytes := by
    rw [StringInfo.bytes, h.nonceLength]
  have hivl : c.nonce.bytes.length = c.cipher.blocksize := by
    have : c.nonce.length + maxCipherBlocksize ≤ c.nonce.datum.length := h.nonce
    rw [StringInfo.bytes, List.length_take, h.nonceLength]; omega
  rw [decipherMode_eq mode c h s hs, hch, ← hl]
  by_cases hc : mode = .cfb
  · subst hc
    rw [if_neg (by simp)]
    have hs1 : ∀ b ∈ chunks 1 (turns 1 s.length) M, b.length = 1 :=
      chunks_size _ _ _ (by rw [hl]; exact Nat.le_refl _)
    obtain ⟨r, hr1, hr2⟩ := run_cfbDec c.cipher _ (startReg .cfb c) hs1
    have : runSteps (decStep .cfb c.cipher) (startReg .cfb c)
        (chunks (modeStride .cfb c.cipher) (turns (modeStride .cfb c.cipher) s.length) M) = .ok r := hr1
    rw [this, Res.ok_bind, hr2, chunks_flatten]
    have e : M.take (1 * turns 1 s.length) = M := by
      rw [show 1 * turns 1 s.length = M.length from hl.symm, List.take_length]
    rw [e]
    simp only [startReg, hiv, Modes.decipher]
    rfl
  · have hst : modeStride mode c.cipher = c.cipher.blocksize := if_neg hc
    have hn : M.length / c.cipher.blocksize = turns c.cipher.blocksize s.length := by
      rw [hl, hst, mul_div_self' hp]
    rw [hst]
    cases mode with
    | cfb => exact absurd rfl hc
    | ecb =>
      rw [if_neg (by simp)]
      simp only [Modes.decipher, hn, blocks_chunks, decStep, run_ecbDec, Res.ok_bind]
    | cbc =>
      rw [if_neg (by simp)]
      simp only [Modes.decipher, hn, blocks_chunks, decStep, run_cbcDec, Res.ok_bind, startReg]
      simp only [hiv, reduceCtorEq, ite_false]
    | ofb =>
      rw [if_neg (by simp)]
      simp only [Modes.decipher, hn, blocks_chunks, decStep, run_ofb, Res.ok_bind, startReg]
      simp only [hiv, reduceCtorEq, ite_false]
    | ctr =>
      have hreg : startReg .ctr c = c.nonce.bytes := by
        simp only [startReg, hiv, reduceCtorEq, ite_false]
      have ht : 0 < turns c.cipher.blocksize s.length := Nat.div_pos (by omega) hp
      simp only [true_and, Modes.decipher, hn, blocks_chunks, decStep, hreg]
      rw [run_ctr _ _ _ hivl (by intro h0; have := congrArg List.length h0; rw [chunks_length] at this; simp at this; omega), chunks_length]
      change (if 256 ^ c.cipher.blocksize ≤ beNat c.nonce.bytes + turns c.cipher.blocksize s.length then _ else _) >>= _ =
        if 256 ^ c.cipher.blocksize ≤ beNat c.nonce.bytes + turns c.cipher.blocksize s.length then _ else _
      by_cases hf : 256 ^ c.cipher.blocksize ≤ beNat c.nonce.bytes + turns c.cipher.blocksize s.length
      · rw [if_pos hf, if_pos hf]; rfl
      · rw [if_neg hf, if_neg hf]; rfl

/-! ### Single bytes of the mode equations -/

theorem beNat_counterBlock (size : Nat) : ∀ n, n < 256 ^ size → beNat (Modes.counterBlock size n) = n := by
  induction size with
  | zero => intro n h; simp at h; subst h; rfl
  | succ size ih =>
    intro n h
    have hb : (BitVec.ofNat 8 (n % 256)).toNat = n % 256 := by rw [BitVec.toNat_ofNat]; omega
    have e : n = 256 * (n / 256) + (BitVec.ofNat 8 (n % 256)).toNat := by rw [hb]; omega
    rw [Nat.pow_succ] at h
    rw [e, counterBlock_succ, beNat_append, ih _ (by omega), hb]

theorem getD_mapIdx {α β : Type} (f : Nat → α → β) (l : List α) (j : Nat) (h : j < l.length) (a : α) (b : β) :
    (l.mapIdx f).getD j b = f j (l.getD j a) := by
  simp [List.getD_eq_getElem?_getD, List.getElem?_mapIdx, List.getElem?_eq_getElem h]

theorem ctr_getD (E : List Byte → List Byte) {size : Nat} (hs : 0 < size)
    (hE : ∀ b, b.length = size → (E b).length = size) (t : Nat) (bl : List (List Byte))
    (hb : ∀ b ∈ bl, b.length = size) (x : List Byte) (i : Nat) (hi : i < size * bl.length) :
    ((Modes.ctr E size t bl).flatten ++ x).getD i 0 =
      (bl.getD (i / size) []).getD (i % size) 0 ^^^
        (E (Modes.counterBlock size (t + i / size))).getD (i % size) 0 := by
  have hj : i / size < bl.length := by rwa [Nat.div_lt_iff_lt_mul hs, Nat.mul_comm]
  have hbj : (bl.getD (i / size) []).length = size := by
    rw [List.getD_eq_getElem?_getD, List.getElem?_eq_getElem hj]; exact hb _ (List.getElem_mem hj)
  have hlen : (Modes.ctr E size t bl).length = bl.length := by simp [Modes.ctr]
  rw [flatten_getD hs _ ?_ x i (by rw [hlen]; exact hi)]
  · unfold Modes.ctr
    rw [getD_mapIdx _ _ _ hj []]
    exact xorBlock_getD _ _ (by rw [hbj, hE _ (counterBlock_length _ _)]) _
  · intro b hb'
    obtain ⟨j, hjl, rfl⟩ := List.getElem_of_mem hb'
    simp only [Modes.ctr, List.getElem_mapIdx]
    have : (Modes.xor bl[j] (E (Modes.counterBlock size (t + j)))).length = size := by
      rw [show Modes.xor = xorBlock from rfl, xorBlock_length, hE _ (counterBlock_length _ _),
        hb _ (List.getElem_mem _)]; omega
    exact this

theorem ecb_getD (E : List Byte → List Byte) {size : Nat} (hs : 0 < size)
    (hE : ∀ b, b.length = size → (E b).length = size) (bl : List (List Byte))
    (hb : ∀ b ∈ bl, b.length = size) (x : List Byte) (i : Nat) (hi : i < size * bl.length) :
    ((Modes.ecb E bl).flatten ++ x).getD i 0 = (E (bl.getD (i / size) [])).getD (i % size) 0 := by
  have hj : i / size < bl.length := by rwa [Nat.div_lt_iff_lt_mul hs, Nat.mul_comm]
  rw [flatten_getD hs _ ?_ x i (by simpa [Modes.ecb] using hi)]
  · simp [Modes.ecb, List.getD_eq_getElem?_getD, List.getElem?_eq_getElem hj]
  · intro b hb'
    obtain ⟨b', h1, rfl⟩ := List.mem_map.1 hb'
    exact hE _ (hb _ h1)

/-- `n` applications of the block function. -/
def iter (E : List Byte → List Byte) : Nat → List Byte → List Byte
  | 0, b => b
  | n + 1, b => iter E n (E b)

theorem iter_length {E : List Byte → List Byte} {size : Nat} (hE : ∀ b, b.length = size → (E b).length = size) (n : Nat) :
    ∀ b, b.length = size → (iter E n b).length = size := by
  induction n with
  | zero => intro b h; exact h
  | succ n ih => intro b h; exact ih _ (hE b h)

theorem ofb_blocks (E : List Byte → List Byte) {size : Nat}
    (hE : ∀ b, b.length = size → (E b).length = size) (bl : List (List Byte)) : ∀ iv, iv.length = size →
    (∀ b ∈ bl, b.length = size) → (Modes.ofb E iv bl).length = bl.length ∧
      (∀ b ∈ Modes.ofb E iv bl, b.length = size) ∧
      ∀ j, j < bl.length → (Modes.ofb E iv bl).getD j [] = xorBlock (bl.getD j []) (iter E (j + 1) iv) := by
  induction bl with
  | nil => intro iv _ _; exact ⟨rfl, by simp [Modes.ofb], by simp⟩
  | cons b bl ih =>
    intro iv hiv hb
    obtain ⟨h1, h2, h3⟩ := ih (E iv) (hE iv hiv) (fun x hx => hb x (by simp [hx]))
    refine ⟨by simp [Modes.ofb, h1], ?_, ?_⟩
    · intro x hx
      rcases List.mem_cons.1 hx with rfl | hx
      · rw [show Modes.xor = xorBlock from rfl, xorBlock_length, hE iv hiv, hb b (by simp)]; omega
      · exact h2 x hx
    · intro j hj
      cases j with
      | zero => rfl
      | succ j => exact h3 j (by simpa using hj)

theorem ofb_getD (E : List Byte → List Byte) {size : Nat} (hs : 0 < size)
    (hE : ∀ b, b.length = size → (E b).length = size) (iv : List Byte) (hiv : iv.length = size) (bl : List (List Byte))
    (hb : ∀ b ∈ bl, b.length = size) (x : List Byte) (i : Nat) (hi : i < size * bl.length) :
    ((Modes.ofb E iv bl).flatten ++ x).getD i 0 =
      (bl.getD (i / size) []).getD (i % size) 0 ^^^ (iter E (i / size + 1) iv).getD (i % size) 0 := by
  have hj : i / size < bl.length := by rwa [Nat.div_lt_iff_lt_mul hs, Nat.mul_comm]
  obtain ⟨h1, h2, h3⟩ := ofb_blocks E hE bl iv hiv hb
  have hbj : (bl.getD (i / size) []).length = size := by
    rw [List.getD_eq_getElem?_getD, List.getElem?_eq_getElem hj]; exact hb _ (List.getElem_mem hj)
  rw [flatten_getD hs _ h2 x i (by rw [h1]; exact hi), h3 _ hj]
  exact xorBlock_getD _ _ (by rw [hbj, iter_length hE _ _ hiv]) _

theorem bytes_getD (s : StringInfo) (i : Nat) (h : i < s.length) : s.bytes.getD i 0 = s.datum.getD i 0 := by
  rw [StringInfo.bytes, List.getD_eq_getElem?_getD, List.getElem?_take_of_lt h, ← List.getD_eq_getElem?_getD]

/-- What every byte of a message becomes in a mode other than CFB and CBC. -/
theorem encipher_byte (mode : CipherMode) (c : CipherInfo) (h : c.Ready) (s s' : StringInfo) (hs : s.WF)
    (he : encipherCipher mode c s = .ok s') :
    s'.length = s.length ∧ s'.datum.length = s.datum.length ∧
    (mode = .ctr → ∀ i, i < s.length → s'.bytes.getD i 0 = s.bytes.getD i 0 ^^^
        (c.cipher.encipher (Modes.counterBlock c.cipher.blocksize (beNat c.nonce.bytes + i / c.cipher.blocksize))).getD
          (i % c.cipher.blocksize) 0) ∧
    (mode = .ofb → ∀ i, i < s.length → s'.bytes.getD i 0 = s.bytes.getD i 0 ^^^
        (iter c.cipher.encipher (i / c.cipher.blocksize + 1) c.nonce.bytes).getD (i % c.cipher.blocksize) 0) := by
  obtain ⟨m, hm, hml, heq⟩ := encipher_modes mode c h s hs
  rw [he] at heq
  have hw : s.length + maxCipherBlocksize ≤ s.datum.length := hs
  obtain ⟨d, h1, h2, h3, h4, h5, h6, h7⟩ := encipherMode_eq mode c h s hs
  have hE : ∀ b, b.length = c.cipher.blocksize → (c.cipher.encipher b).length = c.cipher.blocksize :=
    fun b hb => (h.sized b hb).1
  have hle := h.le
  have hivl : c.nonce.bytes.length = c.cipher.blocksize := by
    have : c.nonce.length + maxCipherBlocksize ≤ c.nonce.datum.length := h.nonce
    rw [StringInfo.bytes, List.length_take, h.nonceLength]; omega
  have hmi : ∀ i, i < s.length → m.getD i 0 = s.bytes.getD i 0 := by
    intro i hi
    rw [hm, List.getD_eq_getElem?_getD, List.getElem?_append_left (by
      rw [StringInfo.bytes, List.length_take]; omega), ← List.getD_eq_getElem?_getD]
  have hlens : s'.length = s.length ∧ s'.datum.length = s.datum.length := by
    rw [he] at h7
    have hk := (mode_keeps mode c.cipher h.sized h.pos).1
    cases hr : runSteps (encStep mode c.cipher) (startReg mode c)
          (chunks (modeStride mode c.cipher) (encTurns mode c.cipher s.length) d) with
    | ub => rw [hr] at h7; cases h7
    | fatal => rw [hr] at h7; cases h7
    | ok r =>
      rw [hr, Res.ok_bind] at h7
      injection h7 with h7
      obtain ⟨hr1, hr2⟩ := runSteps_length hk _ _ _ (startReg_inv mode c h) (chunks_size _ _ _ (by omega)) hr
      rw [h7]
      refine ⟨rfl, ?_⟩
      simp only
      rw [List.length_append, flatten_length r hr2, hr1, chunks_length, List.length_drop]
      omega
  refine ⟨hlens.1, hlens.2, ?_, ?_⟩
  · rintro rfl i hi
    split at heq
    · cases heq
    · injection heq with heq
      rw [bytes_getD s' i (by rw [hlens.1]; exact hi), heq]
      have hst : modeStride .ctr c.cipher = c.cipher.blocksize := rfl
      rw [hst] at hml
      have hn : m.length / c.cipher.blocksize = encTurns .ctr c.cipher s.length := by
        rw [hml, mul_div_self' h.pos]
      have hroom : i < c.cipher.blocksize * encTurns .ctr c.cipher s.length := by rw [hst] at h4; omega
      simp only [Modes.encipher, blocks_chunks, hn]
      rw [ctr_getD _ h.pos hE _ _ (chunks_size _ _ _ (by omega)) _ i (by rw [chunks_length]; exact hroom),
        chunks_getD h.pos _ _ (by omega) i hroom, hmi i hi]
  · rintro rfl i hi
    rw [if_neg (by simp)] at heq
    injection heq with heq
    rw [bytes_getD s' i (by rw [hlens.1]; exact hi), heq]
    have hst : modeStride .ofb c.cipher = c.cipher.blocksize := rfl
    rw [hst] at hml
    have hn : m.length / c.cipher.blocksize = encTurns .ofb c.cipher s.length := by
      rw [hml, mul_div_self' h.pos]
    have hroom : i < c.cipher.blocksize * encTurns .ofb c.cipher s.length := by rw [hst] at h4; omega
    simp only [Modes.encipher, blocks_chunks, hn]
    rw [ofb_getD _ h.pos hE _ hivl _ (chunks_size _ _ _ (by omega)) _ i (by rw [chunks_length]; exact hroom),
      chunks_getD h.pos _ _ (by omega) i hroom, hmi i hi]

/-- What every block of a message becomes in ECB mode. -/
theorem encipher_ecb_byte (c : CipherInfo) (h : c.Ready) (s : StringInfo) (hs : s.WF) :
    ∃ (s' : StringInfo) (d : List Byte), encipherCipher .ecb c s = .ok s' ∧ s'.length = s.length ∧ d.take s.length = s.datum.take s.length ∧
      d.length = s.datum.length ∧
    ∀ i, i < s.length → s'.bytes.getD i 0 =
      (c.cipher.encipher ((d.drop (c.cipher.blocksize * (i / c.cipher.blocksize))).take c.cipher.blocksize)).getD
        (i % c.cipher.blocksize) 0 := by
  have hw : s.length + maxCipherBlocksize ≤ s.datum.length := hs
  obtain ⟨d, h1, h2, h3, h4, h5, h6, h7⟩ := encipherMode_eq .ecb c h s hs
  have hE : ∀ b, b.length = c.cipher.blocksize → (c.cipher.encipher b).length = c.cipher.blocksize :=
    fun b hb => (h.sized b hb).1
  have hle := h.le
  have hst : modeStride .ecb c.cipher = c.cipher.blocksize := rfl
  rw [hst] at h7 h4 h3
  rw [show encStep .ecb c.cipher = ecbEncStep c.cipher from rfl, run_ecb, Res.ok_bind] at h7
  refine ⟨_, d, h7, rfl, h2, h1, ?_⟩
  intro i hi
  have hroom : i < c.cipher.blocksize * encTurns .ecb c.cipher s.length := by omega
  rw [bytes_getD _ i (by exact hi)]
  simp only
  rw [ecb_getD _ h.pos hE _ (chunks_size _ _ _ (by omega)) _ i (by rw [chunks_length]; exact hroom)]
  congr 2
  have : ∀ (k n : Nat) (m : List Byte), k < n → (chunks c.cipher.blocksize n m).getD k [] =
      (m.drop (c.cipher.blocksize * k)).take c.cipher.blocksize := by
    intro k n
    induction n generalizing k with
    | zero => intro m hk; omega
    | succ n ih =>
      intro m hk
      cases k with
      | zero => simp [chunks]
      | succ k =>
        rw [chunks, List.getD_cons_succ, ih k _ (by omega), List.drop_drop]
        congr 2
        rw [Nat.mul_succ, Nat.add_comm]
  exact this _ _ _ (by rwa [Nat.div_lt_iff_lt_mul h.pos, Nat.mul_comm])

end Wizard

import Verif.Lemmas.ContentEnd
/-! A file that ends with a chunk, in CTR mode and without HMACs: the block of padding behind the last chunk. -/
namespace Wizard.ContentP
open Wizard Wizard.Spec.Content Wizard.Props Wizard.Spec

theorem blocks_succ (size : Nat) : ∀ (n : Nat) (m : List Byte), Modes.blocks size (n + 1) m = Modes.blocks size n m ++ [(m.drop (n * size)).take size] := by
  intro n
  induction n with
  | zero => intro m; simp [Modes.blocks]
  | succ n ih =>
    intro m
    rw [Modes.blocks, ih, Modes.blocks, List.drop_drop, Nat.add_mul, Nat.one_mul, Nat.add_comm size]
    rfl

theorem blocks_length (size : Nat) : ∀ (n : Nat) (m : List Byte), (Modes.blocks size n m).length = n := by
  intro n
  induction n with
  | zero => intro m; rfl
  | succ n ih => intro m; rw [Modes.blocks, List.length_cons, ih]

theorem xor_getD (a b : List Byte) (i : Nat) (ha : i < a.length) (hb : i < b.length) : (Modes.xor a b).getD i 0 = a.getD i 0 ^^^ b.getD i 0 := by
  unfold Modes.xor
  rw [List.getD_eq_getElem?_getD, List.getD_eq_getElem?_getD, List.getD_eq_getElem?_getD, List.getElem?_zipWith, List.getElem?_eq_getElem ha, List.getElem?_eq_getElem hb]
  rfl

theorem ctr_flatten_length (E : List Byte → List Byte) (size t : Nat) (hE : ∀ b, b.length = size → (E b).length = size) : ∀ (n : Nat) (m : List Byte), n * size ≤ m.length →
    (Modes.ctr E size t (Modes.blocks size n m)).flatten.length = n * size := by
  intro n
  induction n with
  | zero => intro m _; simp [Modes.blocks, Modes.ctr]
  | succ n ih =>
    intro m hm
    rw [Nat.add_mul, Nat.one_mul] at hm
    have := ih m (by omega)
    unfold Modes.ctr at this ⊢
    rw [blocks_succ, List.mapIdx_concat, List.flatten_append, List.length_append, this, Nat.add_mul, Nat.one_mul]
    congr 1
    simp only [List.flatten_cons, List.flatten_nil, List.append_nil, Modes.xor, List.length_zipWith, List.length_take, List.length_drop]
    rw [hE _ (by simp [Modes.counterBlock])]
    omega

/-- The last block of CTR mode. -/
theorem ctr_last (E : List Byte → List Byte) (size t n : Nat) (hE : ∀ b, b.length = size → (E b).length = size) (m : List Byte) (hm : m.length = (n + 1) * size) :
    (Modes.ctr E size t (Modes.blocks size (n + 1) m)).flatten.drop (n * size) = Modes.xor (m.drop (n * size)) (E (Modes.counterBlock size (t + n))) := by
  rw [Nat.add_mul, Nat.one_mul] at hm
  have := ctr_flatten_length E size t hE n m (by omega)
  unfold Modes.ctr at this ⊢
  rw [blocks_succ, List.mapIdx_concat, List.flatten_append, List.drop_left' this, blocks_length, List.take_of_length_le (by rw [List.length_drop]; omega)]
  simp

/-- The block behind a full chunk. -/
theorem sealed_last {ci : Content} (hs : Sound ci) {k : Nat} {x s : List Byte} (hseal : Sealed ci k x s) (hm : ci.mode = .ctr) (hen : ci.entropy = none) {q : Nat}
    (hx : x.length = q * ci.cipher.cipher.blocksize) :
    s.drop (q * ci.cipher.cipher.blocksize) = Modes.xor (padOf ci k x.length)
      (ci.cipher.cipher.encipher (Modes.counterBlock ci.cipher.cipher.blocksize (beNat ci.cipher.nonce.bytes + q))) := by
  have hpos := hs.ready.pos
  obtain ⟨t, t', h1, h2, h3, h4⟩ := hseal
  have hf : filled ci k x = x := by unfold filled; rw [hen]
  rw [hf] at h2
  have hl : t.length = x.length := by rw [← StringInfo.bytes_length h1, h2]
  obtain ⟨mm, e1, _, e3⟩ := encipher_modes ci.mode _ (ready_with ci.cipher hs.ready (ci.pads k)) t h1
  rw [h3] at e3
  have hpad : (padOf ci k x.length).length = ci.cipher.cipher.blocksize := by
    rw [padOf_length ci k _ hpos, hm, if_neg (by decide), hx, Nat.mul_mod_left, Nat.sub_zero]
  have hmm : mm = x ++ padOf ci k x.length := by
    rw [e1, h2, hl]
    rfl
  have hml : mm.length = (q + 1) * ci.cipher.cipher.blocksize := by rw [hmm, List.length_append, hpad, hx, Nat.add_mul, Nat.one_mul]
  split at e3
  · cases e3
  · cases e3
    simp only [] at h4
    have hlen := ctr_flatten_length ci.cipher.cipher.encipher ci.cipher.cipher.blocksize (beNat ci.cipher.nonce.bytes) (fun b hb => (hs.ready.sized b hb).1) (q + 1) mm (by omega)
    have henc : Modes.encipher ci.mode ci.cipher.cipher.encipher ci.cipher.cipher.blocksize ci.cipher.nonce.bytes mm =
        (Modes.ctr ci.cipher.cipher.encipher ci.cipher.cipher.blocksize (beNat ci.cipher.nonce.bytes) (Modes.blocks ci.cipher.cipher.blocksize (q + 1) mm)).flatten := by
      rw [hm]
      show (Modes.ctr _ _ _ (Modes.blocks _ (mm.length / _) mm)).flatten = _
      rw [hml, Nat.mul_div_cancel _ hpos]
    rw [henc] at h4
    rw [h4, List.take_left' (by rw [hlen, hpad, hx, Nat.add_mul, Nat.one_mul]),
      ctr_last _ _ _ _ (fun b hb => (hs.ready.sized b hb).1) _ hml, hmm, List.drop_left' hx]

/-- One block deciphered. -/
theorem decipher_block {c : CipherInfo} (hr : c.Ready) (u : StringInfo) (hu : u.WF) (hl : u.length = c.cipher.blocksize) :
    decipherCipher .ctr c u = .fatal ∨ ∃ r, decipherCipher .ctr c u = .ok r ∧ r.length = u.length ∧ r.datum.length = u.datum.length ∧
      r.bytes = Modes.xor u.bytes (c.cipher.encipher (Modes.counterBlock c.cipher.blocksize (beNat c.nonce.bytes))) := by
  have hpos := hr.pos
  have hu' : u.length + maxCipherBlocksize ≤ u.datum.length := hu
  obtain ⟨mm, e1, e2, e3⟩ := C68_decipher .ctr c hr u hu (by omega)
  have hcov : covered .ctr c.cipher.blocksize u.length = c.cipher.blocksize := by
    unfold covered
    simp only [reduceCtorEq, if_false]
    rw [hl, show c.cipher.blocksize + c.cipher.blocksize - 1 = (c.cipher.blocksize - 1) + c.cipher.blocksize by omega, Nat.add_div_right _ hpos, Nat.div_eq_of_lt (by omega)]
    simp
  rw [hcov] at e1 e2
  rw [e3]
  split
  · exact .inl rfl
  · right
    have hlen := ctr_flatten_length c.cipher.encipher c.cipher.blocksize (beNat c.nonce.bytes) (fun b hb => (hr.sized b hb).1) 1 mm (by omega)
    have hd : Modes.decipher .ctr c.cipher.encipher c.cipher.decipher c.cipher.blocksize c.nonce.bytes mm =
        Modes.xor u.bytes (c.cipher.encipher (Modes.counterBlock c.cipher.blocksize (beNat c.nonce.bytes))) := by
      show (Modes.ctr _ _ _ (Modes.blocks _ (mm.length / _) mm)).flatten = _
      rw [e2, Nat.div_self hpos]
      have := ctr_last c.cipher.encipher c.cipher.blocksize (beNat c.nonce.bytes) 0 (fun b hb => (hr.sized b hb).1) mm (by omega)
      rw [Nat.zero_mul, List.drop_zero, List.drop_zero] at this
      rw [this, e1, ← hl]
      rfl
    have hdl : (Modes.decipher .ctr c.cipher.encipher c.cipher.decipher c.cipher.blocksize c.nonce.bytes mm).length = c.cipher.blocksize := by
      rw [hd]
      simp only [Modes.xor, List.length_zipWith, StringInfo.bytes_length hu]
      rw [(hr.sized _ (by simp [Modes.counterBlock])).1]
      omega
    refine ⟨_, rfl, rfl, ?_, ?_⟩
    · simp only [List.length_append, List.length_drop]
      omega
    · rw [← hd]
      show List.take u.length (_ ++ _) = _
      exact List.take_left' (by omega)

/-- The block behind the last chunk, deciphered as if it were the first of a chunk, leaves something to write. -/
theorem stray_block {ci : Content} (hs : Usable ci) (hm : ci.mode = .ctr) (hh : ci.hmac = none) (hen : ci.entropy = none) (hmul : ci.chunksize % ci.cipher.cipher.blocksize = 0)
    {c : List Byte} {p : Nat} {b : Blob} (hat : At c p false b) {z : List Byte} (hz : c.drop p = z) (hzl : z.length = ci.cipher.cipher.blocksize)
    (hb : (Modes.xor z (ci.cipher.cipher.encipher (Modes.counterBlock ci.cipher.cipher.blocksize (beNat ci.cipher.nonce.bytes)))).getD (ci.cipher.cipher.blocksize - 1) 0 ≠
      BitVec.ofNat 8 (ci.cipher.cipher.blocksize - 1))
    (fuel : Nat) (o : List Byte) (h t : StringInfo) (hw : h.WF) (hl : h.length = tagSize ci) (st : Bool) (out : Blob)
    (hd : decipherLoop ci (fuel + 1) b (.file ⟨o, o.length, false⟩) h t = .ok (st, out)) :
    ∃ y, y ≠ [] ∧ out = .file ⟨o ++ y, (o ++ y).length, false⟩ := by
  have hcs := hs.chunk
  have hpos := hs.ready.pos
  have hle := hs.ready.le
  have hcb : ci.cipher.cipher.blocksize ≤ ci.chunksize := Nat.le_of_dvd hcs.1 (Nat.dvd_of_mod_eq_zero hmul)
  have hncf : ci.mode ≠ .cfb := by rw [hm]; decide
  have hrs : readSize ci = ci.chunksize := by
    unfold readSize
    rw [if_neg hncf, (chunkPad_zero ci hpos).2 hmul, Nat.add_zero]
  have hlen : c.length - p = z.length := at_len hz
  rw [decipherLoop] at hd
  have r1 : getTag ci b h = .ok (some (b, h)) := by unfold getTag; rw [hh]
  have r2 : getEntropy ci b = .ok (false, b) := by unfold getEntropy; rw [hen]
  rw [r1, Res.ok_bind] at hd
  simp only [] at hd
  rw [r2, Res.ok_bind] at hd
  have hrd : (if ci.mode = .cfb then ci.chunksize else ci.chunksize + chunkPad ci) = readSize ci := rfl
  simp only [hrd] at hd
  obtain ⟨t1, r3, l3, d3, k3⟩ := resize_ok t (readSize ci) ci.junk (by omega)
  obtain ⟨b3, r4, a4⟩ := chunk_spec hat (readSize ci) 3 (by omega)
  rw [r3, Res.ok_bind, r4, Res.ok_bind] at hd
  simp only [hz] at hd
  rw [List.take_of_length_le (by omega), if_neg (by omega)] at hd
  unfold maxCipherBlocksize at hle
  obtain ⟨d, w3, w4, w5, _⟩ := write_prefix (d := t1.datum) (x := z) (by omega)
  rw [w3, Res.ok_bind] at hd
  obtain ⟨t2, r5, l5, d5, k5⟩ := resize_ok ({ t1 with datum := d } : StringInfo) z.length ci.junk (by omega)
  rw [r5, Res.ok_bind] at hd
  have hw2 : t2.WF := by
    show _ ≤ _
    omega
  have hb2 : t2.bytes = z := by
    unfold StringInfo.bytes
    rw [l5, k5 z.length (by simp only []; omega) (by omega)]
    exact w5
  rw [hm] at hd
  rcases decipher_block hs.ready t2 hw2 (by omega) with hdc | ⟨t3, r6, l6, d6, e6⟩
  · rw [hdc] at hd
    cases hd
  · rw [r6, Res.ok_bind] at hd
    have hw6 : t3.length + maxCipherBlocksize ≤ t3.datum.length := by
      have : t2.length + maxCipherBlocksize ≤ t2.datum.length := hw2
      omega
    have hw6' : t3.WF := hw6
    have hst : ∃ n, stripPad ci (eofBlob b3) t3 = .ok n ∧ n ≠ 0 := by
      unfold stripPad
      split
      · have hlt : t3.length - 1 < t3.datum.length := by omega
        unfold rd
        rw [List.getElem?_eq_getElem hlt]
        refine ⟨_, rfl, ?_⟩
        have hg : t3.datum[t3.length - 1] ≠ BitVec.ofNat 8 (ci.cipher.cipher.blocksize - 1) := by
          intro heq
          apply hb
          rw [← hb2, ← e6, List.getD_eq_getElem?_getD]
          unfold StringInfo.bytes
          rw [List.getElem?_take, if_pos (by omega), show ci.cipher.cipher.blocksize - 1 = t3.length - 1 by omega, List.getElem?_eq_getElem hlt]
          show t3.datum[t3.length - 1] = _
          rw [heq]
          congr 1
          omega
        have hgn : t3.datum[t3.length - 1].toNat ≠ ci.cipher.cipher.blocksize - 1 := by
          intro heq
          apply hg
          rw [← heq]
          simp
        have hlt256 := t3.datum[t3.length - 1].isLt
        rw [sizeMax_val]
        omega
      · exact ⟨_, rfl, by omega⟩
    obtain ⟨n, r7, hn0⟩ := hst
    rw [r7, Res.ok_bind] at hd
    unfold resizeText at hd
    by_cases hn : n ≥ 2 ^ 63
    · rw [if_pos hn] at hd
      cases hd
    · rw [if_neg hn] at hd
      obtain ⟨t4, r8, l8, d8, k8⟩ := resize_ok t3 n ci.junk (by omega)
      rw [r8, Res.ok_bind] at hd
      have r9 : restoreText ci false t4 = .ok (some t4) := by unfold restoreText; rfl
      rw [r9, Res.ok_bind] at hd
      simp only [] at hd
      have r10 : checkTag ci h t4 = .ok true := by unfold checkTag; rw [hh]
      rw [r10, Res.ok_bind] at hd
      simp only [if_true] at hd
      obtain ⟨y, r11, hy⟩ : ∃ y, rdN t4.datum 0 n = .ok y ∧ y.length = n := by
        refine ⟨_, rdN_ok (by omega), ?_⟩
        simp
        omega
      rw [r11, Res.ok_bind, writeAll_end, Res.ok_bind] at hd
      obtain ⟨ys, h1, _⟩ := (any_file hs c fuel _ _ b3 (o ++ y) h t4 a4 hw hl).2 st out hd
      refine ⟨y ++ ys.flatten, ?_, by rw [h1, List.append_assoc]⟩
      intro hnil
      simp at hnil
      rw [hnil.1] at hy
      exact hn0 hy.symm

end Wizard.ContentP

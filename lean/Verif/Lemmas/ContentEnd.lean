import Verif.Lemmas.ContentDec
/-! Deciphering files that do not survive, and files that nobody enciphered. -/
namespace Wizard.ContentP
open Wizard Wizard.Spec.Content Wizard.Props Wizard.Spec

/-- All chunks but the last are deciphered. -/
theorem to_last {ci ci' : Content} (hs : Sound ci) (ha : Agree ci ci') {k : Nat} {rest body : List Byte} (hfr : Framed ci k rest body) : rest ≠ [] →
    ∃ kk pre x s, rest = pre ++ x ∧ x ≠ [] ∧ x.length ≤ ci.chunksize ∧ (∃ q, pre.length = ci.chunksize * q) ∧ Sealed ci kk x s ∧
      ∀ (fuel : Nat) (c : List Byte) (p : Nat) (b : Blob) (o : List Byte) (h t : StringInfo), rest.length + 2 < fuel → At c p false b →
        c.drop p = body → h.WF → h.length = tagSize ci →
        ∃ f b' h' t' q, decipherLoop ci' fuel b (.file ⟨o, o.length, false⟩) h t = decipherLoop ci' (f + 3) b' (.file ⟨o ++ pre, (o ++ pre).length, false⟩) h' t' ∧
          At c q false b' ∧ c.drop q = headOf ci x ++ s ∧ h'.WF ∧ h'.length = tagSize ci := by
  have hcs := hs.chunk
  induction hfr with
  | nil k => intro h; exact absurd rfl h
  | more k x rest s body hxl hr hseal hfr ih =>
    intro _
    obtain ⟨kk, pre, y, s', e1, e2, e3, ⟨q, e4⟩, e5, e6⟩ := ih hr
    refine ⟨kk, x ++ pre, y, s', by rw [e1, List.append_assoc], e2, e3, ⟨q + 1, by rw [List.length_append, e4, hxl, Nat.mul_succ]; omega⟩, e5, ?_⟩
    intro fuel c p b o h t hfu hat hd hw hl
    obtain ⟨f, rfl⟩ : ∃ f, fuel = f + 1 := ⟨fuel - 1, by omega⟩
    rw [List.append_assoc] at hd
    obtain ⟨b', h', t', g1, g2, g3, g4, g5⟩ := step_more hs ha hat hxl hseal hd h t hw hl f o
    obtain ⟨f', b'', h'', t'', q', i1, i2⟩ := e6 f c _ b' (o ++ x) h' t' (by rw [List.length_append] at hfu; omega) g2 g3 g4 g5
    refine ⟨f', b'', h'', t'', q', ?_, i2⟩
    rw [g1, i1, List.append_assoc]
  | last k x s hx hxl hseal =>
    intro _
    refine ⟨k, [], x, s, rfl, hx, hxl, ⟨0, rfl⟩, hseal, ?_⟩
    intro fuel c p b o h t hfu hat hd hw hl
    have : x.length ≠ 0 := fun h => hx (List.length_eq_zero_iff.1 h)
    refine ⟨fuel - 3, b, h, t, p, ?_, hat, hd, hw, hl⟩
    rw [List.append_nil, show fuel - 3 + 3 = fuel by omega]

/-- The last chunk ends in the last block: its padding fills the chunk, and is not removed. -/
theorem last_block {ci ci' : Content} (hs : Sound ci) (ha : Agree ci ci') {k : Nat} {x s c : List Byte} {p : Nat} {b : Blob} (hat : At c p false b)
    (hm : ci.mode ≠ .cfb) (hmul : ci.chunksize % ci.cipher.cipher.blocksize = 0) (hx1 : x.length < ci.chunksize) (hx2 : ci.chunksize ≤ x.length + ci.cipher.cipher.blocksize)
    (hseal : Sealed ci k x s) (hd : c.drop p = headOf ci x ++ s)
    (h t : StringInfo) (hw : h.WF) (hl : h.length = tagSize ci) (fuel : Nat) (o : List Byte) :
    (∀ n f, ci.hmac = some (n, f) → (∀ y : List Byte, y.length = ci.chunksize → f y ≠ f x) →
      decipherLoop ci' (fuel + 2) b (.file ⟨o, o.length, false⟩) h t = .ok (false, .file ⟨o, o.length, false⟩)) ∧
    (ci.hmac = none → ci.entropy = none →
      decipherLoop ci' (fuel + 2) b (.file ⟨o, o.length, false⟩) h t = .ok (true, .file ⟨o ++ (x ++ padOf ci k x.length), (o ++ (x ++ padOf ci k x.length)).length, false⟩)) := by
  have hpos := hs.ready.pos
  have hcs := hs.chunk
  have hsl := (sealed_decipher hs ha hseal).1
  have hpl := padOf_length ci k x.length hpos
  rw [if_neg hm] at hpl
  have hmod := Nat.mod_lt x.length hpos
  have hcp : chunkPad ci = 0 := (chunkPad_zero ci hpos).2 hmul
  have hslen : s.length = ci.chunksize := by
    rw [hsl, hpl]
    obtain ⟨q, hq⟩ := Nat.dvd_of_mod_eq_zero hmul
    have h1 := Nat.div_add_mod x.length ci.cipher.cipher.blocksize
    have h2 : x.length / ci.cipher.cipher.blocksize < q := by
      rw [Nat.div_lt_iff_lt_mul hpos, Nat.mul_comm]
      omega
    have h3 : q ≤ x.length / ci.cipher.cipher.blocksize + 1 := by
      have : ci.cipher.cipher.blocksize * q < ci.cipher.cipher.blocksize * (x.length / ci.cipher.cipher.blocksize + 2) := by
        rw [Nat.mul_add]
        omega
      have := Nat.lt_of_mul_lt_mul_left this
      omega
    rw [hq, show q = x.length / ci.cipher.cipher.blocksize + 1 by omega, Nat.mul_succ]
    omega
  have hrs : readSize ci = s.length := by
    unfold readSize
    rw [if_neg hm, hcp, hslen]
    rfl
  obtain ⟨b', h', t', g1, g2, g3, g4, g5, g6, g7, g8⟩ := step hs ha hat hd hseal h t hw hl s
    (by rw [hrs, List.take_of_length_le (Nat.le_refl _)]) (by rw [List.take_of_length_le (Nat.le_refl _)]) (by omega)
    (by rw [hsl]; exact pad_mod ci k x.length hpos) (fuel + 1) (.file ⟨o, o.length, false⟩)
  have hb : t'.bytes = filled ci k x ++ padOf ci k x.length := by
    rw [g8, List.take_of_length_le (by rw [List.length_append, filled_length]; omega)]
  rw [hrs, show decide (s.length < s.length) = false by simp] at g2
  have hstrip : stripPad ci' (eofBlob b') t' = .ok ci.chunksize := by
    rw [at_eof g2]
    unfold stripPad
    rw [if_neg (by rw [chunkPad_agree ha]; rintro ⟨_, h | h⟩; exact h hcp; cases h), g7, hslen]
  have hwt : t'.length + maxCipherBlocksize ≤ t'.datum.length := g6
  obtain ⟨t1, r1, l1, d1, k1⟩ := resize_ok t' ci.chunksize ci'.junk (by omega)
  have hb1 : t1.bytes = t'.bytes := by
    rw [StringInfo.bytes, l1, k1 _ (by omega) (by omega), StringInfo.bytes, g7, hslen]
  have hw1 : t1.WF := by
    show _ ≤ _
    omega
  constructor
  · intro n f hf hcol
    rw [g1]
    unfold finish resizeText
    rw [hstrip, Res.ok_bind, if_neg (by omega), r1, Res.ok_bind]
    have hres : (∃ t2, restoreText ci' (packedOf ci x) t1 = .ok (some t2) ∧ t2.WF ∧ t2.length = ci.chunksize) ∨ restoreText ci' (packedOf ci x) t1 = .ok none := by
      unfold restoreText
      by_cases hp : packedOf ci x = true
      · rw [if_pos hp]
        cases ci'.entropy with
        | none => exact .inr rfl
        | some v =>
          simp only []
          cases v.unpack t1.length t1.bytes with
          | none => exact .inr rfl
          | some mm =>
            simp only []
            obtain ⟨r, h1, h2, h3, h4, h5⟩ := setStringInfo_spec t1 (bufferOf mm) hw1 (bufferOf_wf _).1
            rw [h1, Res.ok_bind]
            refine .inl ⟨r, rfl, ?_, by omega⟩
            show _ ≤ _
            omega
      · rw [if_neg hp]
        exact .inl ⟨t1, rfl, hw1, l1⟩
    rcases hres with ⟨t2, r2, w2, l2⟩ | r2
    · rw [r2, Res.ok_bind]
      simp only []
      have hchk : checkTag ci' h' t2 = .ok false := by
        unfold checkTag
        rw [ha.hmac, hf]
        simp only []
        obtain ⟨r, h1, _, _, h4⟩ := C02_compare_is_dictionary_order h' (bufferOf (f t2.bytes)) g3 (bufferOf_wf _).1
        rw [h1, Res.ok_bind]
        have : r ≠ 0 := by
          intro h0
          rw [h0] at h4
          have := h4.1 rfl
          rw [(bufferOf_wf _).2, g5 n f hf] at this
          exact hcol t2.bytes (by rw [bytes_len w2, l2]) this.symm
        simp [this]
      rw [hchk, Res.ok_bind]
      rfl
    · rw [r2, Res.ok_bind]
  · intro hh he
    rw [g1]
    unfold finish resizeText
    rw [hstrip, Res.ok_bind, if_neg (by omega), r1, Res.ok_bind]
    have r2 : restoreText ci' (packedOf ci x) t1 = .ok (some t1) := by
      unfold restoreText packedOf
      rw [he]
      rfl
    have r3 : checkTag ci' h' t1 = .ok true := by
      unfold checkTag
      rw [ha.hmac, hh]
    rw [r2, Res.ok_bind]
    simp only []
    have hf : filled ci k x = x := by unfold filled; rw [he]
    have hw1' : t1.length + maxCipherBlocksize ≤ t1.datum.length := hw1
    rw [r3, Res.ok_bind, if_pos rfl, rdN_ok (by omega), Res.ok_bind, writeAll_end, Res.ok_bind]
    have h1 : (t1.datum.drop 0).take ci.chunksize = x ++ padOf ci k x.length := by
      rw [List.drop_zero, ← l1]
      show t1.bytes = _
      rw [hb1, hb, hf]
    rw [h1]
    refine stop (sound_usable hs) ha g2 h' t1 g3 g4 ?_ fuel _
    rw [show c.drop (p + (headOf ci x).length + s.length) = [] from drop_at (by rw [List.append_nil]; exact drop_at hd)]
    simp

theorem agree_self (ci : Content) : Agree ci ci := ⟨rfl, rfl, rfl, rfl, rfl, rfl⟩

theorem restore_any (ci : Content) (packed : Bool) (t : StringInfo) (ht : t.WF) :
    restoreText ci packed t = .ok none ∨ ∃ t', restoreText ci packed t = .ok (some t') ∧ t'.WF ∧ t'.length = t.length := by
  unfold restoreText
  by_cases hp : packed = true
  · rw [if_pos hp]
    cases ci.entropy with
    | none => exact .inl rfl
    | some v =>
      simp only []
      cases v.unpack t.length t.bytes with
      | none => exact .inl rfl
      | some mm =>
        simp only []
        obtain ⟨r, h1, h2, h3, h4, h5⟩ := setStringInfo_spec t (bufferOf mm) ht (bufferOf_wf _).1
        rw [h1, Res.ok_bind]
        refine .inr ⟨r, rfl, ?_, h2⟩
        have : t.length + maxCipherBlocksize ≤ t.datum.length := ht
        show _ ≤ _
        omega
  · rw [if_neg hp]
    exact .inr ⟨t, rfl, ht, rfl⟩

theorem decipher_any (mode : CipherMode) (c : CipherInfo) (h : c.Ready) (s : StringInfo) (hs : s.WF) :
    decipherCipher mode c s = .fatal ∨ ∃ r, decipherCipher mode c s = .ok r ∧ r.length = s.length ∧ r.WF := by
  have hw : s.length + maxCipherBlocksize ≤ s.datum.length := hs
  rcases C28_decipher_bounds mode c h s hs with ⟨r, h1, h2, h3, _⟩ | ⟨_, h1⟩
  · refine .inr ⟨r, h1, h2, ?_⟩
    show _ ≤ _
    omega
  · exact .inl h1

theorem stride_eq (ci : Content) (hb : 0 < ci.cipher.cipher.blocksize) : stride ci = tagSize ci + entropySize ci + readSize ci := by
  unfold stride
  rw [readSize_up ci hb]
  unfold up
  by_cases hm : ci.mode = .cfb
  · rw [if_pos hm, if_pos hm]
  · rw [if_neg hm, if_neg hm]
    congr 1
    unfold paddedLength
    have h1 := Nat.mod_lt ci.chunksize hb
    have h2 := Nat.div_add_mod ci.chunksize ci.cipher.cipher.blocksize
    by_cases hc : ci.chunksize % ci.cipher.cipher.blocksize = 0
    · rw [if_neg (by omega)]
      rw [show ci.chunksize + ci.cipher.cipher.blocksize - 1 = (ci.cipher.cipher.blocksize - 1) + ci.cipher.cipher.blocksize * (ci.chunksize / ci.cipher.cipher.blocksize) by omega,
        Nat.add_mul_div_left _ _ hb, Nat.div_eq_of_lt (by omega), Nat.zero_add, Nat.mul_comm]
      omega
    · rw [if_pos (by omega)]
      rw [show ci.chunksize + ci.cipher.cipher.blocksize - 1 = (ci.chunksize % ci.cipher.cipher.blocksize - 1) + ci.cipher.cipher.blocksize * (ci.chunksize / ci.cipher.cipher.blocksize + 1) by rw [Nat.mul_succ]; omega,
        Nat.add_mul_div_left _ _ hb, Nat.div_eq_of_lt (by omega), Nat.zero_add, Nat.mul_comm, Nat.mul_succ]
      omega

/-- Any file at all: nothing is read or written out of bounds, and what is written was checked. -/
theorem any_file {ci : Content} (hs : Usable ci) (c : List Byte) : ∀ (fuel p : Nat) (e : Bool) (b : Blob) (o : List Byte) (h t : StringInfo), At c p e b → h.WF → h.length = tagSize ci →
    decipherLoop ci fuel b (.file ⟨o, o.length, false⟩) h t ≠ .ub ∧
    ∀ st out, decipherLoop ci fuel b (.file ⟨o, o.length, false⟩) h t = .ok (st, out) →
      ∃ ys : List (List Byte), out = .file ⟨o ++ ys.flatten, (o ++ ys.flatten).length, false⟩ ∧
        ∀ n f, ci.hmac = some (n, f) → ∀ i y, ys[i]? = some y → (c.drop (p + i * stride ci)).take n = f y := by
  intro fuel
  have hcs := hs.chunk
  have hpos := hs.ready.pos
  have hle := hs.ready.le
  have hrs2 : readSize ci < 2 ^ 63 := by
    unfold readSize chunkPad maxCipherBlocksize at *
    simp only []
    split
    · omega
    · split <;> omega
  induction fuel with
  | zero => intro p e b o h t _ _ _; exact ⟨(by intro h; cases h), (by intro st out h; cases h)⟩
  | succ fuel ih =>
    intro p e b o h t hat hw hl
    have hp := hat.1
    by_cases hshort : (c.drop p).length ≤ tagSize ci + entropySize ci
    · rw [stop hs (agree_self ci) hat h t hw hl hshort fuel]
      refine ⟨(by intro h; cases h), ?_⟩
      intro st out h
      cases h
      exact ⟨[], by simp, by intro n f _ i y hy; simp at hy⟩
    · rw [List.length_drop] at hshort
      have hw' : h.length + maxCipherBlocksize ≤ h.datum.length := hw
      have htag : ∃ b1 h1, getTag ci b h = .ok (some (b1, h1)) ∧ At c (p + tagSize ci) e b1 ∧ h1.WF ∧ h1.length = tagSize ci ∧
          ∀ n f, ci.hmac = some (n, f) → h1.bytes = (c.drop p).take n := by
        unfold getTag
        cases hh : ci.hmac with
        | none =>
          have : tagSize ci = 0 := by unfold tagSize; rw [hh]
          rw [this]
          exact ⟨b, h, rfl, hat, hw, by omega, by intro n f hn; cases hn⟩
        | some v =>
          have htv : tagSize ci = v.1 := by unfold tagSize; rw [hh]
          have hv := hs.tag v.1 v.2 hh
          simp only []
          obtain ⟨b1, r1, a1⟩ := chunk_spec hat h.length 3 (by omega)
          rw [r1, Res.ok_bind]
          simp only []
          have hln : ((c.drop p).take h.length).length = h.length := by rw [List.length_take, List.length_drop]; omega
          rw [if_neg (by omega)]
          obtain ⟨d, w1, w2, w3, _⟩ := write_prefix (d := h.datum) (x := (c.drop p).take h.length) (by omega)
          rw [w1, Res.ok_bind]
          rw [Nat.min_eq_left (by omega), show decide (c.length - p < h.length) = false by simp; omega, Bool.or_false] at a1
          refine ⟨b1, _, rfl, by rw [← hl]; exact a1, ?_, hl, ?_⟩
          · show _ ≤ d.length
            rw [w2]
            exact hw'
          · intro n f hn
            cases hn
            show List.take h.length d = _
            rw [hln] at w3
            rw [w3, hl, htv]
      obtain ⟨b1, h1, r1, a1, w1, l1, e1⟩ := htag
      have hent : ∃ pk b2, getEntropy ci b1 = .ok (pk, b2) ∧ At c (p + tagSize ci + entropySize ci) e b2 := by
        unfold getEntropy
        cases hh : ci.entropy with
        | none =>
          have : entropySize ci = 0 := by unfold entropySize; rw [hh]
          rw [this]
          exact ⟨false, b1, rfl, a1⟩
        | some v =>
          have hes : entropySize ci = 1 := by unfold entropySize; rw [hh]
          simp only []
          obtain ⟨b2, r2, a2⟩ := readByte_at a1
          rw [r2, Res.ok_bind]
          rw [Nat.min_eq_left (by omega), show decide (c.length - (p + tagSize ci) < 1) = false by simp; omega, Bool.or_false] at a2
          rw [hes]
          exact ⟨_, b2, rfl, a2⟩
      obtain ⟨pk, b2, r2, a2⟩ := hent
      rw [decipherLoop, r1, Res.ok_bind]
      simp only []
      rw [r2, Res.ok_bind]
      have hrd : (if ci.mode = .cfb then ci.chunksize else ci.chunksize + chunkPad ci) = readSize ci := rfl
      simp only [hrd]
      obtain ⟨t1, r3, l3, d3, k3⟩ := resize_ok t (readSize ci) ci.junk hrs2
      obtain ⟨b3, r4, a4⟩ := chunk_spec a2 (readSize ci) 3 (by omega)
      rw [r3, Res.ok_bind, r4, Res.ok_bind]
      simp only []
      generalize hwd : (c.drop (p + tagSize ci + entropySize ci)).take (readSize ci) = w
      have hrp : 0 < readSize ci := by
        unfold readSize
        split <;> omega
      have hwl : w.length = min (readSize ci) (c.length - (p + tagSize ci + entropySize ci)) := by rw [← hwd, List.length_take, List.length_drop]
      rw [if_neg (by omega)]
      obtain ⟨d, w3, w4, w5, _⟩ := write_prefix (d := t1.datum) (x := w) (by omega)
      rw [w3, Res.ok_bind]
      obtain ⟨t2, r5, l5, d5, k5⟩ := resize_ok ({ t1 with datum := d } : StringInfo) w.length ci.junk (by omega)
      rw [r5, Res.ok_bind]
      have hw2 : t2.WF := by
        show _ ≤ _
        omega
      rcases decipher_any ci.mode ci.cipher hs.ready t2 hw2 with hdc | ⟨t3, r6, l6, w6⟩
      · rw [hdc]
        exact ⟨(by intro h; cases h), (by intro st out h; cases h)⟩
      · rw [r6, Res.ok_bind]
        have hw6 : t3.length + maxCipherBlocksize ≤ t3.datum.length := w6
        have hst : ∃ n, stripPad ci (eofBlob b3) t3 = .ok n := by
          unfold stripPad
          split
          · have hlt : t3.length - 1 < t3.datum.length := by omega
            unfold rd
            rw [List.getElem?_eq_getElem hlt]
            exact ⟨_, rfl⟩
          · exact ⟨_, rfl⟩
        obtain ⟨n, r7⟩ := hst
        rw [r7, Res.ok_bind]
        unfold resizeText
        by_cases hn : n ≥ 2 ^ 63
        · rw [if_pos hn]
          exact ⟨(by intro h; cases h), (by intro st out h; cases h)⟩
        · rw [if_neg hn]
          obtain ⟨t4, r8, l8, d8, k8⟩ := resize_ok t3 n ci.junk (by omega)
          rw [r8, Res.ok_bind]
          have hw8 : t4.WF := by
            show _ ≤ _
            omega
          have hfail : ∀ z : Blob, z = .file ⟨o, o.length, false⟩ → (Res.ok (false, z) : Res (Bool × Blob)) ≠ .ub ∧ ∀ st out, (Res.ok (false, z) : Res (Bool × Blob)) = .ok (st, out) →
              ∃ ys : List (List Byte), out = .file ⟨o ++ ys.flatten, (o ++ ys.flatten).length, false⟩ ∧
                ∀ n f, ci.hmac = some (n, f) → ∀ i y, ys[i]? = some y → (c.drop (p + i * stride ci)).take n = f y := by
            rintro z rfl
            refine ⟨(by intro h; cases h), ?_⟩
            intro st out h
            cases h
            exact ⟨[], by simp, by intro n f _ i y hy; simp at hy⟩
          rcases restore_any ci pk t4 hw8 with r9 | ⟨t5, r9, w9, l9⟩
          · rw [r9, Res.ok_bind]
            exact hfail _ rfl
          · rw [r9, Res.ok_bind]
            simp only []
            have hchk : ∃ v, checkTag ci h1 t5 = .ok v ∧ (v = true → ∀ n f, ci.hmac = some (n, f) → (c.drop p).take n = f t5.bytes) := by
              unfold checkTag
              cases hh : ci.hmac with
              | none => exact ⟨true, rfl, by intro _ n f hn; cases hn⟩
              | some u =>
                simp only []
                obtain ⟨r, q1, _, _, q4⟩ := C02_compare_is_dictionary_order h1 (bufferOf (u.2 t5.bytes)) w1 (bufferOf_wf _).1
                rw [q1, Res.ok_bind]
                refine ⟨_, rfl, ?_⟩
                intro hv n f hn
                cases hn
                have hr0 : r = 0 := by simpa using hv
                rw [← e1 _ _ hh, q4.1 hr0, (bufferOf_wf _).2]
            obtain ⟨v, r10, hv⟩ := hchk
            rw [r10, Res.ok_bind]
            cases v with
            | false => exact hfail _ rfl
            | true =>
              rw [if_pos rfl]
              have hw9 : t5.length + maxCipherBlocksize ≤ t5.datum.length := w9
              rw [rdN_ok (by omega), Res.ok_bind, writeAll_end, Res.ok_bind]
              have hby : (t5.datum.drop 0).take n = t5.bytes := by
                rw [List.drop_zero, StringInfo.bytes, l9, l8]
              rw [hby]
              obtain ⟨i1, i2⟩ := ih _ _ b3 (o ++ t5.bytes) h1 t5 a4 w1 l1
              refine ⟨i1, ?_⟩
              intro st out hout
              by_cases hend : c.length - (p + tagSize ci + entropySize ci) ≤ readSize ci
              · cases fuel with
                | zero => cases hout
                | succ fuel =>
                  rw [stop hs (agree_self ci) a4 h1 t5 w1 l1 (by rw [List.length_drop]; omega) fuel] at hout
                  cases hout
                  refine ⟨[t5.bytes], by simp, ?_⟩
                  intro n f hf i y hy
                  cases i with
                  | zero =>
                    cases hy
                    rw [Nat.zero_mul, Nat.add_zero]
                    exact hv rfl n f hf
                  | succ i => simp at hy
              · obtain ⟨ys, j1, j2⟩ := i2 st out hout
                refine ⟨t5.bytes :: ys, by rw [j1]; simp, ?_⟩
                intro n f hf i y hy
                cases i with
                | zero =>
                  cases hy
                  rw [Nat.zero_mul, Nat.add_zero]
                  exact hv rfl n f hf
                | succ i =>
                  have := j2 n f hf i y (by simpa using hy)
                  rw [← this, Nat.min_eq_left (by omega), stride_eq ci hpos, Nat.succ_mul]
                  congr 2
                  omega

end Wizard.ContentP

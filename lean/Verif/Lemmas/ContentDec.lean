import Verif.Lemmas.Content
/-! Deciphering, chunk by chunk. -/
namespace Wizard.ContentP
open Wizard Wizard.Spec.Content Wizard.Props Wizard.Spec

/-- decipher.c:771-800, after a chunk was deciphered into `t`. -/
def finish (ci : Content) (fuel : Nat) (packed : Bool) (b out : Blob) (h t : StringInfo) : Res (Bool × Blob) := do
  let n ← stripPad ci (eofBlob b) t
  let t ← resizeText t n ci.junk
  match ← restoreText ci packed t with
  | none => .ok (false, out)
  | some t => do
    if ← checkTag ci h t then do
      let p ← rdN t.datum 0 n
      let out ← writeAll out p
      decipherLoop ci fuel b out h t
    else .ok (false, out)

/-- The number of bytes read for a chunk. -/
def readSize (ci : Content) : Nat := if ci.mode = .cfb then ci.chunksize else ci.chunksize + chunkPad ci

theorem drop_at {c : List Byte} {p : Nat} {l r : List Byte} (h : c.drop p = l ++ r) : c.drop (p + l.length) = r := by
  rw [← List.drop_drop, h, List.drop_left]

theorem at_len {c : List Byte} {p : Nat} {l : List Byte} (h : c.drop p = l) : c.length - p = l.length := by
  rw [← h, List.length_drop]

theorem getTag_at (ci : Content) {c : List Byte} {p : Nat} {b : Blob} (hat : At c p false b) (h : StringInfo) (hw : h.WF) (hl : h.length = tagSize ci)
    (htp : ci.hmac ≠ none → 0 < tagSize ci) (tag rest : List Byte) (ht : tag.length = tagSize ci) (hd : c.drop p = tag ++ rest) :
    ∃ b' h', getTag ci b h = .ok (some (b', h')) ∧ At c (p + tag.length) false b' ∧ h'.WF ∧ h'.length = tagSize ci ∧ (ci.hmac ≠ none → h'.bytes = tag) := by
  unfold getTag
  have hw' : h.length + maxCipherBlocksize ≤ h.datum.length := hw
  cases hh : ci.hmac with
  | none =>
    have h0 : tag.length = 0 := by rw [ht, tagSize, hh]
    rw [h0]
    exact ⟨b, h, rfl, hat, hw, hl, fun hn => absurd rfl hn⟩
  | some v =>
    simp only []
    obtain ⟨b1, r1, a1⟩ := chunk_spec hat h.length 3 (by omega)
    have hb : (c.drop p).take h.length = tag := by rw [hd, hl, ← ht, List.take_left]
    rw [r1, Res.ok_bind, hb]
    simp only []
    have hpos := htp (by rw [hh]; simp)
    rw [if_neg (by omega)]
    obtain ⟨d, w1, w2, w3, _⟩ := write_prefix (d := h.datum) (x := tag) (by omega)
    rw [w1, Res.ok_bind]
    have hlen := at_len hd
    rw [List.length_append] at hlen
    rw [Nat.min_eq_left (by omega), hl, ← ht, show decide (c.length - p < tag.length) = false by simp; omega] at a1
    refine ⟨b1, _, rfl, a1, ?_, hl, fun _ => ?_⟩
    · show _ ≤ d.length
      rw [w2]
      exact hw'
    · show List.take h.length d = tag
      rw [hl, ← ht]
      exact w3

theorem readByte_at {c : List Byte} {p : Nat} {e : Bool} {b : Blob} (hat : At c p e b) :
    ∃ b', readBlobByte b = .ok ((c.drop p).head?, b') ∧ At c (p + min 1 (c.length - p)) (e || decide (c.length - p < 1)) b' := by
  obtain ⟨b', h1, h2⟩ := byte_spec hat
  cases hr : readBlobByte b with
  | ub => rw [hr] at h1; cases h1
  | fatal => rw [hr] at h1; cases h1
  | ok v =>
    rw [hr, Res.ok_bind] at h1
    injection h1 with h1
    injection h1 with h3 h4
    refine ⟨b', ?_, h2⟩
    obtain ⟨o, b1⟩ := v
    simp only at h3 h4
    rw [h4]
    congr 2
    cases o with
    | none =>
      cases hc : c.drop p with
      | nil => rfl
      | cons a l => rw [hc] at h3; cases h3
    | some a =>
      cases hc : c.drop p with
      | nil => rw [hc] at h3; cases h3
      | cons a' l => rw [hc] at h3; cases h3; rfl

theorem getEntropy_at (ci : Content) {c : List Byte} {p : Nat} {b : Blob} (hat : At c p false b) (eb rest : List Byte) (he : eb.length = entropySize ci) (hd : c.drop p = eb ++ rest) :
    ∃ b', getEntropy ci b = .ok (decide (eb.length = 1 ∧ eb.head? ≠ some noEntropy), b') ∧ At c (p + eb.length) false b' := by
  unfold getEntropy
  cases hh : ci.entropy with
  | none =>
    have h0 : eb.length = 0 := by rw [he, entropySize, hh]
    rw [h0]
    exact ⟨b, by simp, hat⟩
  | some v =>
    simp only []
    have h1 : eb.length = 1 := by rw [he, entropySize, hh]
    obtain ⟨b1, r1, a1⟩ := readByte_at hat
    obtain ⟨y, rfl⟩ : ∃ y, eb = [y] := by
      cases eb with
      | nil => cases h1
      | cons y l => cases l with
        | nil => exact ⟨y, rfl⟩
        | cons _ _ => cases h1
    have hlen := at_len hd
    rw [List.length_append] at hlen
    rw [r1, Res.ok_bind, hd]
    rw [Nat.min_eq_left (by simp at hlen ⊢; omega), show decide (c.length - p < 1) = false by simp at hlen ⊢; omega] at a1
    exact ⟨b1, by simp, a1⟩

/-- The part of a turn up to the decipherment. -/
theorem step {ci ci' : Content} (hs : Sound ci) (ha : Agree ci ci') {k : Nat} {x s tail c : List Byte} {p : Nat} {b : Blob} (hat : At c p false b)
    (hd : c.drop p = headOf ci x ++ tail) (hseal : Sealed ci k x s) (h t : StringInfo) (hw : h.WF) (hl : h.length = tagSize ci)
    (w : List Byte) (hwt : w = tail.take (readSize ci)) (hws : w = s.take w.length) (hwn : w.length ≠ 0) (hwm : ci.mode = .cfb ∨ w.length % ci.cipher.cipher.blocksize = 0)
    (fuel : Nat) (out : Blob) :
    ∃ b' h' t', decipherLoop ci' (fuel + 1) b out h t =
        finish ci' fuel (packedOf ci x) b' out h' t' ∧
      At c (p + (headOf ci x).length + w.length) (decide (tail.length < readSize ci)) b' ∧ h'.WF ∧ h'.length = tagSize ci ∧
      (∀ n f, ci.hmac = some (n, f) → h'.bytes = f x) ∧ t'.WF ∧ t'.length = w.length ∧ t'.bytes = (filled ci k x ++ padOf ci k x.length).take w.length := by
  have hts : tagSize ci' = tagSize ci := by unfold tagSize; rw [ha.hmac]
  have hes : entropySize ci' = entropySize ci := by unfold entropySize; rw [ha.entropy]
  have hcs := hs.chunk
  have hpos := hs.ready.pos
  have hle := hs.ready.le
  have hrs : (if ci'.mode = .cfb then ci'.chunksize else ci'.chunksize + chunkPad ci') = readSize ci := by
    unfold readSize chunkPad
    rw [ha.mode, ha.chunksize, ha.cipher]
  have hrs2 : readSize ci < 2 ^ 63 := by
    unfold readSize chunkPad maxCipherBlocksize at *
    simp only []
    split
    · omega
    · split <;> omega
  unfold headOf at hd ⊢
  have htl : (tagOf ci x).length = tagSize ci := by
    rw [tagOf, tagSize]
    cases hh : ci.hmac with
    | none => rfl
    | some v => exact (hs.tag v.1 v.2 hh).2.2 x
  have hel : (entropyOf ci x).length = entropySize ci := by
    rw [entropyOf, entropySize]
    cases ci.entropy <;> rfl
  have hpk : decide ((entropyOf ci x).length = 1 ∧ (entropyOf ci x).head? ≠ some noEntropy) = packedOf ci x := by
    unfold entropyOf packedOf
    cases hh : ci.entropy with
    | none => rfl
    | some v =>
      have := (hs.packer v hh).type
      by_cases hg : (v.pack x).length > x.length
      · simp [hg]
      · simp [hg, this]
  rw [List.append_assoc] at hd
  obtain ⟨b1, h1, r1, a1, w1, l1, e1⟩ := getTag_at ci' hat h hw (by rw [hl, hts]) (by
      intro hn
      rw [ha.hmac] at hn
      cases hh : ci.hmac with
      | none => exact absurd hh hn
      | some v =>
        have := (hs.tag v.1 v.2 hh).1
        rw [hts, tagSize, hh]
        exact this) (tagOf ci x) (entropyOf ci x ++ tail) (by rw [htl, hts]) hd
  obtain ⟨b2, r2, a2⟩ := getEntropy_at ci' a1 (entropyOf ci x) tail (by rw [hel, hes]) (drop_at hd)
  have hd2 : c.drop (p + (tagOf ci x).length + (entropyOf ci x).length) = tail := drop_at (drop_at hd)
  rw [decipherLoop, r1, Res.ok_bind]
  simp only []
  rw [r2, Res.ok_bind, hpk]
  simp only [hrs]
  obtain ⟨t1, r3, l3, d3, k3⟩ := resize_ok t (readSize ci) ci'.junk hrs2
  obtain ⟨b3, r4, a4⟩ := chunk_spec a2 (readSize ci) 3 (by omega)
  rw [hd2, ← hwt] at r4
  rw [r3, Res.ok_bind, r4, Res.ok_bind]
  simp only []
  rw [if_neg hwn]
  have hwl : w.length = min (readSize ci) tail.length := by rw [hwt, List.length_take]
  obtain ⟨d, w3, w4, w5, _⟩ := write_prefix (d := t1.datum) (x := w) (by omega)
  rw [w3, Res.ok_bind]
  obtain ⟨t2, r5, l5, d5, k5⟩ := resize_ok ({ t1 with datum := d } : StringInfo) w.length ci'.junk (by omega)
  rw [r5, Res.ok_bind]
  have hw2 : t2.WF := by
    show _ ≤ _
    omega
  have hb2 : t2.bytes = w := by
    rw [StringInfo.bytes, l5, k5 w.length (by show _ ≤ d.length; omega) (by omega)]
    exact w5
  obtain ⟨hsl, hdec⟩ := sealed_decipher hs ha hseal
  have hwls : w.length ≤ s.length := by
    have := congrArg List.length hws
    rw [List.length_take] at this
    omega
  obtain ⟨t3, r6, l6, d6, b6⟩ := hdec t2 hw2 (by rw [l5]; exact hwls) (by rw [l5]; exact hwm) (by rw [l5, hb2]; exact hws)
  rw [r6, Res.ok_bind]
  refine ⟨b3, h1, t3, ?_, ?_, w1, by rw [l1, hts], ?_, ?_, by rw [l6, l5], by rw [b6, l5]⟩
  · rfl
  · have hlen : c.length - (p + (tagOf ci x).length + (entropyOf ci x).length) = tail.length := at_len hd2
    rw [hlen, Bool.false_or, ← hwl] at a4
    rw [List.length_append, ← Nat.add_assoc]
    exact a4
  · intro n f hf
    rw [e1 (by rw [ha.hmac, hf]; simp), tagOf, hf]
  · show _ ≤ _
    omega

theorem at_eof {c : List Byte} {p : Nat} {e : Bool} {b : Blob} (h : At c p e b) : eofBlob b = e := by
  rcases h.2 with rfl | ⟨x, q, rfl⟩ <;> rfl

theorem chunkPad_agree {ci ci' : Content} (ha : Agree ci ci') : chunkPad ci' = chunkPad ci := by
  unfold chunkPad
  rw [ha.cipher, ha.chunksize]

/-- The padding is removed. -/
theorem strip_padded {ci ci' : Content} (hs : Sound ci) (ha : Agree ci ci') {k : Nat} {x : List Byte} (hx : x.length < 2 ^ 62) (eof : Bool) (t : StringInfo) (ht : t.WF)
    (hm : ci.mode ≠ .cfb) (hc : chunkPad ci ≠ 0 ∨ eof = true) (hl : t.length = x.length + (padOf ci k x.length).length)
    (hb : t.bytes = filled ci k x ++ padOf ci k x.length) : stripPad ci' eof t = .ok x.length := by
  unfold stripPad
  rw [ha.mode, chunkPad_agree ha, if_pos ⟨hm, hc⟩]
  have hpos := hs.ready.pos
  have hle := hs.ready.le
  have hmod := Nat.mod_lt x.length hpos
  have hpl := padOf_length ci k x.length hpos
  rw [if_neg hm] at hpl
  have hw : t.length + maxCipherBlocksize ≤ t.datum.length := ht
  generalize hP : ci.cipher.cipher.blocksize - x.length % ci.cipher.cipher.blocksize = P at hpl
  have hPp : 0 < P := by omega
  have hP8 : P ≤ 128 := by unfold maxCipherBlocksize at hle; omega
  have hget : t.datum[t.length - 1]? = some (BitVec.ofNat 8 (P - 1)) := by
    have h1 : t.datum[t.length - 1]? = t.bytes[t.length - 1]? := by
      rw [StringInfo.bytes, List.getElem?_take_of_lt (by omega)]
    rw [h1, hb, hl, hpl, List.getElem?_append_right (by rw [filled_length]; omega), filled_length, padOf, if_neg hm, hP, padding]
    rw [List.getElem?_append_right (by simp; omega)]
    simp
    rw [show x.length + P - 1 - x.length - (P - 1) = 0 by omega]
    rfl
  unfold rd
  rw [hget]
  simp only [Res.ok_bind]
  rw [BitVec.toNat_ofNat, Nat.mod_eq_of_lt (a := P - 1) (by omega), sizeMax_val, hl, hpl]
  congr 1
  omega

/-- The rest of a turn, when the length without the padding is right. -/
theorem finish_ok {ci ci' : Content} (hs : Sound ci) (ha : Agree ci ci') {k : Nat} {x : List Byte} (hx : x.length < 2 ^ 62) (fuel : Nat) (b : Blob) (o : List Byte)
    (h t : StringInfo) (hw : h.WF) (htag : ∀ n f, ci.hmac = some (n, f) → h.bytes = f x) (ht : t.WF) (hl : x.length ≤ t.length)
    (hstrip : stripPad ci' (eofBlob b) t = .ok x.length) (hb : t.bytes.take x.length = filled ci k x) :
    ∃ t', finish ci' fuel (packedOf ci x) b (.file ⟨o, o.length, false⟩) h t = decipherLoop ci' fuel b (.file ⟨o ++ x, (o ++ x).length, false⟩) h t' := by
  have hw' : t.length + maxCipherBlocksize ≤ t.datum.length := ht
  unfold finish
  rw [hstrip, Res.ok_bind]
  unfold resizeText
  rw [if_neg (by omega)]
  obtain ⟨t1, r1, l1, d1, k1⟩ := resize_ok t x.length ci'.junk (by omega)
  have hb1 : t1.bytes = filled ci k x := by
    rw [StringInfo.bytes, l1, k1 _ (by omega) (by omega), ← hb, StringInfo.bytes, List.take_take, Nat.min_eq_left hl]
  have hw1 : t1.WF := by
    show _ ≤ _
    omega
  rw [r1, Res.ok_bind]
  have hres : ∃ t2, restoreText ci' (packedOf ci x) t1 = .ok (some t2) ∧ t2.WF ∧ t2.length = x.length ∧ t2.bytes = x := by
    unfold restoreText packedOf
    rw [ha.entropy]
    unfold filled at hb1
    cases he : ci.entropy with
    | none =>
      rw [he] at hb1
      exact ⟨t1, rfl, hw1, l1, hb1⟩
    | some v =>
      rw [he] at hb1
      simp only [] at hb1 ⊢
      by_cases hg : (v.pack x).length > x.length
      · rw [if_pos hg] at hb1
        rw [if_neg (by simp [hg])]
        exact ⟨t1, rfl, hw1, l1, hb1⟩
      · rw [if_neg hg] at hb1
        rw [if_pos (by simp; omega), hb1, l1, (hs.packer v he).restores x _ (by simp; omega)]
        simp only []
        obtain ⟨r, h1, h2, h3, h4, h5⟩ := setStringInfo_spec t1 (bufferOf x) hw1 (bufferOf_wf _).1
        rw [h1, Res.ok_bind]
        refine ⟨r, rfl, ?_, by omega, ?_⟩
        · show _ ≤ _
          omega
        · rw [h4, (bufferOf_wf _).2, l1, List.take_of_length_le (Nat.le_refl _)]
          simp [bufferOf]
  obtain ⟨t2, r2, w2, l2, b2⟩ := hres
  rw [r2, Res.ok_bind]
  simp only []
  have hchk : checkTag ci' h t2 = .ok true := by
    unfold checkTag
    rw [ha.hmac]
    cases hh : ci.hmac with
    | none => rfl
    | some v =>
      simp only []
      obtain ⟨r, h1, _, _, h4⟩ := C02_compare_is_dictionary_order h (bufferOf (v.2 t2.bytes)) hw (bufferOf_wf _).1
      rw [h1, Res.ok_bind]
      have : r = 0 := by
        rw [h4, (bufferOf_wf _).2, b2]
        exact htag v.1 v.2 hh
      simp [this]
  rw [hchk, Res.ok_bind]
  have hw2 : t2.length + maxCipherBlocksize ≤ t2.datum.length := w2
  rw [if_pos rfl, rdN_ok (by omega), Res.ok_bind, writeAll_end, Res.ok_bind]
  refine ⟨t2, ?_⟩
  have : (t2.datum.drop 0).take x.length = x := by
    rw [List.drop_zero, ← l2]
    exact b2
  rw [this]

theorem sound_usable {ci : Content} (hs : Sound ci) : Usable ci := ⟨hs.ready, hs.chunk, fun n h e => ⟨(hs.tag n h e).1, (hs.tag n h e).2.1⟩⟩

/-- What is left at the end is no chunk. -/
theorem stop {ci ci' : Content} (hs : Usable ci) (ha : Agree ci ci') {c : List Byte} {p : Nat} {e : Bool} {b : Blob} (hat : At c p e b) (h t : StringInfo) (hw : h.WF) (hl : h.length = tagSize ci)
    (hrest : (c.drop p).length ≤ tagSize ci + entropySize ci) (fuel : Nat) (out : Blob) :
    decipherLoop ci' (fuel + 1) b out h t = .ok (true, out) := by
  have hcs := hs.chunk
  have hpos := hs.ready.pos
  have hle := hs.ready.le
  have hw' : h.length + maxCipherBlocksize ≤ h.datum.length := hw
  have hrs2 : readSize ci' < 2 ^ 63 := by
    unfold readSize
    rw [chunkPad_agree ha, ha.mode, ha.chunksize]
    unfold chunkPad maxCipherBlocksize at *
    simp only []
    split
    · omega
    · split <;> omega
  rw [List.length_drop] at hrest
  have key : ∀ (q : Nat) (e' : Bool) (b' : Blob) (h' : StringInfo), At c q e' b' → c.length - q ≤ entropySize ci →
      (do
        let e ← getEntropy ci' b'
        let n := if ci'.mode = .cfb then ci'.chunksize else ci'.chunksize + chunkPad ci'
        let t ← setStringInfoLength t n ci'.junk
        let r ← readBlobChunk false 3 e.2 n
        if r.1.length = 0 then .ok (true, out)
        else do
          let d ← wrN t.datum 0 r.1
          let t ← setStringInfoLength { t with datum := d } r.1.length ci'.junk
          let t ← decipherCipher ci'.mode ci'.cipher t
          let n ← stripPad ci' (eofBlob r.2) t
          let t ← resizeText t n ci'.junk
          match ← restoreText ci' e.1 t with
          | none => .ok (false, out)
          | some t => do
            if ← checkTag ci' h' t then do
              let p ← rdN t.datum 0 n
              let out ← writeAll out p
              decipherLoop ci' fuel r.2 out h' t
            else .ok (false, out) : Res (Bool × Blob)) = .ok (true, out) := by
    intro q e' b' h' a' hq
    have hent : ∃ v b2 e2, getEntropy ci' b' = .ok (v, b2) ∧ At c c.length e2 b2 := by
      unfold getEntropy
      rw [ha.entropy]
      unfold entropySize at hq
      cases hh : ci.entropy with
      | none =>
        rw [hh] at hq
        have hqe : q = c.length := by
          have := a'.1
          simp only [] at hq
          omega
        rw [← hqe]
        exact ⟨false, b', e', rfl, a'⟩
      | some v =>
        rw [hh] at hq
        simp only [] at hq ⊢
        obtain ⟨b1, r1, a1⟩ := readByte_at a'
        rw [r1, Res.ok_bind]
        have := a'.1
        rw [show q + min 1 (c.length - q) = c.length by omega] at a1
        exact ⟨_, b1, _, rfl, a1⟩
    obtain ⟨v, b2, e2, r2, a2⟩ := hent
    rw [r2, Res.ok_bind]
    simp only []
    obtain ⟨t1, r3, _⟩ := resize_ok t (readSize ci') ci'.junk hrs2
    obtain ⟨b3, r4, _⟩ := chunk_spec a2 (readSize ci') 3 (by omega)
    unfold readSize at r3 r4
    rw [r3, Res.ok_bind, r4, Res.ok_bind]
    simp
  rw [decipherLoop]
  unfold getTag
  rw [ha.hmac]
  unfold tagSize at hrest hl
  cases hh : ci.hmac with
  | none =>
    rw [hh] at hrest
    simp only [Res.ok_bind]
    exact key p e b h hat (by simp only [] at hrest; omega)
  | some v =>
    rw [hh] at hrest hl
    simp only [] at hrest hl ⊢
    obtain ⟨b1, r1, a1⟩ := chunk_spec hat h.length 3 (by omega)
    rw [r1, Res.ok_bind]
    simp only []
    by_cases hz : ((c.drop p).take h.length).length = 0
    · rw [if_pos hz]
      rfl
    · rw [if_neg hz]
      obtain ⟨d, w1, _⟩ := write_prefix (d := h.datum) (x := (c.drop p).take h.length) (by rw [List.length_take]; omega)
      rw [w1, Res.ok_bind, Res.ok_bind]
      simp only []
      exact key _ _ b1 _ a1 (by have := hat.1; omega)

theorem up_mod (ci : Content) (n : Nat) (hb : 0 < ci.cipher.cipher.blocksize) : ci.mode = .cfb ∨ up ci n % ci.cipher.cipher.blocksize = 0 := by
  by_cases hm : ci.mode = .cfb
  · exact .inl hm
  · right
    unfold up paddedLength
    rw [if_neg hm]
    have h1 := Nat.mod_lt n hb
    have h2 := Nat.div_add_mod n ci.cipher.cipher.blocksize
    split
    · rw [show n + (ci.cipher.cipher.blocksize - n % ci.cipher.cipher.blocksize) = ci.cipher.cipher.blocksize * (n / ci.cipher.cipher.blocksize) + ci.cipher.cipher.blocksize by omega]
      rw [Nat.add_mod_right, Nat.mul_mod_right]
    · omega

theorem pad_mod (ci : Content) (k n : Nat) (hb : 0 < ci.cipher.cipher.blocksize) : ci.mode = .cfb ∨ (n + (padOf ci k n).length) % ci.cipher.cipher.blocksize = 0 := by
  by_cases hm : ci.mode = .cfb
  · exact .inl hm
  · right
    rw [padOf_length ci k n hb, if_neg hm]
    have h1 := Nat.mod_lt n hb
    have h2 := Nat.div_add_mod n ci.cipher.cipher.blocksize
    rw [show n + (ci.cipher.cipher.blocksize - n % ci.cipher.cipher.blocksize) = ci.cipher.cipher.blocksize * (n / ci.cipher.cipher.blocksize) + ci.cipher.cipher.blocksize by omega]
    rw [Nat.add_mod_right, Nat.mul_mod_right]

theorem readSize_up (ci : Content) (hb : 0 < ci.cipher.cipher.blocksize) : readSize ci = up ci ci.chunksize := by
  unfold readSize up paddedLength chunkPad
  by_cases hm : ci.mode = .cfb
  · rw [if_pos hm, if_pos hm]
  · rw [if_neg hm, if_neg hm]
    have := Nat.mod_lt ci.chunksize hb
    simp only []
    by_cases hc : ci.cipher.cipher.blocksize - ci.chunksize % ci.cipher.cipher.blocksize = ci.cipher.cipher.blocksize
    · rw [if_pos hc, if_neg (by omega)]
      rfl
    · rw [if_neg hc, if_pos hc]

theorem chunkPad_zero (ci : Content) (hb : 0 < ci.cipher.cipher.blocksize) : chunkPad ci = 0 ↔ ci.chunksize % ci.cipher.cipher.blocksize = 0 := by
  unfold chunkPad
  have := Nat.mod_lt ci.chunksize hb
  simp only []
  split <;> omega

/-- A whole chunk that is not the last. -/
theorem step_more {ci ci' : Content} (hs : Sound ci) (ha : Agree ci ci') {k : Nat} {x s tail c : List Byte} {p : Nat} {b : Blob} (hat : At c p false b)
    (hxl : x.length = ci.chunksize) (hseal : Sealed ci k x s) (hd : c.drop p = headOf ci x ++ (s.take (up ci x.length) ++ tail))
    (h t : StringInfo) (hw : h.WF) (hl : h.length = tagSize ci) (fuel : Nat) (o : List Byte) :
    ∃ b' h' t', decipherLoop ci' (fuel + 1) b (.file ⟨o, o.length, false⟩) h t = decipherLoop ci' fuel b' (.file ⟨o ++ x, (o ++ x).length, false⟩) h' t' ∧
      At c (p + (headOf ci x).length + (up ci x.length)) false b' ∧ c.drop (p + (headOf ci x).length + (up ci x.length)) = tail ∧ h'.WF ∧ h'.length = tagSize ci := by
  have hpos := hs.ready.pos
  have hcs := hs.chunk
  have hsl := (sealed_decipher hs ha hseal).1
  have hup := up_le ci k x.length hpos
  have hwl : (s.take (up ci x.length)).length = up ci x.length := by rw [List.length_take]; omega
  have hrs : readSize ci = up ci x.length := by rw [readSize_up ci hpos, hxl]
  obtain ⟨b', h', t', g1, g2, g3, g4, g5, g6, g7, g8⟩ := step hs ha hat hd hseal h t hw hl (s.take (up ci x.length))
    (by rw [hrs]; exact (List.take_left' hwl).symm)
    (by rw [hwl]) (by omega) (by rw [hwl]; exact up_mod ci x.length hpos) fuel (.file ⟨o, o.length, false⟩)
  rw [hwl] at g2 g7 g8
  rw [show decide ((s.take (up ci x.length) ++ tail).length < readSize ci) = false by simp; omega] at g2
  have heof := at_eof g2
  have hstrip : stripPad ci' (eofBlob b') t' = .ok x.length := by
    rw [heof]
    by_cases hm : ci.mode = .cfb
    · unfold stripPad
      rw [if_neg (by rw [ha.mode]; exact fun h => h.1 hm), g7, up, if_pos hm]
    · by_cases hc : chunkPad ci = 0
      · unfold stripPad
        rw [if_neg (by rw [chunkPad_agree ha]; rintro ⟨_, h | h⟩; exact h hc; cases h), g7, up, if_neg hm, paddedLength, if_neg]
        rw [chunkPad_zero ci hpos, ← hxl] at hc
        rw [hc]
        simp
      · have hnd : ¬ (ci.mode ≠ .cfb ∧ ci.cipher.cipher.blocksize - x.length % ci.cipher.cipher.blocksize = ci.cipher.cipher.blocksize) := by
          rintro ⟨_, h2⟩
          apply hc
          rw [chunkPad_zero ci hpos, ← hxl]
          have := Nat.mod_lt x.length hpos
          omega
        have hu := hup.2.2.2 hnd
        refine strip_padded (k := k) hs ha (by omega) false t' g6 hm (.inl hc) (by rw [g7, hu]) ?_
        rw [g8, hu, List.take_of_length_le (by rw [List.length_append, filled_length]; omega)]
  obtain ⟨t'', hf⟩ := finish_ok hs ha (k := k) (x := x) (by omega) fuel b' o h' t' g3 g5 g6 (by omega) hstrip (by
    rw [g8, List.take_take, Nat.min_eq_left hup.1, List.take_append_of_le_length (by rw [filled_length]; exact Nat.le_refl _), List.take_of_length_le (by rw [filled_length]; exact Nat.le_refl _)])
  refine ⟨b', h', t'', by rw [g1, hf], g2, ?_, g3, g4⟩
  have := drop_at (drop_at hd)
  rw [hwl] at this
  exact this

theorem decode {ci ci' : Content} (hs : Sound ci) (ha : Agree ci ci') {k : Nat} {rest body : List Byte} (hfr : Framed ci k rest body) :
    Restorable ci rest.length → ∀ (fuel : Nat) (c : List Byte) (p : Nat) (b : Blob) (o : List Byte) (h t : StringInfo), rest.length + 1 < fuel → At c p false b →
      c.drop p = body → h.WF → h.length = tagSize ci →
      decipherLoop ci' fuel b (.file ⟨o, o.length, false⟩) h t = .ok (true, .file ⟨o ++ rest, (o ++ rest).length, false⟩) := by
  have hpos := hs.ready.pos
  have hcs := hs.chunk
  induction hfr with
  | nil k =>
    intro _ fuel c p b o h t hfu hat hd hw hl
    obtain ⟨f, rfl⟩ : ∃ f, fuel = f + 1 := ⟨fuel - 1, by omega⟩
    rw [stop (sound_usable hs) ha hat h t hw hl (by rw [hd]; simp) f, List.append_nil]
  | more k x rest s body hxl hr hseal hfr ih =>
    intro hres fuel c p b o h t hfu hat hd hw hl
    obtain ⟨f, rfl⟩ : ∃ f, fuel = f + 1 := ⟨fuel - 1, by omega⟩
    rw [List.append_assoc] at hd
    obtain ⟨b', h', t', g1, g2, g3, g4, g5⟩ := step_more hs ha hat hxl hseal hd h t hw hl f o
    rw [g1, ih ?_ f c _ b' (o ++ x) h' t' (by rw [List.length_append] at hfu; omega) g2 g3 g4 g5, List.append_assoc]
    rw [List.length_append, hxl] at hres
    unfold Restorable at hres ⊢
    rw [Nat.add_mod_left] at hres
    rcases hres with h | h | h | h | h
    · exact .inl h
    · exact .inr (.inl h)
    · omega
    · exact .inr (.inr (.inr (.inl h)))
    · exact .inr (.inr (.inr (.inr h)))
  | last k x s hx hxl hseal =>
    intro hres fuel c p b o h t hfu hat hd hw hl
    have hx0 : x.length ≠ 0 := fun h => hx (List.length_eq_zero_iff.1 h)
    obtain ⟨f, rfl⟩ : ∃ f, fuel = f + 2 := ⟨fuel - 2, by omega⟩
    have hsl := (sealed_decipher hs ha hseal).1
    have hup := up_le ci k x.length hpos
    have hpl := padOf_length ci k x.length hpos
    have hmodlt := Nat.mod_lt x.length hpos
    by_cases hfull : x.length = ci.chunksize ∧ ci.mode ≠ .cfb ∧ chunkPad ci = 0
    · -- the padding is a block of its own
      obtain ⟨hf1, hf2, hf3⟩ := hfull
      have hd' : c.drop p = headOf ci x ++ (s.take (up ci x.length) ++ s.drop (up ci x.length)) := by rw [List.take_append_drop]; exact hd
      obtain ⟨b', h', t', g1, g2, g3, g4, g5⟩ := step_more hs ha hat hf1 hseal hd' h t hw hl (f + 1) o
      rw [g1]
      refine stop (sound_usable hs) ha g2 h' t' g4 g5 ?_ f _
      rw [g3, List.length_drop, hsl]
      have hc0 := (chunkPad_zero ci hpos).1 hf3
      have hup2 := hup.2.2.1 hf2 (by rw [hf1, hc0]; simp)
      have : ci.cipher.cipher.blocksize ≤ tagSize ci + entropySize ci := by
        rcases hres with h | h | h | h | h
        · exact absurd h hf2
        · exact absurd hc0 h
        · omega
        · exact h.2
        · rw [hf1, Nat.mod_self] at h
          exact absurd rfl h.1
      omega
    · -- the rest of the file is read
      have hlt : s.length ≤ readSize ci ∧ (ci.mode = .cfb ∨ chunkPad ci ≠ 0 ∨ s.length < readSize ci) := by
        rw [hsl, hpl]
        by_cases hm : ci.mode = .cfb
        · refine ⟨?_, .inl hm⟩
          unfold readSize
          rw [if_pos hm, if_pos hm]
          exact hxl
        · rw [if_neg hm]
          unfold readSize
          rw [if_neg hm]
          have hq1 := Nat.div_add_mod x.length ci.cipher.cipher.blocksize
          have hq2 := Nat.div_add_mod ci.chunksize ci.cipher.cipher.blocksize
          have hq3 := Nat.mod_lt ci.chunksize hpos
          by_cases hc : chunkPad ci = 0
          · have hc0 := (chunkPad_zero ci hpos).1 hc
            have hne : x.length ≠ ci.chunksize := fun h => hfull ⟨h, hm, hc⟩
            have hxm : x.length % ci.chunksize = x.length := Nat.mod_eq_of_lt (by omega)
            have hr : x.length + ci.cipher.cipher.blocksize < ci.chunksize := by
              rcases hres with h | h | h | h | h
              · exact absurd h hm
              · exact absurd hc0 h
              · omega
              · omega
              · omega
            exact ⟨by omega, .inr (.inr (by omega))⟩
          · refine ⟨?_, .inr (.inl hc)⟩
            have hq4 : x.length / ci.cipher.cipher.blocksize ≤ ci.chunksize / ci.cipher.cipher.blocksize := Nat.div_le_div_right hxl
            have hq5 := Nat.mul_le_mul_left ci.cipher.cipher.blocksize hq4
            have hcp : chunkPad ci = ci.cipher.cipher.blocksize - ci.chunksize % ci.cipher.cipher.blocksize := by
              unfold chunkPad at hc ⊢
              simp only [] at hc ⊢
              split
              · rename_i h
                rw [if_pos h] at hc
                exact absurd rfl hc
              · rfl
            rw [hcp]
            omega
      have hd' : c.drop p = headOf ci x ++ s := hd
      obtain ⟨b', h', t', g1, g2, g3, g4, g5, g6, g7, g8⟩ := step hs ha hat hd' hseal h t hw hl s
        (by rw [List.take_of_length_le hlt.1]) (by rw [List.take_of_length_le (Nat.le_refl _)]) (by omega)
        (by rw [hsl]; exact pad_mod ci k x.length hpos) (f + 1) (.file ⟨o, o.length, false⟩)
      have hb : t'.bytes = filled ci k x ++ padOf ci k x.length := by
        rw [g8, List.take_of_length_le (by rw [List.length_append, filled_length]; omega)]
      have hstrip : stripPad ci' (eofBlob b') t' = .ok x.length := by
        rw [at_eof g2]
        by_cases hm : ci.mode = .cfb
        · unfold stripPad
          rw [if_neg (by rw [ha.mode]; exact fun h => h.1 hm), g7, hsl, hpl, if_pos hm]
          rfl
        · refine strip_padded (k := k) hs ha (by omega) _ t' g6 hm ?_ (by rw [g7, hsl]) hb
          rcases hlt.2 with h | h | h
          · exact absurd h hm
          · exact .inl h
          · exact .inr (by simpa using h)
      obtain ⟨t'', hf⟩ := finish_ok hs ha (k := k) (x := x) (by omega) (f + 1) b' o h' t' g3 g5 g6 (by omega) hstrip (by
        rw [hb, List.take_append_of_le_length (by rw [filled_length]; exact Nat.le_refl _), List.take_of_length_le (by rw [filled_length]; exact Nat.le_refl _)])
      rw [g1, hf]
      refine stop (sound_usable hs) ha g2 h' t'' g3 g4 ?_ f _
      rw [show c.drop (p + (headOf ci x).length + s.length) = [] from drop_at (by rw [List.append_nil]; exact drop_at hd')]
      simp

end Wizard.ContentP

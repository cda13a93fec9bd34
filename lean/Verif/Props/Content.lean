import Verif.Lemmas.ContentMul
/-! C99-C102: enciphered files. -/
namespace Wizard.Props
open Wizard Wizard.Spec.Content Wizard.ContentP Wizard.Spec

theorem at_open (c : List Byte) (mapped : Bool) : At c 0 false (openRead c mapped) := by
  unfold openRead Stdio.fread Stdio.fseek
  simp only [List.drop_zero, Nat.zero_add, Nat.sub_self]
  split
  · exact ⟨by omega, .inr ⟨_, _, rfl⟩⟩
  · exact ⟨by omega, .inl rfl⟩

theorem acquire_small (n : Nat) (hn : n < 2 ^ 63) : ∃ t, acquireStringInfo n = .ok t ∧ t.WF ∧ t.length = n := by
  refine ⟨⟨n, List.replicate (n + maxCipherBlocksize) 0⟩, ?_, ?_, rfl⟩
  · unfold acquireStringInfo
    rw [if_pos]
    rw [sizeMax_val]
    unfold maxCipherBlocksize
    omega
  · show _ ≤ _
    simp

theorem tagSize_small {ci : Content} (hs : Usable ci) : tagSize ci < 2 ^ 62 := by
  unfold tagSize
  cases hh : ci.hmac with
  | none => simp
  | some v => exact (hs.tag v.1 v.2 hh).2

theorem content_start {ci ci' : Content} (hs : Usable ci) (ha : Agree ci ci') (fuel : Nat) (b out : Blob) :
    ∃ h t, h.WF ∧ h.length = tagSize ci ∧ decipherContent ci' fuel b out = decipherLoop ci' fuel b out h t := by
  have h1 := tagSize_small hs
  have h2 := hs.chunk
  obtain ⟨h, r1, w1, l1⟩ := acquire_small (tagSize ci) (by omega)
  obtain ⟨t, r2, _⟩ := acquire_small ci.chunksize (by omega)
  refine ⟨h, t, w1, l1, ?_⟩
  unfold decipherContent
  unfold tagSize at r1
  rw [ha.hmac, ha.chunksize]
  cases hh : ci.hmac with
  | none =>
    rw [hh] at r1
    simp only [] at r1 ⊢
    rw [r1, Res.ok_bind, r2, Res.ok_bind]
  | some v =>
    rw [hh] at r1
    simp only [] at r1 ⊢
    rw [r1, Res.ok_bind, r2, Res.ok_bind]

/-- **C99** Encipherment succeeds, unless the counter of CTR mode wraps within a chunk; it appends to what was written before. -/
theorem C99_enciphers (ci : Content) (hs : Sound ci) (m header : List Byte) (mapped : Bool) (fuel : Nat) (hf : m.length < fuel) (hc : CounterFits ci) :
    ∃ body, encipherContent ci fuel (openRead m mapped) (.file ⟨header, header.length, false⟩) = .ok (.file ⟨header ++ body, (header ++ body).length, false⟩) := by
  have h2 := hs.chunk
  obtain ⟨t, r2, _⟩ := acquire_small ci.chunksize (by omega)
  have hpos := hs.ready.pos
  have h := encipherLoop_frames hs m fuel 0 0 false (openRead m mapped) header t (0, 0) (at_open m mapped) (by rintro ⟨_, h⟩; simp only [] at h; omega)
  obtain ⟨out, ho⟩ := h.1 hc (by omega)
  obtain ⟨body, e1, _⟩ := h.2 out ho
  refine ⟨body, ?_⟩
  unfold encipherContent
  rw [r2, Res.ok_bind, ho, e1]

theorem framed_of_ok {ci : Content} (hs : Sound ci) {m header : List Byte} {mapped : Bool} {fuel : Nat} {out : Blob}
    (he : encipherContent ci fuel (openRead m mapped) (.file ⟨header, header.length, false⟩) = .ok out) :
    ∃ body, out = .file ⟨header ++ body, (header ++ body).length, false⟩ ∧ Framed ci 0 m body := by
  have h2 := hs.chunk
  obtain ⟨t, r2, _⟩ := acquire_small ci.chunksize (by omega)
  have hpos := hs.ready.pos
  unfold encipherContent at he
  rw [r2, Res.ok_bind] at he
  obtain ⟨body, e1, e2, e3⟩ := (encipherLoop_frames hs m fuel 0 0 false (openRead m mapped) header t (0, 0) (at_open m mapped) (by rintro ⟨_, h⟩; simp only [] at h; omega)).2 out he
  refine ⟨body, e1, ?_⟩
  rw [List.drop_zero] at e2 e3
  by_cases hm : m = []
  · have := e2 hm
    rw [if_neg (by rintro ⟨_, h⟩; simp only [] at h; omega)] at this
    rw [this, hm]
    exact .nil 0
  · exact e3 hm

/-- **C99** (part: files of the sizes that `Restorable` describes) A file that `encipher` has enciphered, behind any header, is restored exactly by
`decipher` with the same settings, key and nonce: in every mode, for every chunk size, every invertible cipher, with or without HMACs and
compression, and whether the files are mapped or not. -/
theorem C99_restored_partial (ci ci' : Content) (hs : Sound ci) (ha : Agree ci ci') (m header : List Byte) (mapped : Bool) (fuel : Nat) (out : Blob)
    (he : encipherContent ci fuel (openRead m mapped) (.file ⟨header, header.length, false⟩) = .ok out) (hr : Restorable ci m.length) :
    ∃ body, out = .file ⟨header ++ body, (header ++ body).length, false⟩ ∧
      ∀ (fuel' : Nat) (b : Blob), m.length + 1 < fuel' → At (header ++ body) header.length false b →
        decipherContent ci' fuel' b openWrite = .ok (true, .file ⟨m, m.length, false⟩) := by
  obtain ⟨body, e1, hfr⟩ := framed_of_ok hs he
  refine ⟨body, e1, ?_⟩
  intro fuel' b hfu hat
  obtain ⟨h, t, w, l, e⟩ := content_start (sound_usable hs) ha fuel' b openWrite
  rw [e]
  have := decode hs ha hfr hr fuel' (header ++ body) header.length b [] h t hfu hat (List.drop_left) w l
  simpa [openWrite] using this

/-- **C99** with the properties in a file of their own: what one program writes, the other opens and restores. -/
theorem C99_file_partial (ci ci' : Content) (hs : Sound ci) (ha : Agree ci ci') (m : List Byte) (mapped mapped' : Bool) (fuel fuel' : Nat) (hf : m.length + 1 < fuel')
    (body : List Byte) (he : encipherContent ci fuel (openRead m mapped) openWrite = .ok (.file ⟨body, body.length, false⟩)) (hr : Restorable ci m.length) :
    decipherContent ci' fuel' (openRead body mapped') openWrite = .ok (true, .file ⟨m, m.length, false⟩) := by
  obtain ⟨body', e1, h⟩ := C99_restored_partial ci ci' hs ha m [] mapped fuel _ he hr
  cases e1
  exact h fuel' _ hf (at_open _ _)

/-- **C99** With the default chunk size and HMAC and a cipher of blocks of 16 bytes in any other mode than CFB, the sizes that survive are those that do
not end within the last 16 bytes of a chunk. -/
theorem C99_default_sizes (ci : Content) (hm : ci.mode ≠ .cfb) (hb : ci.cipher.cipher.blocksize = 16) (hc : ci.chunksize = 262144) (ht : tagSize ci = 32) (n : Nat) :
    Restorable ci n ↔ n % 262144 < 262128 := by
  unfold Restorable
  rw [hb, hc, ht]
  constructor
  · rintro (h | h | h | h | h)
    · exact absurd h hm
    · omega
    · omega
    · omega
    · omega
  · intro h
    by_cases h0 : n % 262144 = 0
    · exact .inr (.inr (.inr (.inl ⟨h0, by omega⟩)))
    · exact .inr (.inr (.inr (.inr ⟨h0, by omega⟩)))

theorem last_of {pre x m : List Byte} {cs q : Nat} (hm : m = pre ++ x) (hq : pre.length = cs * q) (hl : x.length ≤ cs) (hr : m.length % cs ≠ 0) :
    x.length = m.length % cs ∧ pre = m.take (m.length - m.length % cs) := by
  have h1 : m.length % cs = x.length % cs := by rw [hm, List.length_append, hq, Nat.mul_add_mod]
  have h2 : x.length ≠ cs := by
    intro h
    rw [h1, h, Nat.mod_self] at hr
    exact hr rfl
  have h3 : x.length % cs = x.length := Nat.mod_eq_of_lt (by omega)
  refine ⟨by omega, ?_⟩
  rw [h1, h3, hm, List.length_append, Nat.add_sub_cancel, List.take_left]

/-- **C99** fails: let the chunk size be a multiple of the block size, and let the file end within the last block of a chunk, or just before it.  The padding
then fills the chunk, `EOFBlob` is not true after it was read, and the padding is not removed: the HMAC does not match, and `decipher` fails ("corrupt
cipher chunk") without the last chunk.  The data are lost.  With the default settings this happens to one file in 16384.  (The hypothesis says that the HMAC of
the last chunk is not that of a string of another length.) -/
theorem C99_lost_violated (ci ci' : Content) (hs : Sound ci) (ha : Agree ci ci') (hm : ci.mode ≠ .cfb) (hmul : ci.chunksize % ci.cipher.cipher.blocksize = 0)
    (m header : List Byte) (mapped : Bool) (fuel : Nat) (out : Blob)
    (he : encipherContent ci fuel (openRead m mapped) (.file ⟨header, header.length, false⟩) = .ok out)
    (hr0 : m.length % ci.chunksize ≠ 0) (hr : ci.chunksize ≤ m.length % ci.chunksize + ci.cipher.cipher.blocksize)
    (n : Nat) (f : List Byte → List Byte) (hh : ci.hmac = some (n, f))
    (hcol : ∀ y : List Byte, y.length = ci.chunksize → f y ≠ f (m.drop (m.length - m.length % ci.chunksize))) :
    ∃ body, out = .file ⟨header ++ body, (header ++ body).length, false⟩ ∧
      ∀ (fuel' : Nat) (b : Blob), m.length + 2 < fuel' → At (header ++ body) header.length false b →
        ∃ o, decipherContent ci' fuel' b openWrite = .ok (false, .file ⟨o, o.length, false⟩) ∧ o = m.take (m.length - m.length % ci.chunksize) := by
  obtain ⟨body, e1, hfr⟩ := framed_of_ok hs he
  refine ⟨body, e1, ?_⟩
  intro fuel' b hfu hat
  have hcs := hs.chunk
  have hne : m ≠ [] := by
    intro h
    rw [h] at hr0
    exact hr0 (Nat.zero_mod _)
  obtain ⟨kk, pre, x, s, d1, d2, d3, ⟨q, d4⟩, d5, d6⟩ := to_last hs ha hfr hne
  obtain ⟨l1, l2⟩ := last_of d1 d4 d3 hr0
  have hlt := Nat.mod_lt m.length hcs.1
  obtain ⟨h, t, w, l, e⟩ := content_start (sound_usable hs) ha fuel' b openWrite
  obtain ⟨f', b', h', t', q', g1, g2, g3, g4, g5⟩ := d6 fuel' (header ++ body) header.length b [] h t hfu hat List.drop_left w l
  have hx : m.drop (m.length - m.length % ci.chunksize) = x := by
    have : m.length - m.length % ci.chunksize = pre.length := by rw [← l1, d1, List.length_append]; omega
    rw [this, d1, List.drop_left]
  rw [hx] at hcol
  have hlb := (last_block hs ha g2 hm hmul (by omega) (by omega) d5 g3 h' t' g4 g5 (f' + 1) ([] ++ pre)).1 n f hh hcol
  refine ⟨pre, ?_, l2⟩
  rw [e]
  unfold openWrite
  rw [show ([] : List Byte).length = 0 from rfl] at g1
  rw [g1, hlb]
  rfl

/-- **C99** fails without HMACs and compression: for the same sizes the padding stays at the end of the deciphered file, and `decipher` reports success. -/
theorem C99_padded_violated (ci ci' : Content) (hs : Sound ci) (ha : Agree ci ci') (hm : ci.mode ≠ .cfb) (hmul : ci.chunksize % ci.cipher.cipher.blocksize = 0)
    (m header : List Byte) (mapped : Bool) (fuel : Nat) (out : Blob)
    (he : encipherContent ci fuel (openRead m mapped) (.file ⟨header, header.length, false⟩) = .ok out)
    (hr0 : m.length % ci.chunksize ≠ 0) (hr : ci.chunksize ≤ m.length % ci.chunksize + ci.cipher.cipher.blocksize) (hh : ci.hmac = none) (hen : ci.entropy = none) :
    ∃ body, out = .file ⟨header ++ body, (header ++ body).length, false⟩ ∧
      ∀ (fuel' : Nat) (b : Blob), m.length + 2 < fuel' → At (header ++ body) header.length false b →
        ∃ pad, pad ≠ [] ∧ decipherContent ci' fuel' b openWrite = .ok (true, .file ⟨m ++ pad, (m ++ pad).length, false⟩) := by
  obtain ⟨body, e1, hfr⟩ := framed_of_ok hs he
  refine ⟨body, e1, ?_⟩
  intro fuel' b hfu hat
  have hcs := hs.chunk
  have hpos := hs.ready.pos
  have hne : m ≠ [] := by
    intro h
    rw [h] at hr0
    exact hr0 (Nat.zero_mod _)
  obtain ⟨kk, pre, x, s, d1, d2, d3, ⟨q, d4⟩, d5, d6⟩ := to_last hs ha hfr hne
  obtain ⟨l1, l2⟩ := last_of d1 d4 d3 hr0
  have hlt := Nat.mod_lt m.length hcs.1
  obtain ⟨h, t, w, l, e⟩ := content_start (sound_usable hs) ha fuel' b openWrite
  obtain ⟨f', b', h', t', q', g1, g2, g3, g4, g5⟩ := d6 fuel' (header ++ body) header.length b [] h t hfu hat List.drop_left w l
  have hlb := (last_block hs ha g2 hm hmul (by omega) (by omega) d5 g3 h' t' g4 g5 (f' + 1) ([] ++ pre)).2 hh hen
  refine ⟨padOf ci kk x.length, ?_, ?_⟩
  · intro h0
    have h1 := padOf_length ci kk x.length hpos
    rw [h0, if_neg hm] at h1
    have := Nat.mod_lt x.length hpos
    simp at h1
    omega
  · rw [e]
    unfold openWrite
    rw [show ([] : List Byte).length = 0 from rfl] at g1
    rw [g1, hlb, d1]
    simp

theorem headOf_length {ci : Content} (hs : Sound ci) (x : List Byte) : (headOf ci x).length = tagSize ci + entropySize ci := by
  unfold headOf tagOf entropyOf tagSize entropySize
  rw [List.length_append]
  congr 1
  · cases hh : ci.hmac with
    | none => rfl
    | some v => exact (hs.tag v.1 v.2 hh).2.2 x
  · cases ci.entropy <;> rfl

/-- The first chunk of a file of more than one. -/
theorem framed_more {ci : Content} (hs : Sound ci) {k : Nat} {m body : List Byte} (hfr : Framed ci k m body) (hm : ci.chunksize < m.length) :
    ∃ s, Sealed ci k (m.take ci.chunksize) s ∧ body = (headOf ci (m.take ci.chunksize) ++ s.take (up ci ci.chunksize)) ++ body.drop (stride ci) ∧
      (headOf ci (m.take ci.chunksize) ++ s.take (up ci ci.chunksize)).length = stride ci ∧ Framed ci (k + 1) (m.drop ci.chunksize) (body.drop (stride ci)) := by
  have hpos := hs.ready.pos
  cases hfr with
  | nil => simp at hm
  | last _ _ s h1 h2 h3 => omega
  | more _ x rest s body hxl hr hseal hfr =>
    have hsl := (sealed_decipher hs (agree_self ci) hseal).1
    have hup := up_le ci k x.length hpos
    have e1 : (x ++ rest).take ci.chunksize = x := List.take_left' hxl
    have e2 : (x ++ rest).drop ci.chunksize = rest := List.drop_left' hxl
    have hlen : (headOf ci x ++ s.take (up ci ci.chunksize)).length = stride ci := by
      rw [stride_eq ci hpos, readSize_up ci hpos, List.length_append, headOf_length hs, List.length_take, hsl, ← hxl]
      omega
    rw [e1, e2, hxl]
    refine ⟨s, hseal, ?_, hlen, ?_⟩
    · rw [List.drop_left' hlen]
    · rw [List.drop_left' hlen]
      exact hfr

/-- Settings like those that `encipher` begins with: AES in CTR mode, chunks of 256 KiB, checks of three bytes (here the length of the chunk), no compression. -/
def sample : Content where
  mode := .ctr
  cipher := { cipher := aesCipher [1, 2, 3], nonce := ⟨16, List.replicate 144 0⟩, random := fun _ => 7 }
  chunksize := 262144
  hmac := some (3, fun m => [BitVec.ofNat 8 m.length, BitVec.ofNat 8 (m.length / 256), BitVec.ofNat 8 (m.length / 65536)])
  entropy := none
  pads := fun _ i => BitVec.ofNat 8 i
  fills := fun _ _ => 0
  junk := fun _ => 0

theorem sample_sound : Sound sample where
  ready := ⟨by decide, by decide, (by show 16 + maxCipherBlocksize ≤ (List.replicate 144 (0 : Byte)).length; rw [List.length_replicate]; decide), rfl, (aes_sized_invertible _).1⟩
  invertible := (aes_sized_invertible _).2
  chunk := by decide
  tag := by rintro n h e; cases e; exact ⟨by decide, by decide, fun _ => rfl⟩
  packer := by rintro e h; cases h

theorem sample_fits : CounterFits sample := fun _ => by decide +kernel

/-- Files of 600000 bytes are enciphered and survive; files of 262130 bytes do not: the hypotheses of C99 can be met. -/
example : Restorable sample 600000 ∧ ¬ Restorable sample 262130 ∧
    (∃ body, encipherContent sample 600001 (openRead (List.replicate 600000 5) false) openWrite = .ok (.file ⟨body, body.length, false⟩)) ∧
    ∀ y : List Byte, y.length = sample.chunksize → (fun m : List Byte => [BitVec.ofNat 8 m.length, BitVec.ofNat 8 (m.length / 256), BitVec.ofNat 8 (m.length / 65536)]) y ≠
      (fun m : List Byte => [BitVec.ofNat 8 m.length, BitVec.ofNat 8 (m.length / 256), BitVec.ofNat 8 (m.length / 65536)]) (List.replicate 262130 (5 : Byte)) := by
  refine ⟨by decide, by decide, ?_, ?_⟩
  · obtain ⟨body, h⟩ := C99_enciphers sample sample_sound (List.replicate 600000 5) [] false 600001 (by rw [List.length_replicate]; decide) sample_fits
    exact ⟨body, h⟩
  · intro y hy
    simp only [hy, List.length_replicate]
    decide

/-- Files cut between two chunks. -/
theorem cut {ci ci' : Content} (hs : Sound ci) (ha : Agree ci ci') : ∀ (j k : Nat) (m body : List Byte), Framed ci k m body → j * ci.chunksize < m.length →
    ∀ (fuel : Nat) (c : List Byte) (p : Nat) (b : Blob) (o : List Byte) (h t : StringInfo), j < fuel → At c p false b → c.drop p = body.take (j * stride ci) → h.WF → h.length = tagSize ci →
      decipherLoop ci' fuel b (.file ⟨o, o.length, false⟩) h t = .ok (true, .file ⟨o ++ m.take (j * ci.chunksize), (o ++ m.take (j * ci.chunksize)).length, false⟩) := by
  intro j
  induction j with
  | zero =>
    intro k m body hfr hj fuel c p b o h t hfu hat hd hw hl
    obtain ⟨f, rfl⟩ : ∃ f, fuel = f + 1 := ⟨fuel - 1, by omega⟩
    rw [stop (sound_usable hs) ha hat h t hw hl (by rw [hd]; simp) f]
    simp
  | succ j ih =>
    intro k m body hfr hj fuel c p b o h t hfu hat hd hw hl
    have hmul : (j + 1) * ci.chunksize = ci.chunksize + j * ci.chunksize := by rw [Nat.add_mul, Nat.one_mul, Nat.add_comm]
    have hmul2 : (j + 1) * stride ci = stride ci + j * stride ci := by rw [Nat.add_mul, Nat.one_mul, Nat.add_comm]
    obtain ⟨s, hseal, hb, hlen, hfr'⟩ := framed_more hs hfr (by omega)
    have hxl : (m.take ci.chunksize).length = ci.chunksize := by rw [List.length_take]; omega
    obtain ⟨f, rfl⟩ : ∃ f, fuel = f + 1 := ⟨fuel - 1, by omega⟩
    have hd' : c.drop p = headOf ci (m.take ci.chunksize) ++ (s.take (up ci (m.take ci.chunksize).length) ++ (body.drop (stride ci)).take (j * stride ci)) := by
      rw [hd, hmul2, hxl]
      conv => lhs; rw [hb]
      rw [← hlen, List.take_length_add_append, List.append_assoc]
    obtain ⟨b', h', t', g1, g2, g3, g4, g5⟩ := step_more hs ha hat hxl hseal hd' h t hw hl f o
    rw [g1, ih (k + 1) _ _ hfr' (by rw [List.length_drop]; omega) f c _ b' _ h' t' (by omega) g2 g3 g4 g5]
    rw [hmul, List.take_add]
    simp [List.append_assoc]

/-- **C100** (part: what `decipher` writes is no forgery, chunk by chunk) Let HMACs be used.  Whatever the enciphered file contains, and whether `decipher` succeeds or
fails, what it has written are strings, each of which has the HMAC that the file has before the chunk it was deciphered from. -/
theorem C100_checked_partial (ci : Content) (hs : Usable ci) (n : Nat) (f : List Byte → List Byte) (hh : ci.hmac = some (n, f)) (c : List Byte) (fuel p : Nat) (b : Blob) (hat : At c p false b)
    (st : Bool) (out : Blob) (hd : decipherContent ci fuel b openWrite = .ok (st, out)) :
    ∃ ys : List (List Byte), out = .file ⟨ys.flatten, ys.flatten.length, false⟩ ∧ ∀ i y, ys[i]? = some y → (c.drop (p + i * stride ci)).take n = f y := by
  obtain ⟨h, t, w, l, e⟩ := content_start hs (agree_self ci) fuel b openWrite
  rw [e] at hd
  obtain ⟨ys, h1, h2⟩ := (any_file hs c fuel p false b [] h t hat w l).2 st out (by simpa [openWrite] using hd)
  refine ⟨ys, by simpa using h1, fun i y hy => h2 n f hh i y hy⟩

/-- **C100** fails: an enciphered file that is cut between two chunks is accepted: `decipher` reports success, and the rest of the data are missing. -/
theorem C100_cut_violated (ci ci' : Content) (hs : Sound ci) (ha : Agree ci ci') (m header body : List Byte) (mapped : Bool) (fuel : Nat)
    (he : encipherContent ci fuel (openRead m mapped) (.file ⟨header, header.length, false⟩) = .ok (.file ⟨header ++ body, (header ++ body).length, false⟩))
    (j : Nat) (hj : j * ci.chunksize < m.length) (fuel' : Nat) (hf : j < fuel') (b : Blob) (hat : At (header ++ body.take (j * stride ci)) header.length false b) :
    decipherContent ci' fuel' b openWrite = .ok (true, .file ⟨m.take (j * ci.chunksize), (m.take (j * ci.chunksize)).length, false⟩) := by
  obtain ⟨body', e1, hfr⟩ := framed_of_ok hs he
  simp only [Blob.file.injEq, Stdio.mk.injEq, List.append_cancel_left_eq] at e1
  obtain ⟨h, t, w, l, e⟩ := content_start (sound_usable hs) ha fuel' b openWrite
  rw [e]
  have := cut hs ha j 0 m body (by rw [e1.1]; exact hfr) hj fuel' _ _ b [] h t hf hat List.drop_left w l
  simpa [openWrite] using this

/-- **C100** fails: the chunks of an enciphered file can be exchanged: `decipher` reports success, and its output has the chunks in the wrong order. -/
theorem C100_swapped_violated (ci ci' : Content) (hs : Sound ci) (ha : Agree ci ci') (m header body : List Byte) (mapped : Bool) (fuel : Nat)
    (he : encipherContent ci fuel (openRead m mapped) (.file ⟨header, header.length, false⟩) = .ok (.file ⟨header ++ body, (header ++ body).length, false⟩))
    (hm : 2 * ci.chunksize < m.length) (hr : Restorable ci m.length) (fuel' : Nat) (hf : m.length + 1 < fuel') (b : Blob)
    (hat : At (header ++ ((body.drop (stride ci)).take (stride ci) ++ (body.take (stride ci) ++ body.drop (2 * stride ci)))) header.length false b) :
    let o := (m.drop ci.chunksize).take ci.chunksize ++ m.take ci.chunksize ++ m.drop (2 * ci.chunksize)
    decipherContent ci' fuel' b openWrite = .ok (true, .file ⟨o, o.length, false⟩) := by
  obtain ⟨body', e1, hfr⟩ := framed_of_ok hs he
  simp only [Blob.file.injEq, Stdio.mk.injEq, List.append_cancel_left_eq] at e1
  rw [← e1.1] at hfr
  have hcs := hs.chunk
  obtain ⟨s1, hs1, hb1, hl1, hfr1⟩ := framed_more hs hfr (by omega)
  obtain ⟨s2, hs2, hb2, hl2, hfr2⟩ := framed_more hs hfr1 (by rw [List.length_drop]; omega)
  have hx1 : (m.take ci.chunksize).length = ci.chunksize := by rw [List.length_take]; omega
  have hx2 : ((m.drop ci.chunksize).take ci.chunksize).length = ci.chunksize := by rw [List.length_take, List.length_drop]; omega
  rw [List.drop_drop, ← Nat.two_mul] at hb2
  rw [List.drop_drop, List.drop_drop, ← Nat.two_mul ci.chunksize, ← Nat.two_mul (stride ci)] at hfr2
  have t1 : body.take (stride ci) = headOf ci (m.take ci.chunksize) ++ s1.take (up ci ci.chunksize) := by
    conv => lhs; rw [hb1]
    exact List.take_left' hl1
  have t2 : (body.drop (stride ci)).take (stride ci) = headOf ci ((m.drop ci.chunksize).take ci.chunksize) ++ s2.take (up ci ci.chunksize) := by
    conv => lhs; rw [hb2]
    exact List.take_left' hl2
  obtain ⟨h, t, w, l, e⟩ := content_start (sound_usable hs) ha fuel' b openWrite
  obtain ⟨f, rfl⟩ : ∃ f, fuel' = f + 1 + 1 := ⟨fuel' - 2, by omega⟩
  obtain ⟨b1, h1, t1', g1, g2, g3, g4, g5⟩ := step_more hs ha hat hx2 hs2 (by rw [List.drop_left, t2, hx2, List.append_assoc]) h t w l (f + 1) []
  obtain ⟨b2, h2, t2', k1, k2, k3, k4, k5⟩ := step_more hs ha g2 hx1 hs1 (by rw [g3, t1, hx1, List.append_assoc]) h1 t1' g4 g5 f ([] ++ (m.drop ci.chunksize).take ci.chunksize)
  have hr' : Restorable ci (m.drop (2 * ci.chunksize)).length := by
    have e1 : (m.drop (2 * ci.chunksize)).length % ci.chunksize = m.length % ci.chunksize := by
      rw [List.length_drop]
      conv => rhs; rw [show m.length = m.length - 2 * ci.chunksize + 2 * ci.chunksize by omega]
      rw [Nat.add_mul_mod_self_right]
    unfold Restorable at hr ⊢
    rw [e1]
    rcases hr with h | h | h | h | h
    · exact .inl h
    · exact .inr (.inl h)
    · omega
    · exact .inr (.inr (.inr (.inl h)))
    · exact .inr (.inr (.inr (.inr h)))
  have := decode hs ha hfr2 hr' f _ _ b2 ([] ++ (m.drop ci.chunksize).take ci.chunksize ++ m.take ci.chunksize) h2 t2' (by rw [List.length_drop]; omega) k2 k3 k4 k5
  intro o
  rw [e]
  unfold openWrite
  rw [show ([] : List Byte).length = 0 from rfl] at g1
  rw [g1, k1, this]
  rfl

theorem xor_cancel (a b c : Byte) : (a ^^^ c) ^^^ (b ^^^ c) = a ^^^ b := by
  rw [BitVec.xor_comm b c, BitVec.xor_assoc, ← BitVec.xor_assoc c, BitVec.xor_self, BitVec.zero_xor]

/-- Every chunk is combined with the same bytes. -/
theorem same_stream {ci : Content} (hs : Sound ci) (hen : ci.entropy = none) (hm : ci.mode = .ctr ∨ ci.mode = .ofb) :
    ∃ ks : Nat → Byte, ∀ (i k : Nat) (m body : List Byte), Framed ci k m body → ∀ r, r < ci.chunksize → i * ci.chunksize + r < m.length →
      body.getD (i * stride ci + tagSize ci + r) 0 = m.getD (i * ci.chunksize + r) 0 ^^^ ks r := by
  have hpos := hs.ready.pos
  have hes : entropySize ci = 0 := by unfold entropySize; rw [hen]
  have key : ∃ ks : Nat → Byte, ∀ (k : Nat) (x s : List Byte), Sealed ci k x s → ∀ r, r < x.length → s.getD r 0 = x.getD r 0 ^^^ ks r := by
    have common : ∀ (k : Nat) (x s : List Byte), Sealed ci k x s → ∃ t t' : StringInfo, t.WF ∧ t.length = x.length ∧ t.bytes = x ∧ encipherCipher ci.mode { ci.cipher with random := ci.pads k } t = .ok t' ∧
        ∀ r, r < x.length → s.getD r 0 = t'.bytes.getD r 0 := by
      rintro k x s ⟨t, t', h1, h2, h3, h4⟩
      have hf : filled ci k x = x := by unfold filled; rw [hen]
      rw [hf] at h2
      have hl : t.length = x.length := by rw [← StringInfo.bytes_length h1, h2]
      have := (encipher_byte ci.mode _ (ready_with ci.cipher hs.ready _) t t' h1 h3).1
      refine ⟨t, t', h1, hl, h2, h3, fun r hr => ?_⟩
      rw [h4]
      unfold StringInfo.bytes
      rw [List.getD_eq_getElem?_getD, List.getD_eq_getElem?_getD, List.getElem?_take, List.getElem?_take, if_pos (by omega), if_pos (by omega)]
    rcases hm with hm | hm
    · refine ⟨fun r => (ci.cipher.cipher.encipher (Modes.counterBlock ci.cipher.cipher.blocksize (beNat ci.cipher.nonce.bytes + r / ci.cipher.cipher.blocksize))).getD
          (r % ci.cipher.cipher.blocksize) 0, fun k x s hse r hr => ?_⟩
      obtain ⟨t, t', c1, c2, c3, c4, c5⟩ := common k x s hse
      rw [c5 r hr, (encipher_byte ci.mode _ (ready_with ci.cipher hs.ready _) t t' c1 c4).2.2.1 hm r (by omega), c3]
    · refine ⟨fun r => (iter ci.cipher.cipher.encipher (r / ci.cipher.cipher.blocksize + 1) ci.cipher.nonce.bytes).getD (r % ci.cipher.cipher.blocksize) 0, fun k x s hse r hr => ?_⟩
      obtain ⟨t, t', c1, c2, c3, c4, c5⟩ := common k x s hse
      rw [c5 r hr, (encipher_byte ci.mode _ (ready_with ci.cipher hs.ready _) t t' c1 c4).2.2.2 hm r (by omega), c3]
  obtain ⟨ks, key⟩ := key
  refine ⟨ks, ?_⟩
  intro i
  induction i with
  | zero =>
    intro k m body hfr r hr hm
    rw [Nat.zero_mul, Nat.zero_add] at hm ⊢
    rw [Nat.zero_mul, Nat.zero_add]
    have hb : ∃ x s w rest tail, m = x ++ rest ∧ r < x.length ∧ Sealed ci k x s ∧ body = headOf ci x ++ (s.take w ++ tail) ∧ r < w ∧ r < s.length := by
      cases hfr with
      | nil => simp at hm
      | last _ _ s h1 h2 h3 =>
        have hsl := (sealed_decipher hs (agree_self ci) h3).1
        exact ⟨m, s, s.length, [], [], by simp, hm, h3, by simp, by omega, by omega⟩
      | more _ x rest s body hxl h2 hseal hfr =>
        have hsl := (sealed_decipher hs (agree_self ci) hseal).1
        have hup := up_le ci k x.length hpos
        exact ⟨x, s, up ci x.length, rest, body, rfl, by omega, hseal, by rw [List.append_assoc], by omega, by omega⟩
    obtain ⟨x, s, w, rest, tail, e1, hx, hse, e2, hw, hrs⟩ := hb
    have hh := headOf_length hs x
    rw [hes, Nat.add_zero] at hh
    have q1 : body.getD (tagSize ci + r) 0 = s.getD r 0 := by
      rw [e2, ← hh, List.getD_eq_getElem?_getD, List.getD_eq_getElem?_getD, List.getElem?_append_right (by omega), Nat.add_sub_cancel_left,
        List.getElem?_append_left (by rw [List.length_take]; omega), List.getElem?_take, if_pos hw]
    have q2 : m.getD r 0 = x.getD r 0 := by
      rw [e1, List.getD_eq_getElem?_getD, List.getD_eq_getElem?_getD, List.getElem?_append_left hx]
    rw [q1, q2]
    exact key k x s hse r hx
  | succ i ih =>
    intro k m body hfr r hr hm
    have hmul : (i + 1) * ci.chunksize = ci.chunksize + i * ci.chunksize := by rw [Nat.add_mul, Nat.one_mul, Nat.add_comm]
    have hmul2 : (i + 1) * stride ci = stride ci + i * stride ci := by rw [Nat.add_mul, Nat.one_mul, Nat.add_comm]
    obtain ⟨s, hseal, hb, hlen, hfr'⟩ := framed_more hs hfr (by omega)
    have := ih (k + 1) _ _ hfr' r hr (by rw [List.length_drop]; omega)
    rw [List.getD_eq_getElem?_getD, List.getD_eq_getElem?_getD, List.getElem?_drop, List.getElem?_drop] at this
    rw [List.getD_eq_getElem?_getD, List.getD_eq_getElem?_getD, hmul, hmul2, Nat.add_assoc, Nat.add_assoc, Nat.add_assoc, ← Nat.add_assoc (i * stride ci)]
    exact this

/-- **C101** fails: in CTR and OFB mode, without compression, every chunk of a file is enciphered with the same stream of bytes, because the nonce is
set again for every chunk: the difference of the enciphered bytes of two chunks is that of the bytes of the file. -/
theorem C101_chunks_violated (ci : Content) (hs : Sound ci) (hen : ci.entropy = none) (hm : ci.mode = .ctr ∨ ci.mode = .ofb) (m header body : List Byte) (mapped : Bool) (fuel : Nat)
    (he : encipherContent ci fuel (openRead m mapped) (.file ⟨header, header.length, false⟩) = .ok (.file ⟨header ++ body, (header ++ body).length, false⟩))
    (i j r : Nat) (hr : r < ci.chunksize) (hi : i * ci.chunksize + r < m.length) (hj : j * ci.chunksize + r < m.length) :
    body.getD (i * stride ci + tagSize ci + r) 0 ^^^ body.getD (j * stride ci + tagSize ci + r) 0 = m.getD (i * ci.chunksize + r) 0 ^^^ m.getD (j * ci.chunksize + r) 0 := by
  obtain ⟨body', e1, hfr⟩ := framed_of_ok hs he
  simp only [Blob.file.injEq, Stdio.mk.injEq, List.append_cancel_left_eq] at e1
  rw [← e1.1] at hfr
  obtain ⟨ks, h⟩ := same_stream hs hen hm
  rw [h i 0 m body hfr r hr hi, h j 0 m body hfr r hr hj]
  exact xor_cancel _ _ _

/-- **C99** fails for files that end with a chunk, in CTR mode without HMACs and compression: the block of padding behind the last chunk is deciphered with the
counter of the first block of a chunk instead of that of the block behind it, and unless the two key streams happen to end with the same byte, what
`decipher` delivers, if anything, is not the file but the file and more. -/
theorem C99_multiple_violated (ci ci' : Content) (hs : Sound ci) (ha : Agree ci ci') (hr' : ci'.cipher.Ready) (hm : ci.mode = .ctr) (hmul : ci.chunksize % ci.cipher.cipher.blocksize = 0)
    (hh : ci.hmac = none) (hen : ci.entropy = none) (m header : List Byte) (mapped : Bool) (fuel : Nat) (out : Blob)
    (he : encipherContent ci fuel (openRead m mapped) (.file ⟨header, header.length, false⟩) = .ok out) (h0 : m ≠ []) (hr : m.length % ci.chunksize = 0)
    (hks : (ci.cipher.cipher.encipher (Modes.counterBlock ci.cipher.cipher.blocksize (beNat ci.cipher.nonce.bytes))).getD (ci.cipher.cipher.blocksize - 1) 0 ≠
      (ci.cipher.cipher.encipher (Modes.counterBlock ci.cipher.cipher.blocksize (beNat ci.cipher.nonce.bytes + ci.chunksize / ci.cipher.cipher.blocksize))).getD (ci.cipher.cipher.blocksize - 1) 0) :
    ∃ body, out = .file ⟨header ++ body, (header ++ body).length, false⟩ ∧
      ∀ (fuel' : Nat) (b : Blob), m.length + 2 < fuel' → At (header ++ body) header.length false b → ∀ st delivered, decipherContent ci' fuel' b openWrite = .ok (st, delivered) →
        ∃ more, more ≠ [] ∧ delivered = .file ⟨m ++ more, (m ++ more).length, false⟩ := by
  obtain ⟨body, e1, hfr⟩ := framed_of_ok hs he
  refine ⟨body, e1, ?_⟩
  intro fuel' b hfu hat st delivered hdel
  have hcs := hs.chunk
  have hpos := hs.ready.pos
  have hle := hs.ready.le
  obtain ⟨kk, pre, x, s, d1, d2, d3, ⟨q, d4⟩, d5, d6⟩ := to_last hs ha hfr h0
  have hxl : x.length = ci.chunksize := by
    have h1 : m.length % ci.chunksize = x.length % ci.chunksize := by rw [d1, List.length_append, d4, Nat.mul_add_mod]
    have h2 := List.length_pos_iff.2 d2
    rcases Nat.lt_or_ge x.length ci.chunksize with h | h
    · rw [Nat.mod_eq_of_lt h] at h1
      omega
    · omega
  have hdiv : ci.chunksize = ci.chunksize / ci.cipher.cipher.blocksize * ci.cipher.cipher.blocksize := by
    have := Nat.div_add_mod ci.chunksize ci.cipher.cipher.blocksize
    rw [hmul, Nat.add_zero, Nat.mul_comm] at this
    exact this.symm
  have hncf : ci.mode ≠ .cfb := by rw [hm]; decide
  have hup : up ci x.length = ci.chunksize := by
    have := readSize_up ci hpos
    rw [hxl, ← this]
    unfold readSize
    rw [if_neg hncf, (chunkPad_zero ci hpos).2 hmul, Nat.add_zero]
  have hsl := (sealed_decipher hs (agree_self ci) d5).1
  have hpl : (padOf ci kk x.length).length = ci.cipher.cipher.blocksize := by
    rw [padOf_length ci kk _ hpos, if_neg hncf, hxl, hmul, Nat.sub_zero]
  obtain ⟨h, t, w, l, e⟩ := content_start (sound_usable hs) ha fuel' b openWrite
  obtain ⟨f', b', h', t', q', g1, g2, g3, g4, g5⟩ := d6 fuel' (header ++ body) header.length b [] h t hfu hat List.drop_left w l
  obtain ⟨b2, h2, t2, k1, k2, k3, k4, k5⟩ := step_more hs ha g2 hxl d5 (tail := s.drop (up ci x.length)) (by rw [List.take_append_drop]; exact g3) h' t' g4 g5 (f' + 2) ([] ++ pre)
  rw [e] at hdel
  unfold openWrite at hdel
  rw [show ([] : List Byte).length = 0 from rfl] at g1
  rw [g1, k1] at hdel
  have hu' : Usable ci' := ⟨hr', by rw [ha.chunksize]; exact hcs, by rw [ha.hmac]; exact fun n f hn => ⟨(hs.tag n f hn).1, (hs.tag n f hn).2.1⟩⟩
  have hz := sealed_last hs d5 hm hen (q := ci.chunksize / ci.cipher.cipher.blocksize) (by rw [hxl]; exact hdiv)
  rw [← hdiv] at hz
  have hEl : ∀ n, (ci.cipher.cipher.encipher (Modes.counterBlock ci.cipher.cipher.blocksize n)).length = ci.cipher.cipher.blocksize := fun n => (hs.ready.sized _ (by simp [Modes.counterBlock])).1
  have hzl : (s.drop (up ci x.length)).length = ci'.cipher.cipher.blocksize := by
    rw [List.length_drop, hup, hsl, hpl, hxl, ha.cipher]
    omega
  have hts : tagSize ci' = tagSize ci := by unfold tagSize; rw [ha.hmac]
  obtain ⟨y, hy, hout⟩ := stray_block hu' (by rw [ha.mode, hm]) (by rw [ha.hmac, hh]) (by rw [ha.entropy, hen]) (by rw [ha.chunksize, ha.cipher]; exact hmul) k2 k3 hzl
    (by
      rw [ha.cipher, ha.nonce, hup, hz, xor_getD _ _ _ (by rw [Modes.xor, List.length_zipWith, hpl, hEl]; omega) (by rw [hEl]; omega),
        xor_getD _ _ _ (by rw [hpl]; omega) (by rw [hEl]; omega)]
      have hlast : (padOf ci kk x.length).getD (ci.cipher.cipher.blocksize - 1) 0 = BitVec.ofNat 8 (ci.cipher.cipher.blocksize - 1) := by
        unfold padOf padding
        rw [if_neg hncf, hxl, hmul, Nat.sub_zero, List.getD_eq_getElem?_getD, List.getElem?_append_right (by simp)]
        simp
      rw [hlast]
      generalize hA : (ci.cipher.cipher.encipher (Modes.counterBlock ci.cipher.cipher.blocksize (beNat ci.cipher.nonce.bytes + ci.chunksize / ci.cipher.cipher.blocksize))).getD (ci.cipher.cipher.blocksize - 1) 0 = A at hks ⊢
      generalize hB : (ci.cipher.cipher.encipher (Modes.counterBlock ci.cipher.cipher.blocksize (beNat ci.cipher.nonce.bytes))).getD (ci.cipher.cipher.blocksize - 1) 0 = B at hks ⊢
      generalize BitVec.ofNat 8 (ci.cipher.cipher.blocksize - 1) = P
      intro hPP
      apply hks
      have h3 : P ^^^ (A ^^^ B) = P ^^^ 0#8 := by rw [← BitVec.xor_assoc, hPP, BitVec.xor_zero]
      have h4 : A ^^^ B = 0#8 := by
        have := congrArg (P ^^^ ·) h3
        simpa [← BitVec.xor_assoc] using this
      have h5 := congrArg (A ^^^ ·) h4
      simpa [← BitVec.xor_assoc] using h5)
    (f' + 1) ([] ++ pre ++ x) h2 t2 k4 (by rw [hts]; exact k5) st delivered hdel
  refine ⟨y, hy, ?_⟩
  rw [hout, d1]
  rfl

example : (id (Modes.counterBlock 16 0)).getD 15 0 ≠ (id (Modes.counterBlock 16 (0 + 160 / 16))).getD 15 0 := by decide

/-- **C102** Whatever the enciphered file contains, with settings that make sense `decipher` does nothing undefined. -/
theorem C102_safe (ci : Content) (hs : Usable ci) (c : List Byte) (mapped : Bool) (fuel : Nat) : decipherContent ci fuel (openRead c mapped) openWrite ≠ .ub := by
  obtain ⟨h, t, w, l, e⟩ := content_start hs (agree_self ci) fuel (openRead c mapped) openWrite
  rw [e]
  simpa [openWrite] using (any_file hs c fuel 0 false _ [] h t (at_open c mapped) w l).1

end Wizard.Props

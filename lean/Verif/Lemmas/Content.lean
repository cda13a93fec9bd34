import Verif.Spec.Content
import Verif.Lemmas.Modes
import Verif.Props.Cipher
import Verif.Props.StringInfo
import Verif.Props.Blob
/-! What chunks become when they are enciphered, and that deciphering gives them back. -/
namespace Wizard.ContentP
open Wizard Wizard.Spec.Content Wizard.Props Wizard.Spec

theorem sizeMax_val : sizeMax = 2 ^ 64 := by unfold sizeMax; rfl

theorem resize_ok (s : StringInfo) (n : Nat) (junk : Nat → Byte) (hn : n < 2 ^ 63) :
    ∃ r, setStringInfoLength s n junk = .ok r ∧ r.length = n ∧ r.datum.length = n + maxCipherBlocksize ∧
      ∀ k, k ≤ s.datum.length → k ≤ n + maxCipherBlocksize → r.datum.take k = s.datum.take k := by
  refine ⟨⟨n, reallocMem s.datum (n + maxCipherBlocksize) junk⟩, ?_, rfl, by simp, ?_⟩
  · unfold setStringInfoLength
    rw [if_pos]
    rw [sizeMax_val]
    unfold maxCipherBlocksize
    omega
  · intro k h1 h2
    simp only [reallocMem]
    rw [List.take_append_of_le_length (by rw [List.length_take]; omega), List.take_take, Nat.min_eq_left h2]

/-- The padding of a chunk of `n` bytes. -/
def padOf (ci : Content) (k n : Nat) : List Byte :=
  if ci.mode = .cfb then [] else padding (ci.pads k) (ci.cipher.cipher.blocksize - n % ci.cipher.cipher.blocksize)

/-- A chunk after compression. -/
def filled (ci : Content) (k : Nat) (x : List Byte) : List Byte :=
  match ci.entropy with
  | none => x
  | some e => if (e.pack x).length > x.length then x else e.pack x ++ (List.range (x.length - (e.pack x).length)).map (ci.fills k)

theorem filled_length (ci : Content) (k : Nat) (x : List Byte) : (filled ci k x).length = x.length := by
  unfold filled
  split
  · rfl
  · split
    · rfl
    · simp; omega

/-- The HMAC of a chunk. -/
def tagOf (ci : Content) (x : List Byte) : List Byte := match ci.hmac with | none => [] | some (_, h) => h x

/-- The byte that says how a chunk is compressed. -/
def entropyOf (ci : Content) (x : List Byte) : List Byte :=
  match ci.entropy with | none => [] | some e => [if (e.pack x).length > x.length then noEntropy else e.type]

/-- Whether a chunk is compressed. -/
def packedOf (ci : Content) (x : List Byte) : Bool := match ci.entropy with | none => false | some e => decide (¬ (e.pack x).length > x.length)

/-- What comes before a chunk. -/
def headOf (ci : Content) (x : List Byte) : List Byte := tagOf ci x ++ entropyOf ci x

/-- The chunk `x` becomes `s`, with its padding. -/
def Sealed (ci : Content) (k : Nat) (x s : List Byte) : Prop :=
  ∃ t t', t.WF ∧ t.bytes = filled ci k x ∧ encipherCipher ci.mode { ci.cipher with random := ci.pads k } t = .ok t' ∧
    s = t'.datum.take (x.length + (padOf ci k x.length).length)

theorem padOf_length (ci : Content) (k n : Nat) (hb : 0 < ci.cipher.cipher.blocksize) :
    (padOf ci k n).length = if ci.mode = .cfb then 0 else ci.cipher.cipher.blocksize - n % ci.cipher.cipher.blocksize := by
  unfold padOf
  split
  · rfl
  · unfold padding
    have := Nat.mod_lt n hb
    simp
    omega

theorem bytes_len {t : StringInfo} (h : t.WF) : t.bytes.length = t.length := StringInfo.bytes_length h

theorem ready_with (c : CipherInfo) (h : c.Ready) (r : Nat → Byte) : ({ c with random := r } : CipherInfo).Ready :=
  ⟨h.pos, h.le, h.nonce, h.nonceLength, h.sized⟩

/-- Deciphering a prefix of whole blocks. -/
theorem sealed_decipher {ci ci' : Content} (hs : Sound ci) (ha : Agree ci ci') {k : Nat} {x s : List Byte} (h : Sealed ci k x s) :
    s.length = x.length + (padOf ci k x.length).length ∧
    ∀ u : StringInfo, u.WF → u.length ≤ s.length → (ci.mode = .cfb ∨ u.length % ci.cipher.cipher.blocksize = 0) → u.bytes = s.take u.length →
      ∃ r, decipherCipher ci'.mode ci'.cipher u = .ok r ∧ r.length = u.length ∧ r.datum.length = u.datum.length ∧
        r.bytes = (filled ci k x ++ padOf ci k x.length).take u.length := by
  obtain ⟨t, t', hw, hb, he, hse⟩ := h
  let c : CipherInfo := { ci.cipher with random := ci.pads k }
  have hc : c.Ready := ready_with _ hs.ready _
  have htl : t.length = x.length := by rw [← bytes_len hw, hb, filled_length]
  have hw' : t.length + maxCipherBlocksize ≤ t.datum.length := hw
  obtain ⟨d, h1, h2, h3, h4, h5, h6, h7⟩ := encipherMode_eq ci.mode c hc t hw
  have hpos : 0 < modeStride ci.mode c.cipher := by have := hc.pos; unfold modeStride; split <;> omega
  have hle := hc.le
  have hle' : modeStride ci.mode c.cipher ≤ maxCipherBlocksize := by have := hc.pos; unfold modeStride; split <;> omega
  have hk := (mode_keeps ci.mode c.cipher hc.sized hc.pos).1
  have hsz := chunks_size (modeStride ci.mode c.cipher) (encTurns ci.mode c.cipher t.length) d (by omega)
  have hpd : (if ci.mode = .cfb then [] else cipherPadding c t) = padOf ci k x.length := by
    unfold padOf cipherPadding padding
    rw [htl]
  rw [hpd, hb] at h6
  have htot : modeStride ci.mode c.cipher * encTurns ci.mode c.cipher t.length = x.length + (padOf ci k x.length).length := by
    have := congrArg List.length h6
    rw [List.length_take, List.length_append, filled_length, Nat.min_eq_left (by omega)] at this
    exact this
  rw [he] at h7
  cases hr : runSteps (encStep ci.mode c.cipher) (startReg ci.mode c)
          (chunks (modeStride ci.mode c.cipher) (encTurns ci.mode c.cipher t.length) d) with
  | ub => rw [hr] at h7; cases h7
  | fatal => rw [hr] at h7; cases h7
  | ok r =>
    rw [hr, Res.ok_bind] at h7
    injection h7 with h7
    obtain ⟨hr1, hr2⟩ := runSteps_length hk _ _ _ (startReg_inv ci.mode c hc) hsz hr
    rw [chunks_length] at hr1
    have hfl := flatten_length r hr2
    rw [hr1, htot] at hfl
    have hsr : s = r.flatten := by
      rw [hse, h7]
      show List.take _ (_ ++ _) = _
      rw [List.take_append_of_le_length (by omega), List.take_of_length_le (by omega)]
    refine ⟨by rw [hsr, hfl], ?_⟩
    intro u hu hul hm hub
    have hu' : u.length + maxCipherBlocksize ≤ u.datum.length := hu
    have hmod : ci'.mode = ci.mode := ha.mode
    have hc' : ci'.cipher.Ready := ⟨ha.cipher ▸ hc.pos, ha.cipher ▸ hc.le, ha.nonce ▸ hc.nonce, by rw [ha.nonce, ha.cipher]; exact hc.nonceLength, ha.cipher ▸ hc.sized⟩
    have hcc : ci'.cipher.cipher = c.cipher := ha.cipher
    have hreg : startReg ci.mode ci'.cipher = startReg ci.mode c := by unfold startReg; rw [ha.cipher, ha.nonce]
    rw [hmod, decipherMode_eq ci.mode ci'.cipher hc' u hu, hcc, hreg]
    have hdiv : modeStride ci.mode c.cipher * turns (modeStride ci.mode c.cipher) u.length = u.length := by
      have h8 := turns_ge (modeStride ci.mode c.cipher) u.length hpos
      have h9 := turns_lt (modeStride ci.mode c.cipher) u.length hpos
      have h0 : u.length % modeStride ci.mode c.cipher = 0 := by
        unfold modeStride
        split
        · exact Nat.mod_one _
        · rename_i hne
          rcases hm with h | h
          · exact absurd h hne
          · exact h
      obtain ⟨q, hq⟩ := Nat.dvd_of_mod_eq_zero h0
      rw [hq] at h8 h9 ⊢
      congr 1
      have a1 : q ≤ turns (modeStride ci.mode c.cipher) (modeStride ci.mode c.cipher * q) := Nat.le_of_mul_le_mul_left h8 hpos
      have a2 : turns (modeStride ci.mode c.cipher) (modeStride ci.mode c.cipher * q) < q + 1 := by
        apply Nat.lt_of_mul_lt_mul_left (a := modeStride ci.mode c.cipher)
        rw [Nat.mul_succ]
        exact h9
      omega
    have htu : turns (modeStride ci.mode c.cipher) u.length ≤ encTurns ci.mode c.cipher t.length := by
      have hmm : modeStride ci.mode c.cipher * turns (modeStride ci.mode c.cipher) u.length ≤
          modeStride ci.mode c.cipher * encTurns ci.mode c.cipher t.length := by
        rw [hdiv, htot]
        rw [hsr, hfl] at hul
        exact hul
      exact Nat.le_of_mul_le_mul_left hmm hpos
    have hcong : chunks (modeStride ci.mode c.cipher) (turns (modeStride ci.mode c.cipher) u.length) u.datum =
        r.take (turns (modeStride ci.mode c.cipher) u.length) := by
      have e1 : u.datum.take (modeStride ci.mode c.cipher * turns (modeStride ci.mode c.cipher) u.length) =
          (r.flatten ++ []).take (modeStride ci.mode c.cipher * turns (modeStride ci.mode c.cipher) u.length) := by
        rw [hdiv, List.append_nil, ← hsr]
        exact hub
      rw [chunks_congr _ _ u.datum (r.flatten ++ []) e1]
      exact chunks_flatten_append _ _ _ hr2 _ (by omega)
    have hinv : c.cipher.Invertible := hs.invertible
    rw [hcong, runSteps_undo hk (mode_undoes ci.mode c.cipher hc.sized hinv) _ _ _ (startReg_inv ci.mode c hc) hsz hr,
      chunks_take _ _ _ _ htu, Res.ok_bind, hdiv]
    have hdt : (d.take u.length).length = u.length := by rw [List.length_take]; rw [hsr, hfl] at hul; omega
    rw [chunks_flatten, hdiv]
    refine ⟨_, rfl, rfl, ?_, ?_⟩
    · simp only [List.length_append, List.length_drop]
      omega
    · simp only [StringInfo.bytes]
      rw [List.take_append_of_le_length (by omega), List.take_of_length_le (by omega), ← h6, List.take_take, Nat.min_eq_left]
      rw [htot]
      rw [hsr, hfl] at hul
      exact hul

/-- The length of what is written of a chunk that is not the last. -/
def up (ci : Content) (n : Nat) : Nat := if ci.mode = .cfb then n else paddedLength ci.cipher.cipher.blocksize n

/-- What a file becomes. -/
inductive Framed (ci : Content) : Nat → List Byte → List Byte → Prop where
  | nil (k : Nat) : Framed ci k [] []
  | more (k : Nat) (x rest s body : List Byte) : x.length = ci.chunksize → rest ≠ [] → Sealed ci k x s → Framed ci (k + 1) rest body →
      Framed ci k (x ++ rest) (headOf ci x ++ s.take (up ci x.length) ++ body)
  | last (k : Nat) (x s : List Byte) : x ≠ [] → x.length ≤ ci.chunksize → Sealed ci k x s → Framed ci k x (headOf ci x ++ s)

theorem writeAll_end (c d : List Byte) (e : Bool) : writeAll (.file ⟨c, c.length, e⟩) d = .ok (.file ⟨c ++ d, (c ++ d).length, e⟩) := by
  unfold writeAll
  rw [write_end, Res.ok_bind]

theorem putTag_end (ci : Content) (t : StringInfo) (o : List Byte) (e : Bool) :
    putTag ci t (.file ⟨o, o.length, e⟩) = .ok (.file ⟨o ++ tagOf ci t.bytes, (o ++ tagOf ci t.bytes).length, e⟩) := by
  unfold putTag tagOf
  cases ci.hmac with
  | none => simp only [List.append_nil]
  | some v => exact writeAll_end _ _ _

theorem bufferOf_wf (b : List Byte) : (bufferOf b).WF ∧ (bufferOf b).bytes = b := by
  constructor
  · show _ ≤ _
    simp [bufferOf]
  · simp [bufferOf, StringInfo.bytes]

theorem putEntropy_end (ci : Content) (k : Nat) (t : StringInfo) (ht : t.WF) (o : List Byte) (e : Bool) :
    ∃ t', putEntropy ci k t (.file ⟨o, o.length, e⟩) = .ok (t', .file ⟨o ++ entropyOf ci t.bytes, (o ++ entropyOf ci t.bytes).length, e⟩) ∧
      t'.WF ∧ t'.length = t.length ∧ t'.datum.length = t.datum.length ∧ t'.bytes = filled ci k t.bytes := by
  unfold putEntropy filled entropyOf
  have hbl := bytes_len ht
  cases he : ci.entropy with
  | none =>
    simp only [List.append_nil]
    exact ⟨t, rfl, ht, rfl, rfl, rfl⟩
  | some p =>
    simp only []
    rw [hbl]
    generalize p.pack t.bytes = q
    by_cases hg : q.length > t.length
    · simp only [if_pos hg]
      rw [writeAll_end, Res.ok_bind]
      exact ⟨t, rfl, ht, rfl, rfl, rfl⟩
    · simp only [if_neg hg]
      obtain ⟨r, h1, h2, h3, h4, h5⟩ := setStringInfo_spec t (bufferOf q) ht (bufferOf_wf _).1
      have hw : t.length + maxCipherBlocksize ≤ t.datum.length := ht
      rw [h1, Res.ok_bind, wrN_ok (by simp; omega), Res.ok_bind, writeAll_end, Res.ok_bind]
      rw [(bufferOf_wf _).2] at h4
      refine ⟨_, rfl, ?_, h2, ?_, ?_⟩
      · show _ ≤ _
        simp
        omega
      · simp
        omega
      · have hp : r.datum.take q.length = q := by
          have := congrArg (List.take q.length) h4
          rw [StringInfo.bytes, List.take_take, Nat.min_eq_left (by omega), List.take_append_of_le_length (by rw [List.length_take]; omega), List.take_take, Nat.min_eq_left (by omega), List.take_of_length_le (Nat.le_refl _)] at this
          exact this
        show List.take r.length (r.datum.take q.length ++ _ ++ _) = _
        rw [hp, List.take_append_of_le_length (by simp; omega), List.take_of_length_le (by simp; omega)]

theorem up_le (ci : Content) (k n : Nat) (hb : 0 < ci.cipher.cipher.blocksize) : n ≤ up ci n ∧ up ci n ≤ n + (padOf ci k n).length ∧
    (ci.mode ≠ .cfb → ci.cipher.cipher.blocksize - n % ci.cipher.cipher.blocksize = ci.cipher.cipher.blocksize → up ci n = n ∧ (padOf ci k n).length = ci.cipher.cipher.blocksize) ∧
    (¬ (ci.mode ≠ .cfb ∧ ci.cipher.cipher.blocksize - n % ci.cipher.cipher.blocksize = ci.cipher.cipher.blocksize) → up ci n = n + (padOf ci k n).length) := by
  rw [padOf_length ci k n hb]
  unfold up paddedLength
  by_cases hm : ci.mode = .cfb
  · rw [if_pos hm, if_pos hm]
    exact ⟨Nat.le_refl _, Nat.le_refl _, fun h => absurd hm h, fun _ => rfl⟩
  · rw [if_neg hm, if_neg hm]
    by_cases hp : ci.cipher.cipher.blocksize - n % ci.cipher.cipher.blocksize = ci.cipher.cipher.blocksize
    · rw [if_neg (by simpa using hp)]
      exact ⟨Nat.le_refl _, by omega, fun _ _ => ⟨rfl, hp⟩, fun h => absurd ⟨hm, hp⟩ h⟩
    · rw [if_pos hp]
      exact ⟨by omega, by omega, fun _ h => absurd h hp, fun _ => rfl⟩

theorem write_prefix {d x : List Byte} (h : x.length ≤ d.length) : ∃ d', wrN d 0 x = .ok d' ∧ d'.length = d.length ∧ d'.take x.length = x ∧
    (x.length = 0 → d' = d) := by
  refine ⟨x ++ d.drop x.length, ?_, ?_, ?_, ?_⟩
  · rw [wrN_ok (by omega)]
    simp
  · simp
    omega
  · simp
  · intro hx
    rw [List.length_eq_zero_iff.1 hx]
    simp

theorem encipherLoop_frames {ci : Content} (hs : Sound ci) (m : List Byte) : ∀ (fuel k p : Nat) (e : Bool) (b : Blob) (o : List Byte) (t : StringInfo) (last : Nat × Nat),
    At m p e b → (ci.mode ≠ .cfb ∧ last.1 = ci.cipher.cipher.blocksize → last.2 + ci.cipher.cipher.blocksize ≤ t.datum.length ∧
      last.2 + ci.cipher.cipher.blocksize ≤ ci.chunksize + maxCipherBlocksize) →
    (CounterFits ci → m.length - p < fuel → ∃ out, encipherLoop ci fuel k b (.file ⟨o, o.length, false⟩) t last = .ok out) ∧
    ∀ out, encipherLoop ci fuel k b (.file ⟨o, o.length, false⟩) t last = .ok out →
      ∃ body, out = .file ⟨o ++ body, (o ++ body).length, false⟩ ∧
        (m.drop p = [] → body = if ci.mode ≠ .cfb ∧ last.1 = ci.cipher.cipher.blocksize then (t.datum.drop last.2).take ci.cipher.cipher.blocksize else []) ∧
        (m.drop p ≠ [] → Framed ci k (m.drop p) body) := by
  intro fuel
  induction fuel with
  | zero =>
    intro k p e b o t last _ _
    refine ⟨fun _ h => by omega, ?_⟩
    intro out h
    cases h
  | succ fuel ih =>
    intro k p e b o t last hat hlast
    have hpos := hs.ready.pos
    have hbl := hs.ready.le
    have hcs := hs.chunk
    have hp : p ≤ m.length := hat.1
    rw [encipherLoop]
    obtain ⟨t1, r1, l1, d1, k1⟩ := resize_ok t ci.chunksize ci.junk (by omega)
    obtain ⟨b1, r2, a2⟩ := chunk_spec hat ci.chunksize 3 (by omega)
    rw [r1, Res.ok_bind, r2, Res.ok_bind]
    obtain ⟨d, w1, w2, w3, w4⟩ := write_prefix (d := t1.datum) (x := (m.drop p).take ci.chunksize) (by rw [d1, List.length_take]; omega)
    simp only []
    rw [w1, Res.ok_bind]
    generalize hx : (m.drop p).take ci.chunksize = x at *
    have hxl : x.length = min ci.chunksize (m.length - p) := by rw [← hx, List.length_take, List.length_drop]
    by_cases hz : x.length = 0
    · rw [if_pos hz]
      have hnil : m.drop p = [] := by
        apply List.length_eq_zero_iff.1
        rw [List.length_drop]
        omega
      by_cases hc : ci.mode ≠ .cfb ∧ last.1 = ci.cipher.cipher.blocksize
      · rw [if_pos hc]
        obtain ⟨q1, q2⟩ := hlast hc
        have hdd : (d.drop last.2).take ci.cipher.cipher.blocksize = (t.datum.drop last.2).take ci.cipher.cipher.blocksize := by
          have := congrArg (List.drop last.2) (k1 (last.2 + ci.cipher.cipher.blocksize) q1 q2)
          rw [List.drop_take, List.drop_take, show last.2 + ci.cipher.cipher.blocksize - last.2 = ci.cipher.cipher.blocksize by omega] at this
          rw [w4 hz]
          exact this
        rw [rdN_ok (by omega), Res.ok_bind, writeAll_end, hdd]
        refine ⟨fun _ _ => ⟨_, rfl⟩, ?_⟩
        intro out h
        cases h
        refine ⟨_, rfl, fun _ => by rw [if_pos hc], fun h => absurd hnil h⟩
      · rw [if_neg hc]
        refine ⟨fun _ _ => ⟨_, rfl⟩, ?_⟩
        intro out h
        cases h
        refine ⟨[], by simp, fun _ => by rw [if_neg hc], fun h => absurd hnil h⟩
    · rw [if_neg hz]
      have hne : m.drop p ≠ [] := by
        intro h
        rw [h] at hx
        rw [← hx] at hz
        simp at hz
      obtain ⟨t2, r3, l3, d3, k3⟩ := resize_ok ({ t1 with datum := d } : StringInfo) x.length ci.junk (by omega)
      have hb2 : t2.bytes = x := by
        rw [StringInfo.bytes, l3, k3 x.length (by show _ ≤ d.length; rw [w2, d1]; omega) (by omega)]
        exact w3
      have hw2 : t2.WF := by
        show _ ≤ _
        omega
      rw [r3, Res.ok_bind, putTag_end, Res.ok_bind]
      obtain ⟨t3, r4, hw3, l4, d4, hb3⟩ := putEntropy_end ci k t2 hw2
        (o ++ tagOf ci t2.bytes) false
      rw [r4, Res.ok_bind]
      simp only []
      rw [hb2] at hb3
      have hc : ({ ci.cipher with random := ci.pads k } : CipherInfo).Ready := ready_with _ hs.ready _
      obtain ⟨em, hem, heml, heq⟩ := encipher_modes ci.mode _ hc t3 hw3
      have htl : t3.length = x.length := by omega
      rcases Classical.em (ci.mode = .ctr ∧ 256 ^ ci.cipher.cipher.blocksize ≤ beNat ci.cipher.nonce.bytes + (t3.length / ci.cipher.cipher.blocksize + 1)) with hw | hw
      · rw [heq, if_pos hw]
        refine ⟨fun hcf _ => ?_, fun out h => by cases h⟩
        have h1 := hcf hw.1
        have h2 : t3.length / ci.cipher.cipher.blocksize ≤ ci.chunksize / ci.cipher.cipher.blocksize := Nat.div_le_div_right (by omega)
        omega
      · rw [if_neg hw] at heq
        generalize hz' : Modes.encipher ci.mode ci.cipher.cipher.encipher ci.cipher.cipher.blocksize ci.cipher.nonce.bytes em = z at heq
        obtain ⟨t4, ht4⟩ : ∃ t4, t4 = (⟨t3.length, z ++ t3.datum.drop em.length⟩ : StringInfo) := ⟨_, rfl⟩
        rw [← ht4] at heq
        have hb4 := encipher_byte ci.mode _ hc t3 t4 hw3 heq
        rw [heq, Res.ok_bind]
        have hup := up_le ci k x.length hpos
        have hpl := padOf_length ci k x.length hpos
        have hple : (padOf ci k x.length).length ≤ ci.cipher.cipher.blocksize := by
          rw [hpl]
          split <;> omega
        have hupd : (if ci.mode = .cfb then x.length else paddedLength ci.cipher.cipher.blocksize x.length) = up ci x.length := rfl
        simp only [hupd]
        have hl4 : t4.datum.length = x.length + maxCipherBlocksize := by rw [hb4.2.1, d4, d3]
        rw [rdN_ok (by omega), Res.ok_bind, writeAll_end, Res.ok_bind]
        have hseal : Sealed ci k x (t4.datum.take (x.length + (padOf ci k x.length).length)) := ⟨t3, t4, hw3, hb3, heq, rfl⟩
        have hslen : (t4.datum.take (x.length + (padOf ci k x.length).length)).length = x.length + (padOf ci k x.length).length := by
          rw [List.length_take]
          omega
        have hhead : o ++ tagOf ci t2.bytes ++ entropyOf ci t2.bytes = o ++ headOf ci x := by
          rw [hb2, headOf, List.append_assoc]
        rw [hhead]
        simp only [List.drop_zero]
        have hih := ih (k + 1) (p + min ci.chunksize (m.length - p)) _ b1 (o ++ headOf ci x ++ t4.datum.take (up ci x.length)) t4
          (if ci.mode = .cfb then last.1 else ci.cipher.cipher.blocksize - x.length % ci.cipher.cipher.blocksize, up ci x.length) a2 (by
            rintro ⟨g1, g2⟩
            rw [if_neg g1] at g2
            have := hup.2.2.1 g1 g2
            omega)
        refine ⟨fun hcf hfu => ?_, ?_⟩
        · refine hih.1 hcf ?_
          omega
        · intro out h
          obtain ⟨body, e1, e2, e3⟩ := hih.2 out h
          refine ⟨headOf ci x ++ t4.datum.take (up ci x.length) ++ body, by rw [e1]; simp [List.append_assoc], fun h => absurd h hne, fun _ => ?_⟩
          have hsplit : m.drop p = x ++ m.drop (p + min ci.chunksize (m.length - p)) := by
            rw [← hxl, ← List.drop_drop]
            have : (m.drop p).take x.length = x := by
              rw [← hx, List.length_take]
              by_cases hge : ci.chunksize ≤ (m.drop p).length
              · rw [Nat.min_eq_left hge]
              · rw [Nat.min_eq_right (by omega), List.take_of_length_le (Nat.le_refl _), List.take_of_length_le (by omega)]
            conv => lhs; rw [← List.take_append_drop x.length (m.drop p), this]
          by_cases hr : m.drop (p + min ci.chunksize (m.length - p)) = []
          · have hb := e2 hr
            rw [hsplit, hr, List.append_nil]
            have hfin : t4.datum.take (up ci x.length) ++ body = t4.datum.take (x.length + (padOf ci k x.length).length) := by
              by_cases hcond : ci.mode ≠ .cfb ∧ ci.cipher.cipher.blocksize - x.length % ci.cipher.cipher.blocksize = ci.cipher.cipher.blocksize
              · rw [hb, if_neg hcond.1, if_pos hcond]
                obtain ⟨u1, u2⟩ := hup.2.2.1 hcond.1 hcond.2
                simp only []
                rw [u1, u2, List.take_add]
              · rw [hb, if_neg, List.append_nil, hup.2.2.2 hcond]
                rintro ⟨g1, g2⟩
                rw [if_neg g1] at g2
                exact hcond ⟨g1, g2⟩
            rw [List.append_assoc, hfin]
            exact .last k x _ (by intro h; rw [h] at hz; simp at hz) (by omega) hseal
          · rw [hsplit]
            have hxc : x.length = ci.chunksize := by
              rw [hxl]
              have : (m.drop (p + min ci.chunksize (m.length - p))).length ≠ 0 := by
                intro h
                exact hr (List.length_eq_zero_iff.1 h)
              rw [List.length_drop] at this
              omega
            have hf := Framed.more k x _ _ body hxc hr hseal (e3 hr)
            rw [List.take_take, Nat.min_eq_left hup.2.1] at hf
            exact hf

end Wizard.ContentP

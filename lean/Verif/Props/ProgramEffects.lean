import Verif.Props.Programs
import Verif.Props.Content
import Verif.Props.Secret
/-! C173: what `encipher` and `decipher` do to files, whatever they are given. -/
namespace Wizard.Props
open Wizard Wizard.Spec Wizard.Spec.Command Wizard.Spec.Content Wizard.Spec.Packet Wizard.Spec.Keyring Wizard.Spec.Secret Wizard.Spec.Programs Wizard.SecretP Wizard.ContentP

theorem res_bind {α β : Type} {x : Res α} {g : α → Res β} {y : β} (h : (x.bind g) = .ok y) : ∃ a, x = .ok a ∧ g a = .ok y := by
  cases x with
  | ok a => exact ⟨a, rfl, h⟩
  | ub => cases h
  | fatal => cases h

/-! ### Which files change -/

/-- What a run of `decipher` that ends has done: nothing; or the output is empty; or authentication succeeded and the output is what was deciphered. -/
theorem decipher_ends {kit : Kit} {run : Run} {st : CommandState} {cipherName plain : List Byte} {files files' : Files} {r : Bool}
    (h : decipherFiles kit run st cipherName plain files = .ok (r, files')) :
    (r = false ∧ files' = files ∧ files cipherName = none) ∨ (r = false ∧ files' = withFile files plain (some [])) ∨
    ∃ text s b rest key out, files cipherName ≠ none ∧ withFile files plain (some []) (st.properties.getD cipherName) = some text ∧
      getContentInfo run.packet run.loops st.settings text = .ok (.settings s b rest) ∧
      findKey kit run s st.passphrase (withFile files plain (some []) (st.keyring.getD kit.home)) = .ok (some key) ∧
      decipherWith kit run s key ((withFile files plain (some []) cipherName).getD [])
        (if st.properties = none then ((withFile files plain (some []) cipherName).getD []).length - rest.length else 0) = .ok (r, out) ∧
      files' = withFile (withFile files plain (some [])) plain (some out) := by
  unfold decipherFiles at h
  cases h1 : files cipherName with
  | none =>
    rw [h1] at h
    cases h
    exact .inl ⟨rfl, rfl, rfl⟩
  | some c0 =>
    rw [h1] at h
    simp only [] at h
    right
    cases h2 : withFile files plain (some []) (st.properties.getD cipherName) with
    | none =>
      rw [h2] at h
      cases h
      exact .inl ⟨rfl, rfl⟩
    | some text =>
      rw [h2] at h
      simp only [] at h
      obtain ⟨g, h3, h⟩ := res_bind h
      cases g with
      | refused => cases h; exact .inl ⟨rfl, rfl⟩
      | forever => cases h
      | overrun => cases h
      | settings s b rest =>
        simp only [] at h
        obtain ⟨k, h4, h⟩ := res_bind h
        cases k with
        | none => cases h; exact .inl ⟨rfl, rfl⟩
        | some key =>
          simp only [] at h
          obtain ⟨o, h5, h⟩ := res_bind h
          cases h
          exact .inr ⟨text, s, b, rest, key, o.2, by simp, rfl, h3, h4, h5, rfl⟩

/-- **C173** Whatever is on the command line and in the files: `decipher` changes no file but the one it is to write. -/
theorem C173_decipher (kit : Kit) (run : Run) (args : List (List Byte)) (files files' : Files) (r : Bool) (h : runDecipher kit run args files = .ok (r, files')) :
    files' = files ∨ ∃ st c q, encipherCommand run.command kit.version args = .ok (.run st c q) ∧ ∀ z, z ≠ q → files' z = files z := by
  unfold runDecipher at h
  obtain ⟨o, h1, h⟩ := res_bind h
  cases o with
  | run st c q =>
    right
    refine ⟨st, c, q, h1, fun z hz => ?_⟩
    rcases decipher_ends h with ⟨_, rfl, _⟩ | ⟨_, rfl⟩ | ⟨_, _, _, _, _, _, _, _, _, _, _, rfl⟩
    · rfl
    · rw [withFile_other _ hz]
    · rw [withFile_other _ hz, withFile_other _ hz]
  | failed => cases h; exact .inl rfl
  | _ => cases h; exact .inl rfl

theorem encipher_only {kit : Kit} {run : Run} {st : CommandState} {plain cipherName : List Byte} {files files' : Files} {r : Bool}
    (h : encipherFiles kit run st plain cipherName files = .ok (r, files')) (z : List Byte) (h1 : z ≠ cipherName) (h2 : z ≠ st.keyring.getD kit.home) (h3 : st.properties ≠ some z) :
    files' z = files z := by
  unfold encipherFiles at h
  cases e1 : files plain with
  | none => rw [e1] at h; cases h; rfl
  | some c0 =>
    rw [e1] at h
    simp only [] at h
    obtain ⟨s, _, h⟩ := res_bind h
    obtain ⟨g, _, h⟩ := res_bind h
    cases g with
    | none => cases h
    | some g =>
      obtain ⟨b, s', rf⟩ := g
      cases b with
      | false => cases h; rw [withFile_other _ h1]
      | true =>
        simp only [encipherWith] at h
        cases e2 : modeOf st.settings.mode with
        | none => rw [e2] at h; cases h
        | some mode =>
          rw [e2] at h
          simp only [] at h
          obtain ⟨c, _, h⟩ := res_bind h
          obtain ⟨o, _, h⟩ := res_bind h
          cases h
          rw [withFile_other _ h1]
          unfold putProperties
          cases e3 : st.properties with
          | none => show withFile _ _ _ z = _; rw [withFile_other _ h2, withFile_other _ h1]
          | some p =>
            have : z ≠ p := fun h => h3 (by rw [e3, h])
            show withFile _ _ _ z = _
            rw [withFile_other _ this, withFile_other _ h2, withFile_other _ h1]

/-- **C173** Whatever is on the command line and in the files: `encipher` changes no file but the ciphertext, the key ring and the file of properties. -/
theorem C173_encipher (kit : Kit) (run : Run) (args : List (List Byte)) (files files' : Files) (r : Bool) (h : runEncipher kit run args files = .ok (r, files')) :
    files' = files ∨ ∃ st p c, encipherCommand run.command kit.version args = .ok (.run st p c) ∧
      ∀ z, z ≠ c → z ≠ st.keyring.getD kit.home → st.properties ≠ some z → files' z = files z := by
  unfold runEncipher at h
  obtain ⟨o, h1, h⟩ := res_bind h
  cases o with
  | run st p c => exact .inr ⟨st, p, c, h1, fun z a b d => encipher_only h z a b d⟩
  | failed => cases h; exact .inl rfl
  | _ => cases h; exact .inl rfl

/-! ### What is written was checked -/

theorem clone_same {s r : StringInfo} (hw : s.WF) (h : cloneStringInfo s = .ok r) : r.WF ∧ r.bytes = s.bytes := by
  have hw' : s.length + maxCipherBlocksize ≤ s.datum.length := hw
  unfold cloneStringInfo at h
  obtain ⟨c, h1, h⟩ := res_bind h
  unfold acquireStringInfo at h1
  split at h1
  · cases h1
    split at h
    · rename_i h0
      cases h
      refine ⟨by show _ ≤ _; simp, ?_⟩
      unfold StringInfo.bytes
      rw [h0]
      rfl
    · rw [rdN_ok (by omega)] at h
      have hl : ((s.datum.drop 0).take (s.length + maxCipherBlocksize)).length = s.length + maxCipherBlocksize := by rw [List.length_take, List.length_drop]; omega
      obtain ⟨d, w1, w2, w3, _⟩ := write_prefix (d := List.replicate (s.length + maxCipherBlocksize) 0) (x := (s.datum.drop 0).take (s.length + maxCipherBlocksize)) (by rw [hl, List.length_replicate]; omega)
      have h : (wrN (List.replicate (s.length + maxCipherBlocksize) 0) 0 ((s.datum.drop 0).take (s.length + maxCipherBlocksize))).bind (fun d => Res.ok (⟨s.length, d⟩ : StringInfo)) = .ok r := h
      rw [w1] at h
      cases h
      rw [List.length_replicate] at w2
      refine ⟨by show s.length + maxCipherBlocksize ≤ d.length; omega, ?_⟩
      show d.take s.length = s.datum.take s.length
      rw [hl, List.drop_zero] at w3
      have := congrArg (List.take s.length) w3
      rw [List.take_take, List.take_take, Nat.min_eq_left (by omega)] at this
      exact this
  · cases h1

/-- A key that was found has, with the passphrase, the id that was asked for. -/
theorem found_key {kit : Kit} (hk : Lawful kit) {run : Run} {s : Settings} {passphrase : Option (List Byte)} {file : Option (List Byte)} {key : List Byte}
    (h : findKey kit run s passphrase file = .ok (some key)) :
    ∃ phrase, run.phrase passphrase = some phrase ∧ kit.macOf s.keyHash phrase.bytes key = hexStringToStringInfo s.id := by
  unfold findKey at h
  obtain ⟨t, _, h⟩ := res_bind h
  obtain ⟨t', h2, h⟩ := res_bind h
  obtain ⟨a, h3, h⟩ := res_bind h
  unfold setSecretId at h2
  obtain ⟨i, h4, h2⟩ := res_bind h2
  cases h2
  obtain ⟨w, wb⟩ := bufferOf_wf (hexStringToStringInfo s.id)
  obtain ⟨iw, ib⟩ := clone_same w h4
  obtain ⟨a1, a2⟩ := a
  cases a1 with
  | false => cases h
  | true =>
    have hv : EnvOK (secretEnvOf kit run s.keyHash passphrase) := ⟨hk.header, fun p k => Nat.lt_of_le_of_lt (hk.mac _ p k).2 (by decide)⟩
    obtain ⟨phrase, k, k1, k2, k3, _⟩ := C105_sound _ hv file run.e1 _ a2 i rfl iw h3
    refine ⟨phrase, k1, ?_⟩
    have h : Res.ok (some (a2.key.getD (bufferOf [])).bytes) = Res.ok (some key) := h
    rw [k2] at h
    cases h
    rw [ib, wb] at k3
    exact k3

/-- The cipher that content is deciphered with. -/
theorem decipher_cipher {kit : Kit} (hk : Lawful kit) (run : Run) {t : BitVec 64} {f : List Byte → BlockCipher} (hf : kit.cipherOf t = some f) (mode : CipherMode) (key nonce : List Byte) :
    ∃ c1 c, contentCipher kit run t mode key = .ok c1 ∧ setCipherNonce c1 (bufferOf nonce) = .ok c ∧ c.Ready ∧ c.cipher = f key := by
  obtain ⟨c1, h1, r1, e1, _⟩ := contentCipher_ok hk run hf mode key
  obtain ⟨n, g1, g2, g3, _⟩ := setStringInfo_spec c1.nonce (bufferOf nonce) r1.nonce (bufferOf_wf nonce).1
  refine ⟨c1, { c1 with nonce := n }, h1, ?_, ⟨r1.pos, r1.le, ?_, ?_, r1.sized⟩, e1⟩
  · unfold setCipherNonce
    rw [g1]
    rfl
  · have := r1.nonce
    unfold StringInfo.WF at this ⊢
    simp only []
    omega
  · show n.length = _
    rw [g2, r1.nonceLength]

/-- **C173** (partial) Whatever is on the command line and in the files, and whether `decipher` succeeds or fails: it leaves all files as they were, or it leaves its output empty, or the key that it used has,
with the passphrase, the id that is in the settings; and then what it has written are strings, each of which has, under that key, the HMAC that the file has before the chunk.  What is missing: settings
without HMACs, which `C173_downgrade_violated` is about, and chunks of no or of 2^62 and more bytes. -/
theorem C173_checked_partial {kit : Kit} (hk : Lawful kit) (run : Run) (args : List (List Byte)) (files files' : Files) (r : Bool) (h : runDecipher kit run args files = .ok (r, files')) :
    files' = files ∨ ∃ st c q, encipherCommand run.command kit.version args = .ok (.run st c q) ∧ ((r = false ∧ files' q = some []) ∨
      ∃ text s b rest phrase key out, withFile files q (some []) (st.properties.getD c) = some text ∧ getContentInfo run.packet run.loops st.settings text = .ok (.settings s b rest) ∧
        run.phrase st.passphrase = some phrase ∧ kit.macOf s.keyHash phrase.bytes key = hexStringToStringInfo s.id ∧ files' q = some out ∧
        ∀ n g, kit.hmacOf s.hmac key = some (n, g) → 0 < s.chunksize → s.chunksize < 2 ^ 62 →
          ∃ mode f ci content p ys, modeOf s.mode = some mode ∧ kit.cipherOf s.cipher = some f ∧ ci.cipher = f key ∧ withFile files q (some []) c = some content ∧
            p = (if st.properties = none then content.length - rest.length else 0) ∧ out = List.flatten ys ∧
            ∀ i y, ys[i]? = some y → (content.drop (p + i * stride (contentOf kit run s key mode ci))).take n = g y) := by
  unfold runDecipher at h
  obtain ⟨o, h1, h⟩ := res_bind h
  cases o with
  | failed => cases h; exact .inl rfl
  | run st c q =>
    rcases decipher_ends h with ⟨_, rfl, _⟩ | ⟨rfl, rfl⟩ | ⟨text, s, b, rest, key, out, t0, t1, t2, t3, t4, rfl⟩
    · exact .inl rfl
    · exact .inr ⟨st, c, q, h1, .inl ⟨rfl, withFile_self _ _ _⟩⟩
    · obtain ⟨phrase, p1, p2⟩ := found_key hk t3
      refine .inr ⟨st, c, q, h1, .inr ⟨text, s, b, rest, phrase, key, out, t1, t2, p1, p2, withFile_self _ _ _, ?_⟩⟩
      intro n g hg hc1 hc2
      obtain ⟨content, hcontent⟩ : ∃ content, withFile files q (some []) c = some content := by
        by_cases hcq : c = q
        · exact ⟨[], by rw [hcq]; exact withFile_self _ _ _⟩
        · rw [withFile_other _ hcq]
          cases hx : files c with
          | none => exact absurd hx t0
          | some x => exact ⟨x, rfl⟩
      rw [hcontent, Option.getD_some] at t4
      generalize hp : (if st.properties = none then content.length - rest.length else 0) = p at t4
      have hple : p ≤ content.length := by rw [← hp]; split <;> omega
      unfold decipherWith at t4
      cases hm : modeOf s.mode with
      | none => rw [hm] at t4; cases t4
      | some mode =>
        rw [hm] at t4
        simp only [] at t4
        cases hf : kit.cipherOf s.cipher with
        | none =>
          unfold contentCipher at t4
          rw [hf] at t4
          cases t4
        | some f =>
          obtain ⟨c1, ci, d1, d2, d3, d4⟩ := decipher_cipher hk run hf mode key (hexStringToStringInfo s.nonce)
          rw [d1, Res.ok_bind, d2, Res.ok_bind] at t4
          obtain ⟨o, e1, e2⟩ := res_bind t4
          cases e2
          have hu : Usable (contentOf kit run s key mode ci) := ⟨d3, ⟨hc1, hc2⟩, fun n' h' e => let x := hk.tag _ _ _ _ e; ⟨x.1, x.2.1⟩⟩
          obtain ⟨ys, y1, y2⟩ := C100_checked_partial _ hu n g hg content run.loops p _ (at_openAt hple run.mapped) o.1 o.2 e1
          refine ⟨mode, f, ci, content, p, ys, rfl, rfl, d4, hcontent, hp.symm, ?_, y2⟩
          rw [y1]
          rfl
  | _ => cases h; exact .inl rfl

/-! ### Failures -/

/-- **C173** (violated) A run of `decipher` that fails has emptied its output: if the passphrase can not be read, or is not the right one, or the settings are refused, what the file held before is lost. -/
theorem C173_decipher_fails_violated (kit : Kit) (run : Run) (hcj : run.command.junk.length = 4096) (gs : List Given) (hok : ∀ g ∈ gs, g.OK run.command)
    (c q : List Byte) (hfiles : gs.filterMap Given.file? = [c, q]) (hpr : last Given.properties? gs = none) (hq : q ≠ c) (files : Files) (x old : List Byte) (hx : files c = some x) (hold : files q = some old) (hne : old ≠ [])
    (hfail : getContentInfo run.packet run.loops (chosen kit.version gs) x = .ok .refused ∨
      ∃ s b rest, getContentInfo run.packet run.loops (chosen kit.version gs) x = .ok (.settings s b rest) ∧
        findKey kit run s (last Given.passphrase? gs) (withFile files q (some []) (ringNamed kit gs)) = .ok none) :
    ∃ files1, runDecipher kit run (gs.flatMap Given.words) files = .ok (false, files1) ∧ files1 q = some [] ∧ files1 q ≠ files q := by
  refine ⟨withFile files q (some []), ?_, withFile_self _ _ _, by rw [withFile_self, hold]; simpa using hne.symm⟩
  obtain ⟨st, a1, a2, a3, a4, a5, _⟩ := C154_options_partial run.command hcj kit.version gs hok c q hfiles
  have a2 : st.settings = chosen kit.version gs := a2
  unfold runDecipher
  rw [a1, Res.ok_bind]
  show decipherFiles kit run st c q files = _
  unfold decipherFiles
  rw [hx, a5, hpr]
  simp only [Option.getD_none]
  rw [withFile_other _ hq.symm, hx]
  simp only []
  rw [a2, a3, a4]
  rcases hfail with h | ⟨s, b, rest, h, h'⟩
  · rw [h]
    rfl
  · rw [h, Res.ok_bind]
    simp only []
    unfold ringNamed at h'
    rw [h']
    rfl

/-- **C173** (violated) A run of `encipher` whose passphrase can not be read fails, and has emptied its output (encipher.c:672-675). -/
theorem C173_encipher_fails_violated (kit : Kit) (run : Run) (hcj : run.command.junk.length = 4096) (gs : List Given) (hok : ∀ g ∈ gs, g.OK run.command)
    (p c : List Byte) (hfiles : gs.filterMap Given.file? = [p, c]) (files : Files) (x old : List Byte) (hx : files p = some x) (hold : files c = some old) (hne : old ≠ [])
    (hfail : run.phrase (last Given.passphrase? gs) = none) :
    ∃ files1, runEncipher kit run (gs.flatMap Given.words) files = .ok (false, files1) ∧ files1 c = some [] ∧ files1 c ≠ files c := by
  refine ⟨withFile files c (some []), ?_, withFile_self _ _ _, by rw [withFile_self, hold]; simpa using hne.symm⟩
  obtain ⟨st, a1, a2, a3, a4, a5, _⟩ := C154_options_partial run.command hcj kit.version gs hok p c hfiles
  have hbits : st.settings.keyLength.toNat / 8 < 2 ^ 32 := by have := st.settings.keyLength.isLt; omega
  obtain ⟨s, hs1, _⟩ := C103_new run.draw run.draw' run.now st.settings.keyLength.toNat hbits
  unfold runEncipher
  rw [a1, Res.ok_bind]
  show encipherFiles kit run st p c files = _
  unfold encipherFiles
  rw [hx]
  simp only []
  rw [hs1, Res.ok_bind]
  have : ∀ ring, generateSecretKey (secretEnvOf kit run st.settings.keyHash st.passphrase) run.tries ring run.e1 run.e2 s = .ok (some (false, s, ring)) := by
    intro ring
    unfold generateSecretKey secretEnvOf
    simp only [a4, hfail]
  rw [this, Res.ok_bind]

/-! ### Forgeries -/

/-- In CFB mode, without HMACs and compression, anything is accepted. -/
theorem any_cfb {ci : Content} (hs : Usable ci) (hm : ci.mode = .cfb) (hh : ci.hmac = none) (he : ci.entropy = none) (c : List Byte) :
    ∀ (fuel p : Nat) (e : Bool) (b : Blob) (o : List Byte) (h t : StringInfo), At c p e b → h.WF → h.length = tagSize ci → c.length - p < fuel →
      ∃ y : List Byte, y.length = c.length - p ∧ decipherLoop ci fuel b (.file ⟨o, o.length, false⟩) h t = .ok (true, .file ⟨o ++ y, (o ++ y).length, false⟩) := by
  have htag : tagSize ci = 0 := by unfold tagSize; rw [hh]
  have hent : entropySize ci = 0 := by unfold entropySize; rw [he]
  have hcs := hs.chunk
  intro fuel
  induction fuel with
  | zero => intro p e b o h t _ _ _ hf; omega
  | succ fuel ih =>
    intro p e b o h t hat hw hl hf
    have hp := hat.1
    by_cases hshort : c.length - p = 0
    · rw [stop hs (agree_self ci) hat h t hw hl (by rw [List.length_drop]; omega) fuel]
      exact ⟨[], by simp [hshort], by simp⟩
    · rw [decipherLoop]
      unfold getTag getEntropy
      rw [hh, he]
      simp only [hm, if_pos]
      rw [Res.ok_bind]
      simp only []
      rw [Res.ok_bind]
      simp only []
      obtain ⟨t1, r3, l3, d3, k3⟩ := resize_ok t ci.chunksize ci.junk (by omega)
      obtain ⟨b3, r4, a4⟩ := chunk_spec hat ci.chunksize 3 (by omega)
      rw [r3, Res.ok_bind, r4, Res.ok_bind]
      simp only []
      generalize hwd : (c.drop p).take ci.chunksize = w
      have hwl : w.length = min ci.chunksize (c.length - p) := by rw [← hwd, List.length_take, List.length_drop]
      rw [if_neg (by omega)]
      obtain ⟨d, w3, w4, w5, _⟩ := write_prefix (d := t1.datum) (x := w) (by omega)
      rw [w3, Res.ok_bind]
      obtain ⟨t2, r5, l5, d5, k5⟩ := resize_ok ({ t1 with datum := d } : StringInfo) w.length ci.junk (by omega)
      rw [r5, Res.ok_bind]
      have hw2 : t2.WF := by
        show _ ≤ _
        omega
      rcases C28_decipher_bounds .cfb ci.cipher hs.ready t2 hw2 with ⟨t3, r6, l6, w6, _⟩ | ⟨hx, _⟩
      · rw [r6, Res.ok_bind]
        have hst : stripPad ci (eofBlob b3) t3 = .ok t3.length := by
          unfold stripPad
          rw [if_neg (by rw [hm]; simp)]
        rw [hst, Res.ok_bind]
        unfold resizeText
        rw [if_neg (by omega)]
        obtain ⟨t4, r8, l8, d8, k8⟩ := resize_ok t3 t3.length ci.junk (by omega)
        rw [r8, Res.ok_bind]
        have r9 : restoreText ci false t4 = .ok (some t4) := by unfold restoreText; rw [if_neg (by simp)]
        have r10 : checkTag ci h t4 = .ok true := by unfold checkTag; rw [hh]
        rw [r9, Res.ok_bind]
        simp only []
        rw [r10, Res.ok_bind, if_pos rfl, rdN_ok (by omega), Res.ok_bind, writeAll_end, Res.ok_bind]
        have hyl : ((t4.datum.drop 0).take t3.length).length = w.length := by rw [List.length_take, List.length_drop]; omega
        obtain ⟨y, y1, y2⟩ := ih _ _ b3 (o ++ (t4.datum.drop 0).take t3.length) h t4 a4 hw hl (by omega)
        refine ⟨(t4.datum.drop 0).take t3.length ++ y, ?_, ?_⟩
        · rw [List.length_append, hyl, y1]
          omega
        · rw [y2, List.append_assoc]
      · cases hx

/-- The settings that anyone can put in the place of others: CFB mode, no HMACs, no compression. -/
def weakened (s : Settings) : Settings := { s with mode := 2, hmac := 1, entropy := 1 }

/-- **C173** (violated) The HMACs of an enciphered file protect nothing: whether there are HMACs is said in the settings in front of the content, whose digest needs no key.  Whoever writes the file can
replace these settings by the same ones without HMACs, and the content by anything they like: `decipher`, with the right passphrase, reports success and writes as many bytes. -/
theorem C173_downgrade_violated {kit : Kit} (hk : Lawful kit) (hnone : (∀ key, kit.hmacOf 1 key = none) ∧ ∀ l, kit.packerOf 1 l = none) (run : Run) (hu : Usual run.packet) (hcj : run.command.junk.length = 4096)
    (gs : List Given) (hok : ∀ g ∈ gs, g.OK run.command) (plain cipherName : List Byte) (hfiles : gs.filterMap Given.file? = [plain, cipherName]) {mode : CipherMode} {f : List Byte → BlockCipher}
    (hs : Choice kit (chosen kit.version gs) mode f) (hname : Spec.Packet.Name plain) (hd : NamesApart (ringNamed kit gs) none plain cipherName) (hpr : last Given.properties? gs = none)
    (files : Files) (m : List Byte) (hm : files plain = some m) (rs : List Record) (hr : Ring kit (files (ringNamed kit gs)) rs) (phrase : StringInfo) (hp : run.phrase (last Given.passphrase? gs) = some phrase)
    (hg : CanGenerate kit run (chosen kit.version gs) phrase.bytes rs) (hl : m.length < run.loops) :
    ∃ files1 s body, runEncipher kit run (gs.flatMap Given.words) files = .ok (true, files1) ∧ files1 cipherName = some (cipherPacket run.packet s plain ++ body) ∧
      (∃ r : Record, r.Fits ∧ files1 (ringNamed kit gs) = fileOf (kit.magick.bytes ++ kit.filetype.bytes) (rs ++ [r])) ∧
      ∀ (run' : Run) (gs' : List Given) (q : List Byte) (phrase' : StringInfo) (forged : List Byte), run'.command.junk.length = 4096 → (∀ g ∈ gs', g.OK run'.command) →
        gs'.filterMap Given.file? = [cipherName, q] → run'.packet.junk.length = 4096 → run'.packet.hex = run.packet.hex → ringNamed kit gs' = ringNamed kit gs → last Given.properties? gs' = none →
        run'.phrase (last Given.passphrase? gs') = some phrase' → phrase'.bytes = phrase.bytes → q ≠ cipherName → q ≠ ringNamed kit gs → Quiet run'.e1 →
        run'.e1.sched.length + ((files1 (ringNamed kit gs)).getD []).length + 16 < kit.fuel →
        ∃ N, ∀ loops ≥ N, ∃ files2 out,
          runDecipher kit { run' with loops := loops } (gs'.flatMap Given.words) (withFile files1 cipherName (some (cipherPacket run.packet (weakened s) plain ++ forged))) = .ok (true, files2) ∧
          files2 q = some out ∧ out.length = forged.length := by
  obtain ⟨st, a1, a2, a3, a4, a5, _⟩ := C154_options_partial run.command hcj kit.version gs hok plain cipherName hfiles
  have a2 : st.settings = chosen kit.version gs := a2
  rw [← a2] at hs hg
  unfold ringNamed at hd hr ⊢
  rw [← a3] at hd hr ⊢
  rw [← a4] at hp
  rw [hpr] at a5
  obtain ⟨files1, r, id, key, c, body, h1, h2, h3, h4, h5, h6, h7, h8, h9, h10, h11⟩ :=
    encipher_files hk run st hs hd.ring (by intro p h; rw [a5] at h; cases h) files hm (by rw [withFile_other _ hd.files]; exact hm) hr hp hg hl
  rw [if_pos a5] at h9
  refine ⟨files1, recorded st.settings id c.nonce.bytes, body, ?_, h9, ⟨r, h4, h3⟩, ?_⟩
  · unfold runEncipher
    rw [a1, Res.ok_bind]
    exact h1
  intro run' gs' q phrase' forged b1 b2 b3 b4 b5 b6 b7 b8 b9 b10 b11 b12 b13
  obtain ⟨st', d1, d2, d3, d4, d5, _⟩ := C154_options_partial run'.command b1 kit.version gs' b2 cipherName q b3
  rw [← d3] at b6
  rw [b7] at d5
  rw [← d4] at b8
  have hfile : fileOf (kit.magick.bytes ++ kit.filetype.bytes) (rs ++ [r]) = some (ring (kit.magick.bytes ++ kit.filetype.bytes) (rs ++ [r])) := by
    unfold fileOf
    rw [if_neg (by simp)]
  rw [h3, hfile, Option.getD_some] at b13
  obtain ⟨c0, e0, r0, e1, _, _⟩ := contentCipher_ok hk run hs.cipher mode key
  rw [h7] at e0
  cases e0
  have hnl : c.nonce.bytes.length = c.nonce.length := StringInfo.bytes_length r0.nonce
  have hrec : Recordable (recorded st.settings id c.nonce.bytes) := by
    refine recordable hk hs h6 ?_
    rw [hnl, r0.nonceLength]
    exact ⟨r0.pos, Nat.le_trans r0.le (by decide)⟩
  have hrec' : Recordable (weakened (recorded st.settings id c.nonce.bytes)) :=
    { hrec with mode := by show OneOf modeOptions 2; unfold OneOf; decide +kernel, hmac := by show OneOf hashOptions 1; unfold OneOf; decide +kernel, entropy := by show OneOf entropyOptions 1; unfold OneOf; decide +kernel }
  obtain ⟨N, hN⟩ := C152_settings_partial run.packet run'.packet hu b4 b5 _ st'.settings hrec' hname forged
  refine ⟨max N (forged.length + 2), fun loops hloops => ?_⟩
  have hfind : findKey kit { run' with loops := loops } (weakened (recorded st.settings id c.nonce.bytes)) st'.passphrase (fileOf (kit.magick.bytes ++ kit.filetype.bytes) (rs ++ [r])) = .ok (some key) :=
    h11 { run' with loops := loops } st'.passphrase phrase' b8 b9 b12 b13
  generalize hpk : cipherPacket run.packet (weakened (recorded st.settings id c.nonce.bytes)) plain = packet at hN ⊢
  have hdec : ∃ out, out.length = forged.length ∧
      decipherWith kit { run' with loops := loops } (weakened (recorded st.settings id c.nonce.bytes)) key (packet ++ forged) packet.length = .ok (true, out) := by
    obtain ⟨c1, ci, g1, g2, g3, g4⟩ := decipher_cipher hk { run' with loops := loops } hs.cipher .cfb key (hexStringToStringInfo (recorded st.settings id c.nonce.bytes).nonce)
    have hus : Usable (contentOf kit { run' with loops := loops } (weakened (recorded st.settings id c.nonce.bytes)) key .cfb ci) :=
      ⟨g3, ⟨hs.chunksize.1, Nat.lt_trans hs.chunksize.2 (by decide)⟩, fun n' h' e => let x := hk.tag _ _ _ _ e; ⟨x.1, x.2.1⟩⟩
    obtain ⟨h, t, w, l, e⟩ := content_start hus (agree_self _) loops (openAt (packet ++ forged) packet.length run'.mapped) openWrite
    obtain ⟨y, y1, y2⟩ := any_cfb hus rfl (hnone.1 key) (hnone.2 _) (packet ++ forged) loops packet.length false _ [] h t (at_openAt (by simp) run'.mapped) w l (by rw [List.length_append]; omega)
    refine ⟨y, by rw [y1, List.length_append]; omega, ?_⟩
    unfold decipherWith
    have hmode : modeOf (weakened (recorded st.settings id c.nonce.bytes)).mode = some .cfb := rfl
    rw [hmode]
    simp only []
    have g1' : contentCipher kit { run' with loops := loops } (weakened (recorded st.settings id c.nonce.bytes)).cipher .cfb key = .ok c1 := g1
    have g2' : setCipherNonce c1 (bufferOf (hexStringToStringInfo (weakened (recorded st.settings id c.nonce.bytes)).nonce)) = .ok ci := g2
    rw [g1', Res.ok_bind, g2', Res.ok_bind, e]
    have : openWrite = .file ⟨[], ([] : List Byte).length, false⟩ := rfl
    rw [this, y2]
    rfl
  obtain ⟨out, o1, o2⟩ := hdec
  refine ⟨_, out, ?_, withFile_self (withFile (withFile files1 cipherName (some (packet ++ forged))) q (some [])) q (some out), o1⟩
  unfold runDecipher
  show (encipherCommand run'.command kit.version _).bind _ = _
  rw [d1]
  show decipherFiles kit { run' with loops := loops } st' cipherName q _ = _
  unfold decipherFiles
  rw [withFile_self, d5]
  simp only [Option.getD_none]
  rw [withFile_other _ b10.symm, withFile_self]
  simp only []
  rw [hN loops (by omega), Res.ok_bind]
  simp only []
  rw [b6, withFile_other _ b11.symm, withFile_other _ hd.ring.2, h3, hfind, Res.ok_bind]
  simp only [if_pos]
  rw [Option.getD_some, show (packet ++ forged).length - forged.length = packet.length by simp, o2]
  rfl

/-! ### Examples -/

/-- `encipher -cipher AES plain.txt cipher.wiz` -/
def givenExample4 : List Given := [.cipher (ascText "AES") 2, .file (ascText "plain.txt"), .file (ascText "cipher.wiz")]

/-- `decipher cipher.wiz out.txt` -/
def givenExample5 : List Given := [.file (ascText "cipher.wiz"), .file (ascText "out.txt")]

theorem given4_ok : ∀ g ∈ givenExample4, g.OK commandEnvExample := by
  intro g hg
  unfold givenExample4 at hg
  simp only [List.mem_cons, List.not_mem_nil, or_false] at hg
  rcases hg with rfl | rfl | rfl
  · exact names_word rfl (by decide +kernel)
  · exact file_word rfl (by decide)
  · exact file_word rfl (by decide)

theorem given5_ok : ∀ g ∈ givenExample5, g.OK commandEnvExample := by
  intro g hg
  unfold givenExample5 at hg
  simp only [List.mem_cons, List.not_mem_nil, or_false] at hg
  rcases hg with rfl | rfl
  · exact file_word rfl (by decide)
  · exact file_word rfl (by decide)

/-- Three bytes in the place of a file of 600000 with HMACs are accepted. -/
theorem forgery_example : ∃ files1 forged N, runEncipher kitExample runExample (givenExample4.flatMap Given.words) filesExample = .ok (true, files1) ∧
    ∀ loops ≥ N, ∃ files2 out, runDecipher kitExample { runExample with loops := loops } (givenExample5.flatMap Given.words) (withFile files1 (ascText "cipher.wiz") (some forged)) = .ok (true, files2) ∧
      files2 (ascText "out.txt") = some out ∧ out.length = 3 := by
  have hq : Quiet runExample.e1 := ⟨rfl, by intro e he; cases he⟩
  have hring : (ring (kitExample.magick.bytes ++ kitExample.filetype.bytes) [⟨[2, 64], [5], [6], 1, 1, 7⟩]).length = 41 := by decide
  have hrn : ringNamed kitExample givenExample4 = ascText "/home/a/keyring.rdf" := rfl
  have hm : filesExample (ascText "plain.txt") = some (List.replicate 600000 65) := if_pos rfl
  have hfile : filesExample (ascText "/home/a/keyring.rdf") = fileOf (kitExample.magick.bytes ++ kitExample.filetype.bytes) [⟨[2, 64], [5], [6], 1, 1, 7⟩] := by
    unfold filesExample
    rw [if_neg (by decide +kernel), if_pos rfl]
  have hlen : (List.replicate 600000 (65 : Byte)).length = 600000 := List.length_replicate
  generalize hg : List.replicate 600000 (65 : Byte) = m at hm hlen
  obtain ⟨files1, s, body, h1, _, ⟨r, hr1, hr2⟩, h4⟩ := C173_downgrade_violated kitExample_lawful ⟨fun _ => rfl, fun _ => rfl⟩ runExample packet_example.1 List.length_replicate givenExample4 given4_ok
    (ascText "plain.txt") (ascText "cipher.wiz") rfl (mode := .ctr) (f := aesCipher)
    ⟨rfl, by unfold OneOf; decide +kernel, rfl, by unfold OneOf; decide +kernel, by unfold OneOf; decide +kernel, by unfold OneOf; decide +kernel, by unfold OneOf; decide +kernel,
      by unfold OneOf; decide +kernel, by decide +kernel, by decide +kernel, rfl⟩
    (by unfold Spec.Packet.Name; decide +kernel) ⟨by decide +kernel, by rw [hrn]; decide +kernel, by intro p hp; cases hp⟩ rfl filesExample m hm [⟨[2, 64], [5], [6], 1, 1, 7⟩]
    (by
      rw [hrn]
      refine ⟨hfile, ?_, ?_⟩
      · intro r hr
        cases List.mem_singleton.1 hr
        exact ⟨by decide, by decide, by decide, fun _ => by decide⟩
      · intro r hr
        cases hr
        decide) (bufferOf [97, 98]) rfl
    (by
      refine ⟨⟨(fun _ => 2, ⟨false, [.short 1]⟩), by simp [runExample], by decide +kernel⟩, hq, ?_, ?_, by show 1 + 1 < 1000; decide, by rw [hring]; decide⟩
      · intro e he
        simp only [runExample, List.mem_singleton] at he
        exact .inl he
      · intro x hx
        rw [hring]
        simp only [runExample, List.mem_cons, List.not_mem_nil, or_false] at hx
        rcases hx with rfl | rfl
        · exact ⟨⟨rfl, by intro e he; cases he⟩, by show 0 + 41 + 16 < 2 ^ 35; decide⟩
        · exact ⟨⟨rfl, by intro e he; simp at he; exact ⟨_, he⟩⟩, by show 1 + 41 + 16 < 2 ^ 35; decide⟩)
    (by rw [hlen]; decide)
  have hfuel : ((files1 (ringNamed kitExample givenExample4)).getD []).length + 16 < 2 ^ 35 := by
    rw [hr2]
    unfold fileOf
    rw [if_neg (by simp), Option.getD_some]
    have : ring (kitExample.magick.bytes ++ kitExample.filetype.bytes) ([⟨[2, 64], [5], [6], 1, 1, 7⟩] ++ [r]) =
        ring (kitExample.magick.bytes ++ kitExample.filetype.bytes) [⟨[2, 64], [5], [6], 1, 1, 7⟩] ++ r.encode := by
      unfold ring encodeAll
      rw [List.flatMap_append, List.append_assoc]
      simp
    rw [this, List.length_append, hring, encode_length]
    have a := hr1.id
    have b := hr1.key
    have c := hr1.nonce
    have : r.body.length ≤ 100 + r.id.length + r.key.length + r.nonce.length := by
      have : r.stamp.length ≤ 50 := by
        unfold Record.stamp
        split <;> simp only [List.length_append, le_length] <;> omega
      unfold Record.body counted
      simp only [List.length_append, le_length]
      omega
    omega
  obtain ⟨N, hN⟩ := h4 runExample givenExample5 (ascText "out.txt") (bufferOf [97, 98]) [1, 2, 3] List.length_replicate given5_ok rfl List.length_replicate rfl rfl rfl rfl rfl (by decide +kernel)
    (by rw [hrn]; decide +kernel) hq (by show 0 + _ + 16 < 2 ^ 35; omega)
  exact ⟨files1, cipherPacket runExample.packet (weakened s) (ascText "plain.txt") ++ [1, 2, 3], N, h1, hN⟩

/-- No passphrase: what was enciphered before is lost. -/
example : ∃ files1, runEncipher kitExample { runExample with phrase := fun _ => none } (givenExample4.flatMap Given.words) (withFile filesExample (ascText "cipher.wiz") (some [7, 8])) = .ok (false, files1) ∧
    files1 (ascText "cipher.wiz") = some [] := by
  have hm : withFile filesExample (ascText "cipher.wiz") (some [7, 8]) (ascText "plain.txt") = some (List.replicate 600000 65) := by
    rw [withFile_other _ (by decide +kernel)]
    exact if_pos rfl
  obtain ⟨f, h1, h2, _⟩ := C173_encipher_fails_violated kitExample { runExample with phrase := fun _ => none } List.length_replicate givenExample4 given4_ok (ascText "plain.txt") (ascText "cipher.wiz") rfl
    (withFile filesExample (ascText "cipher.wiz") (some [7, 8])) _ [7, 8] hm (withFile_self _ _ _) (by simp) rfl
  exact ⟨f, h1, h2⟩

/-- Nothing to decipher: what was there before is lost. -/
example : ∃ files1, runDecipher kitExample runExample (givenExample5.flatMap Given.words) (withFile (withFile filesExample (ascText "cipher.wiz") (some [])) (ascText "out.txt") (some [7, 8])) = .ok (false, files1) ∧
    files1 (ascText "out.txt") = some [] := by
  obtain ⟨f, h1, h2, _⟩ := C173_decipher_fails_violated kitExample runExample List.length_replicate givenExample5 given5_ok (ascText "cipher.wiz") (ascText "out.txt") rfl rfl (by decide +kernel)
    (withFile (withFile filesExample (ascText "cipher.wiz") (some [])) (ascText "out.txt") (some [7, 8])) [] [7, 8] (by rw [withFile_other _ (by decide +kernel), withFile_self]) (withFile_self _ _ _) (by simp)
    (.inl (by unfold getContentInfo packetScan; rfl))
  exact ⟨f, h1, h2⟩

end Wizard.Props

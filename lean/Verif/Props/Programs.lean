import Verif.Lemmas.Programs
import Verif.Props.EncipherCommand
/-! C172: the programs `encipher` and `decipher`, one after the other. -/
namespace Wizard.Props
open Wizard Wizard.Spec Wizard.Spec.Command Wizard.Spec.Content Wizard.Spec.Packet Wizard.Spec.Keyring Wizard.Spec.Secret Wizard.Spec.Programs Wizard.SecretP Wizard.ContentP

theorem withFile_self (files : Files) (p : List Byte) (c : Option (List Byte)) : withFile files p c p = c := if_pos rfl

theorem withFile_other (files : Files) {p q : List Byte} (h : q ≠ p) (c : Option (List Byte)) : withFile files p c q = files q := if_neg h

theorem at_openAt {c : List Byte} {p : Nat} (h : p ≤ c.length) (mapped : Bool) : At c p false (openAt c p mapped) := by
  refine ⟨h, ?_⟩
  unfold openAt
  split
  · exact .inr ⟨_, _, rfl⟩
  · exact .inl rfl

/-- What `encipher` leaves: the content of the ciphertext, and what a program that has the id and the passphrase makes of it. -/
theorem encipher_files {kit : Kit} (hk : Lawful kit) (run : Run) (st : CommandState) {mode : CipherMode} {f : List Byte → BlockCipher} (hs : Choice kit st.settings mode f)
    {plain cipherName : List Byte} (hd1 : st.keyring.getD kit.home ≠ plain ∧ st.keyring.getD kit.home ≠ cipherName)
    (hd2 : ∀ p, st.properties = some p → p ≠ plain ∧ p ≠ cipherName ∧ p ≠ st.keyring.getD kit.home) (files : Files) {m0 m : List Byte} (hm0 : files plain = some m0) (hm : withFile files cipherName (some []) plain = some m)
    {rs : List Record} (hr : Ring kit (files (st.keyring.getD kit.home)) rs) {phrase : StringInfo} (hp : run.phrase st.passphrase = some phrase)
    (hg : CanGenerate kit run st.settings phrase.bytes rs) (hl : m.length < run.loops) :
    ∃ files1 r id key c body, encipherFiles kit run st plain cipherName files = .ok (true, files1) ∧
      (∀ z, z ≠ cipherName → z ≠ st.keyring.getD kit.home → st.properties ≠ some z → files1 z = files z) ∧
      files1 (st.keyring.getD kit.home) = fileOf (kit.magick.bytes ++ kit.filetype.bytes) (rs ++ [r]) ∧ r.Fits ∧ r.id = id ∧
      (0 < id.length ∧ id.length ≤ 2000) ∧ contentCipher kit run st.settings.cipher mode key = .ok c ∧
      files1 (st.properties.getD cipherName) = some (cipherPacket run.packet (recorded st.settings id c.nonce.bytes) plain ++ (if st.properties = none then body else [])) ∧
      files1 cipherName = some ((if st.properties = none then cipherPacket run.packet (recorded st.settings id c.nonce.bytes) plain else []) ++ body) ∧
      encipherContent (contentOf kit run st.settings key mode c) run.loops (openRead m run.mapped)
        (.file ⟨if st.properties = none then cipherPacket run.packet (recorded st.settings id c.nonce.bytes) plain else [],
          (if st.properties = none then cipherPacket run.packet (recorded st.settings id c.nonce.bytes) plain else []).length, false⟩) =
        .ok (.file ⟨(if st.properties = none then cipherPacket run.packet (recorded st.settings id c.nonce.bytes) plain else []) ++ body,
          ((if st.properties = none then cipherPacket run.packet (recorded st.settings id c.nonce.bytes) plain else []) ++ body).length, false⟩) ∧
      ∀ (run' : Run) (passphrase' : Option (List Byte)) (phrase' : StringInfo), run'.phrase passphrase' = some phrase' → phrase'.bytes = phrase.bytes → Quiet run'.e1 →
        run'.e1.sched.length + (ring (kit.magick.bytes ++ kit.filetype.bytes) (rs ++ [r])).length + 16 < kit.fuel →
        findKey kit run' (recorded st.settings id c.nonce.bytes) passphrase' (fileOf (kit.magick.bytes ++ kit.filetype.bytes) (rs ++ [r])) = .ok (some key) := by
  have hbits : st.settings.keyLength.toNat / 8 < 2 ^ 32 := by have := st.settings.keyLength.isLt; omega
  obtain ⟨s, hs1, hs2, hs3, hs4, hs5⟩ := C103_new run.draw run.draw' run.now st.settings.keyLength.toNat hbits
  let v := secretEnvOf kit run st.settings.keyHash st.passphrase
  have hv : EnvOK v := ⟨hk.header, fun p k => Nat.lt_of_le_of_lt (hk.mac _ p k).2 (by decide)⟩
  obtain ⟨x0, hx0, hx1⟩ := hg.fresh
  obtain ⟨x, hx⟩ : ∃ x, run.tries.find? (fun x => isNew v.mac phrase.bytes rs (keyOf s.keyLength x.1)) = some x := by
    cases h : run.tries.find? (fun x => isNew v.mac phrase.bytes rs (keyOf s.keyLength x.1)) with
    | some x => exact ⟨x, rfl⟩
    | none =>
      have := List.find?_eq_none.1 h x0 hx0
      rw [hs3] at this
      exact absurd hx1 this
  have hnew : ¬ ((stampOf s.ring rs).1 = 1 ∧ (stampOf s.ring rs).2.1 = 0) := by
    unfold stampOf
    cases h : rs.getLast? with
    | none =>
      simp only [Prod.mk.injEq] at hs4
      simp only [hs4.2.1]
      intro h
      exact absurd h.2 (by decide)
    | some r => exact hr.last r h
  have hen : Enough v rs run.tries run.e1 run.e2 (v.mac phrase.bytes (keyOf s.keyLength x.1)) (keyOf s.keyLength x.1) := by
    refine ⟨by have := hg.turns; show rs.length < kit.turns; omega, hg.tries, ?_⟩
    have h1 := (hk.mac st.settings.keyHash phrase.bytes (keyOf s.keyLength x.1)).2
    have h2 : (keyOf s.keyLength x.1).length = st.settings.keyLength.toNat / 8 := by unfold keyOf; rw [List.length_map, List.length_range, hs3]
    have h3 := hg.fuel
    show _ + _ + (ring (kit.magick.bytes ++ kit.filetype.bytes) rs).length + (kit.macOf st.settings.keyHash phrase.bytes (keyOf s.keyLength x.1)).length + _ + 100 < kit.fuel
    omega
  obtain ⟨s', i, k, r, g1, g2, g3, g4, g5, g6, g7, g8, g9, g10, g11⟩ :=
    C103_generated_partial v hv phrase hp rs hr.fits s hs2 hnew run.tries x hx run.e1 run.e2 hg.e1 hg.e2 hen
  obtain ⟨c, c1, c2, c3, c4, c5⟩ := contentCipher_ok hk run hs.cipher mode k.bytes
  have hmac := hk.mac st.settings.keyHash phrase.bytes k.bytes
  have hi : 0 < i.bytes.length ∧ i.bytes.length ≤ 2000 := by rw [g7]; exact hmac
  obtain ⟨body, hbody⟩ := C99_enciphers (contentOf kit run st.settings k.bytes mode c) (content_sound hk run hs k.bytes c1) m
    (if st.properties = none then cipherPacket run.packet (recorded st.settings i.bytes c.nonce.bytes) plain else []) run.mapped run.loops hl (counter_fits hk run hs k.bytes c1)
  -- the run
  have hring : withFile files cipherName (some []) (st.keyring.getD kit.home) = fileOf (head v) rs := by rw [withFile_other _ hd1.2]; exact hr.file
  have hrun : encipherFiles kit run st plain cipherName files =
      encipherWith kit run st plain cipherName i.bytes k.bytes (withFile (withFile files cipherName (some [])) (st.keyring.getD kit.home) (fileOf (head v) (rs ++ [r]))) := by
    unfold encipherFiles
    rw [hm0]
    simp only []
    rw [hs1, Res.ok_bind, hring, g1, Res.ok_bind]
    simp only [g3, g5, Option.getD_some]
  -- the key
  have hfind : ∀ (run' : Run) (passphrase' : Option (List Byte)) (phrase' : StringInfo), run'.phrase passphrase' = some phrase' → phrase'.bytes = phrase.bytes → Quiet run'.e1 →
        run'.e1.sched.length + (ring (kit.magick.bytes ++ kit.filetype.bytes) (rs ++ [r])).length + 16 < kit.fuel →
        findKey kit run' (recorded st.settings i.bytes c.nonce.bytes) passphrase' (fileOf (kit.magick.bytes ++ kit.filetype.bytes) (rs ++ [r])) = .ok (some k.bytes) := by
    intro run' passphrase' phrase' hp' hb' hq' hf'
    obtain ⟨t, t1, t2, t3, t4, t5⟩ := C103_new run'.draw run'.draw' run'.now st.settings.keyLength.toNat hbits
    obtain ⟨w, wb⟩ := bufferOf_wf i.bytes
    obtain ⟨t', j, u1, u2, u3, u4, u5⟩ := t5 (bufferOf i.bytes) w (by show i.bytes.length < 2 ^ 32; omega)
    obtain ⟨t'', k', z1, z2, z3⟩ := g11 (secretEnvOf kit run' st.settings.keyHash passphrase') phrase' rfl rfl rfl hp' hb' t' u2 j u3 u4 (by rw [u5, wb]) run'.e1 hq' hf' hg.turns
    unfold findKey recorded
    simp only []
    rw [t1, Res.ok_bind, C01_hex_round_trip, u1, Res.ok_bind]
    show (authenticateSecretKey _ (fileOf (head v) (rs ++ [r])) _ _).bind _ = _
    rw [z1]
    show (if true = true then Res.ok (some (t''.key.getD (bufferOf [])).bytes) else .ok none) = _
    rw [if_pos rfl, z2, Option.getD_some, z3]
  cases hpr : st.properties with
  | none =>
    rw [hpr] at hbody
    rw [if_pos rfl] at hbody
    refine ⟨withFile (withFile (withFile files cipherName (some [])) (st.keyring.getD kit.home) (fileOf (head v) (rs ++ [r]))) cipherName
        (some (cipherPacket run.packet (recorded st.settings i.bytes c.nonce.bytes) plain ++ body)), r, i.bytes, k.bytes, c, body, ?_, ?_, ?_, g9, g8, hi, c1, ?_, ?_, ?_, hfind⟩
    · rw [hrun]
      unfold encipherWith putProperties
      rw [hs.mode]
      simp only [hpr]
      rw [c1, Res.ok_bind, withFile_other _ hd1.1.symm, hm]
      simp only [Option.getD_some]
      rw [hbody]
      rfl
    · intro z z1 z2 _
      rw [withFile_other _ z1, withFile_other _ z2, withFile_other _ z1]
    · rw [withFile_other _ hd1.2, withFile_self]; rfl
    · rw [if_pos rfl, Option.getD_none, withFile_self]
    · rw [if_pos rfl, withFile_self]
    · rw [if_pos rfl]; exact hbody
  | some p =>
    obtain ⟨p1, p2, p3⟩ := hd2 p hpr
    have hne : ¬ (some p = none) := by simp
    rw [hpr, if_neg hne] at hbody
    refine ⟨withFile (withFile (withFile (withFile files cipherName (some [])) (st.keyring.getD kit.home) (fileOf (head v) (rs ++ [r]))) p
        (some (cipherPacket run.packet (recorded st.settings i.bytes c.nonce.bytes) plain))) cipherName (some body), r, i.bytes, k.bytes, c, body, ?_, ?_, ?_, g9, g8, hi, c1, ?_, ?_, ?_, hfind⟩
    · rw [hrun]
      unfold encipherWith putProperties
      rw [hs.mode]
      simp only [hpr]
      rw [c1, Res.ok_bind, withFile_other _ p1.symm, withFile_other _ hd1.1.symm, hm]
      simp only [Option.getD_some]
      rw [hbody]
      rfl
    · intro z z1 z2 z3
      have z3 : z ≠ p := fun h => z3 (by rw [h])
      rw [withFile_other _ z1, withFile_other _ z3, withFile_other _ z2, withFile_other _ z1]
    · rw [withFile_other _ hd1.2, withFile_other _ p3.symm, withFile_self]; rfl
    · rw [if_neg hne, Option.getD_some, withFile_other _ p2, withFile_self, List.append_nil]
    · rw [if_neg hne, withFile_self]; rfl
    · rw [if_neg hne]; exact hbody

/-- What `decipher` makes of what `encipher` left. -/
theorem decipher_files {kit : Kit} (hk : Lawful kit) (run : Run) (hu : Usual run.packet) (st : CommandState) {mode : CipherMode} {f : List Byte → BlockCipher} (hs : Choice kit st.settings mode f)
    {plain cipherName : List Byte} (hname : Spec.Packet.Name plain) (hd : NamesApart (st.keyring.getD kit.home) st.properties plain cipherName) (files : Files) {m : List Byte} (hm : files plain = some m)
    {rs : List Record} (hr : Ring kit (files (st.keyring.getD kit.home)) rs) {phrase : StringInfo} (hp : run.phrase st.passphrase = some phrase)
    (hg : CanGenerate kit run st.settings phrase.bytes rs) (hl : m.length < run.loops)
    (hres : ∀ key c, c.cipher = f key → Restorable (contentOf kit run st.settings key mode c) m.length) :
    ∃ files1, encipherFiles kit run st plain cipherName files = .ok (true, files1) ∧
      (∀ z, z ≠ cipherName → z ≠ st.keyring.getD kit.home → st.properties ≠ some z → files1 z = files z) ∧
      (∃ r : Record, r.Fits ∧ files1 (st.keyring.getD kit.home) = fileOf (kit.magick.bytes ++ kit.filetype.bytes) (rs ++ [r])) ∧
      ∀ (run' : Run) (st' : CommandState) (q : List Byte) (phrase' : StringInfo), run'.packet.junk.length = 4096 → run'.packet.hex = run.packet.hex →
        st'.keyring.getD kit.home = st.keyring.getD kit.home → st'.properties = st.properties → run'.phrase st'.passphrase = some phrase' → phrase'.bytes = phrase.bytes →
        q ≠ cipherName → q ≠ st.keyring.getD kit.home → st.properties ≠ some q → Quiet run'.e1 →
        run'.e1.sched.length + ((files1 (st.keyring.getD kit.home)).getD []).length + 16 < kit.fuel →
        ∃ N, ∀ loops ≥ N, decipherFiles kit { run' with loops := loops } st' cipherName q files1 = .ok (true, withFile files1 q (some m)) := by
  obtain ⟨files1, r, id, key, c, body, h1, h2, h3, h4, h5, h6, h7, h8, h9, h10, h11⟩ :=
    encipher_files hk run st hs hd.ring hd.properties files hm (by rw [withFile_other _ hd.files]; exact hm) hr hp hg hl
  refine ⟨files1, h1, h2, ⟨r, h4, h3⟩, ?_⟩
  intro run' st' q phrase' hj hh hk' hpr hp' hb' hq1 hq2 hq3 hquiet hfuel
  have hfile : fileOf (kit.magick.bytes ++ kit.filetype.bytes) (rs ++ [r]) = some (ring (kit.magick.bytes ++ kit.filetype.bytes) (rs ++ [r])) := by
    unfold fileOf
    rw [if_neg (by simp)]
  rw [h3, hfile, Option.getD_some] at hfuel
  obtain ⟨c0, e0, r0, e1, _, _⟩ := contentCipher_ok hk run hs.cipher mode key
  rw [h7] at e0
  cases e0
  have hnl : c.nonce.bytes.length = c.nonce.length := by
    have := r0.nonce
    unfold StringInfo.WF at this
    unfold StringInfo.bytes
    rw [List.length_take]
    omega
  have hrec : Recordable (recorded st.settings id c.nonce.bytes) := by
    refine recordable hk hs h6 ?_
    rw [hnl, r0.nonceLength]
    exact ⟨r0.pos, Nat.le_trans r0.le (by decide)⟩
  obtain ⟨N, hN⟩ := C152_settings_partial run.packet run'.packet hu hj hh (recorded st.settings id c.nonce.bytes) st'.settings hrec hname (if st.properties = none then body else [])
  obtain ⟨c1, c', d1, d2, d3, d4⟩ := contentCipher_again hk run run' hs.cipher mode key h7
  refine ⟨max N (m.length + 2), ?_⟩
  intro loops hloops
  have hc1 : contentCipher kit { run' with loops := loops } st.settings.cipher mode key = .ok c1 := d1
  have hsound := content_sound hk run hs key h7
  have hagree : Agree (contentOf kit run st.settings key mode c) (contentOf kit { run' with loops := loops } (recorded st.settings id c.nonce.bytes) key mode c') := ⟨rfl, d3, d4, rfl, rfl, rfl⟩
  obtain ⟨body', hb1, hb2⟩ := C99_restored_partial _ _ hsound hagree m _ run.mapped run.loops _ h10 (hres key c e1)
  have : body' = body := by
    simp only [Blob.file.injEq, Stdio.mk.injEq] at hb1
    exact (List.append_cancel_left hb1.1).symm
  subst this
  have hfind := h11 { run' with loops := loops } st'.passphrase phrase' hp' hb' hquiet hfuel
  have hkeep : ∀ z, z ≠ q → withFile files1 q (some []) z = files1 z := fun z hz => withFile_other _ hz _
  have hsrc : st.properties.getD cipherName ≠ q := by
    cases hpp : st.properties with
    | none => exact hq1.symm
    | some p => intro h; exact hq3 (by rw [hpp, ← h]; rfl)
  have hdec : ∀ pos, pos = (if st.properties = none then cipherPacket run.packet (recorded st.settings id c.nonce.bytes) plain else []).length →
      decipherWith kit { run' with loops := loops } (recorded st.settings id c.nonce.bytes) key
        ((if st.properties = none then cipherPacket run.packet (recorded st.settings id c.nonce.bytes) plain else []) ++ body') pos = .ok (true, m) := by
    intro pos hpos
    unfold decipherWith
    have hmode : modeOf (recorded st.settings id c.nonce.bytes).mode = some mode := hs.mode
    rw [hmode]
    simp only []
    have hc1' : contentCipher kit { run' with loops := loops } (recorded st.settings id c.nonce.bytes).cipher mode key = .ok c1 := d1
    have d2' : setCipherNonce c1 (bufferOf (hexStringToStringInfo (recorded st.settings id c.nonce.bytes).nonce)) = .ok c' := d2
    rw [hc1', Res.ok_bind, d2', Res.ok_bind]
    have := hb2 loops (openAt ((if st.properties = none then cipherPacket run.packet (recorded st.settings id c.nonce.bytes) plain else []) ++ body') pos run'.mapped) (by omega) (by
      subst hpos
      exact at_openAt (by rw [List.length_append]; omega) _)
    rw [this]
    rfl
  unfold decipherFiles
  rw [h9]
  simp only []
  rw [hpr, hkeep _ hsrc, h8]
  simp only []
  rw [hN loops (by omega), Res.ok_bind]
  simp only []
  rw [hk', hkeep _ hq2.symm, h3, hfind, Res.ok_bind]
  simp only []
  rw [hkeep _ hq1.symm, h9, Option.getD_some, hdec]
  · show Res.ok (true, withFile (withFile files1 q (some [])) q (some m)) = _
    congr 2
    funext z
    unfold withFile
    split <;> rfl
  · cases st.properties with
    | none => simp
    | some p => rfl

/-- **C172** (partial) Both programs from their command lines on: whatever options are given, in any order, `encipher` leaves the files it is not told to write as they were and the key ring with one record
more; and whenever `decipher` is then run, with the same key ring, file of properties and passphrase, whatever other options it is given and whatever name for its output, it writes exactly what the first
program read, and changes no other file.  What is missing: sizes of files that `Restorable` excludes, key rings whose last record is of protocol 1.0, names of files with control characters, `<`, `&` and
quotes, chunks of 4 GiB or more, and what C154 leaves out of command lines. -/
theorem C172_restored_partial {kit : Kit} (hk : Lawful kit) (run : Run) (hu : Usual run.packet) (hcj : run.command.junk.length = 4096) (gs : List Given) (hok : ∀ g ∈ gs, g.OK run.command)
    (plain cipherName : List Byte) (hfiles : gs.filterMap Given.file? = [plain, cipherName]) {mode : CipherMode} {f : List Byte → BlockCipher} (hs : Choice kit (chosen kit.version gs) mode f)
    (hname : Spec.Packet.Name plain) (hd : NamesApart (ringNamed kit gs) (last Given.properties? gs) plain cipherName) (files : Files) (m : List Byte) (hm : files plain = some m)
    (rs : List Record) (hr : Ring kit (files (ringNamed kit gs)) rs) (phrase : StringInfo) (hp : run.phrase (last Given.passphrase? gs) = some phrase)
    (hg : CanGenerate kit run (chosen kit.version gs) phrase.bytes rs) (hl : m.length < run.loops)
    (hres : ∀ key c, c.cipher = f key → Restorable (contentOf kit run (chosen kit.version gs) key mode c) m.length) :
    ∃ files1, runEncipher kit run (gs.flatMap Given.words) files = .ok (true, files1) ∧
      (∀ z, z ≠ cipherName → z ≠ ringNamed kit gs → last Given.properties? gs ≠ some z → files1 z = files z) ∧
      (∃ r : Record, r.Fits ∧ files1 (ringNamed kit gs) = fileOf (kit.magick.bytes ++ kit.filetype.bytes) (rs ++ [r])) ∧
      ∀ (run' : Run) (gs' : List Given) (q : List Byte) (phrase' : StringInfo), run'.command.junk.length = 4096 → (∀ g ∈ gs', g.OK run'.command) → gs'.filterMap Given.file? = [cipherName, q] →
        run'.packet.junk.length = 4096 → run'.packet.hex = run.packet.hex → ringNamed kit gs' = ringNamed kit gs → last Given.properties? gs' = last Given.properties? gs →
        run'.phrase (last Given.passphrase? gs') = some phrase' → phrase'.bytes = phrase.bytes →
        q ≠ cipherName → q ≠ ringNamed kit gs → last Given.properties? gs ≠ some q → Quiet run'.e1 →
        run'.e1.sched.length + ((files1 (ringNamed kit gs)).getD []).length + 16 < kit.fuel →
        ∃ N, ∀ loops ≥ N, ∃ files2, runDecipher kit { run' with loops := loops } (gs'.flatMap Given.words) files1 = .ok (true, files2) ∧ files2 q = some m ∧ ∀ z, z ≠ q → files2 z = files1 z := by
  obtain ⟨st, a1, a2, a3, a4, a5, _⟩ := C154_options_partial run.command hcj kit.version gs hok plain cipherName hfiles
  have a2 : st.settings = chosen kit.version gs := a2
  rw [← a2] at hs hg hres
  unfold ringNamed at hd hr ⊢
  rw [← a3] at hd hr ⊢
  rw [← a4] at hp
  rw [← a5] at hd ⊢
  obtain ⟨files1, h1, h2, h3, h4⟩ := decipher_files hk run hu st hs hname hd files hm hr hp hg hl hres
  refine ⟨files1, ?_, h2, h3, ?_⟩
  · unfold runEncipher
    rw [a1, Res.ok_bind]
    exact h1
  · intro run' gs' q phrase' b1 b2 b3 b4 b5 b6 b7 b8 b9 b10 b11 b12 b13 b14
    obtain ⟨st', d1, d2, d3, d4, d5, _⟩ := C154_options_partial run'.command b1 kit.version gs' b2 cipherName q b3
    rw [← d3] at b6
    rw [← d5] at b7
    rw [← d4] at b8
    obtain ⟨N, hN⟩ := h4 run' st' q phrase' b4 b5 b6 b7 b8 b9 b10 b11 b12 b13 b14
    refine ⟨N, fun loops hloops => ⟨withFile files1 q (some m), ?_, withFile_self _ _ _, fun z hz => withFile_other _ hz _⟩⟩
    unfold runDecipher
    show (encipherCommand run'.command kit.version _).bind _ = _
    rw [d1]
    exact hN loops hloops

/-- **C172** (violated) `encipher` opens what it is to read and then empties what it is to write (encipher.c:668-675) without asking whether they are the same file: given one name twice it reports success,
and what it leaves does not depend on what the file held.  The content is lost, with no way back from what is left. -/
theorem C172_same_name_violated {kit : Kit} (hk : Lawful kit) (run : Run) (hcj : run.command.junk.length = 4096) (gs : List Given) (hok : ∀ g ∈ gs, g.OK run.command)
    (x : List Byte) (hfiles : gs.filterMap Given.file? = [x, x]) {mode : CipherMode} {f : List Byte → BlockCipher} (hs : Choice kit (chosen kit.version gs) mode f)
    (hd1 : ringNamed kit gs ≠ x) (hd2 : ∀ p, last Given.properties? gs = some p → p ≠ x ∧ p ≠ ringNamed kit gs) (files : Files)
    (rs : List Record) (hr : Ring kit (files (ringNamed kit gs)) rs) (phrase : StringInfo) (hp : run.phrase (last Given.passphrase? gs) = some phrase)
    (hg : CanGenerate kit run (chosen kit.version gs) phrase.bytes rs) (hl : 0 < run.loops) :
    ∃ files1, ∀ m, runEncipher kit run (gs.flatMap Given.words) (withFile files x (some m)) = .ok (true, files1) := by
  obtain ⟨st, a1, a2, a3, a4, a5, _⟩ := C154_options_partial run.command hcj kit.version gs hok x x hfiles
  have a2 : st.settings = chosen kit.version gs := a2
  rw [← a2] at hs hg
  unfold ringNamed at hd1 hd2 hr
  rw [← a3] at hd1 hd2 hr
  rw [← a4] at hp
  rw [← a5] at hd2
  have hover : ∀ m, withFile (withFile files x (some m)) x (some []) = withFile files x (some []) := by
    intro m
    funext z
    unfold withFile
    split <;> rfl
  obtain ⟨files1, r, id, key, c, body, h1, _⟩ := encipher_files hk run st hs (plain := x) (cipherName := x) ⟨hd1, hd1⟩ (fun p h => ⟨(hd2 p h).1, (hd2 p h).1, (hd2 p h).2⟩) (withFile files x (some []))
    (m0 := []) (m := []) (withFile_self _ _ _) (withFile_self _ _ _) (by rw [withFile_other _ hd1]; exact hr) hp hg hl
  refine ⟨files1, fun m => ?_⟩
  unfold runEncipher
  rw [a1, Res.ok_bind]
  show encipherFiles kit run st x x _ = _
  rw [← h1]
  unfold encipherFiles
  rw [withFile_self, withFile_self]
  simp only []
  rw [hover, hover]

/-- **C172** (violated) So does `decipher` (decipher.c:661-668): given the name of an enciphered file twice it fails, and the file is empty afterwards, whatever it held. -/
theorem C172_same_name_decipher_violated (kit : Kit) (run : Run) (hcj : run.command.junk.length = 4096) (gs : List Given) (hok : ∀ g ∈ gs, g.OK run.command)
    (x : List Byte) (hfiles : gs.filterMap Given.file? = [x, x]) (hpr : last Given.properties? gs = none) (files : Files) (m : List Byte) (hm : files x = some m) :
    ∃ files1, runDecipher kit run (gs.flatMap Given.words) files = .ok (false, files1) ∧ files1 x = some [] := by
  obtain ⟨st, a1, _, _, _, a5, _⟩ := C154_options_partial run.command hcj kit.version gs hok x x hfiles
  refine ⟨withFile files x (some []), ?_, withFile_self _ _ _⟩
  unfold runDecipher
  rw [a1, Res.ok_bind]
  show decipherFiles kit run st x x files = _
  unfold decipherFiles
  rw [hm, a5, hpr]
  simp only [Option.getD_none]
  rw [withFile_self]
  simp only []
  have : getContentInfo run.packet run.loops st.settings [] = .ok .refused := by
    unfold getContentInfo packetScan
    rfl
  rw [this]
  rfl

/-! ### An example -/

/-- AES and ChaCha; HMACs and ids that are sums; a method that does not compress. -/
def kitExample : Kit where
  cipherOf := fun t => if t = 2 then some aesCipher else if t = 3 then some (chachaCipher acquireChachaInfo) else none
  hmacOf := fun t key => if t = 1 then none else some (32, fun m => List.replicate 32 (m.foldl (· + ·) (key.foldl (· + ·) 0)))
  packerOf := fun t _ => if t = 1 then none else some ⟨3, fun m => m, fun n l => some (l.take n)⟩
  macOf := fun _ => toyMac
  magick := strOf [0x7f, 0x53]
  filetype := strOf [1, 2, 3]
  fuel := 2 ^ 35
  turns := 1000
  version := ascText "WizardsToolkit 1.1"
  home := ascText "/home/a/keyring.rdf"

/-- A run that draws a key whose id is in the key ring and then another one. -/
def runExample : Run where
  command := commandEnvExample
  packet := packetEnvExample
  phrase := fun _ => some (bufferOf [97, 98])
  draw := fun _ => 3
  draw' := fun _ => 4
  now := 1700000000
  tries := [(fun _ => 1, ⟨false, []⟩), (fun _ => 2, ⟨false, [.short 1]⟩)]
  e1 := ⟨false, []⟩
  e2 := ⟨false, [.intr]⟩
  pad := fun _ => 9
  nonce := fun i => BitVec.ofNat 8 i
  random := fun _ => 8
  pads := fun _ _ => 7
  fills := fun _ _ => 6
  junk := fun _ => 5
  mapped := true
  loops := 10 ^ 9

/-- `encipher -cipher AES -properties p.rdf plain.txt cipher.wiz` -/
def givenExample2 : List Given := [.cipher (ascText "AES") 2, .properties (ascText "p.rdf"), .file (ascText "plain.txt"), .file (ascText "cipher.wiz")]

/-- `decipher cipher.wiz -properties p.rdf out.txt` -/
def givenExample3 : List Given := [.file (ascText "cipher.wiz"), .properties (ascText "p.rdf"), .file (ascText "out.txt")]

theorem kitExample_lawful : Lawful kitExample := by
  refine ⟨?_, ?_, ?_, fun _ _ _ => by show 0 < 2 ∧ 2 ≤ 2000; decide, header_example, by show Text (ascText "WizardsToolkit 1.1"); unfold Text; decide +kernel⟩
  · intro t f h key
    unfold kitExample at h
    simp only [] at h
    split at h
    · cases h
      exact ⟨by show 16 ≤ 16; decide, by show 16 ≤ 128; decide, (aes_sized_invertible key).1, (aes_sized_invertible key).2, rfl⟩
    · split at h
      · cases h
        exact ⟨by show 16 ≤ 64; decide, by show 64 ≤ 128; decide, (chacha_sized_invertible _ key).1, (chacha_sized_invertible _ key).2, rfl⟩
      · cases h
  · intro t key n h e
    unfold kitExample at e
    simp only [] at e
    split at e
    · cases e
    · cases e
      exact ⟨by decide, by decide, fun m => List.length_replicate⟩
  · intro t l e h
    unfold kitExample at h
    simp only [] at h
    split at h
    · cases h
    · cases h
      refine ⟨by decide, fun m rest _ => ?_⟩
      show some ((m ++ rest).take m.length) = some m
      rw [List.take_left' rfl]

/-- A file of 600000 bytes. -/
def filesExample : Files := fun z =>
  if z = ascText "plain.txt" then some (List.replicate 600000 65)
  else if z = ascText "/home/a/keyring.rdf" then fileOf (kitExample.magick.bytes ++ kitExample.filetype.bytes) [⟨[2, 64], [5], [6], 1, 1, 7⟩] else none

theorem programs_example : ∃ files1, runEncipher kitExample runExample (givenExample2.flatMap Given.words) filesExample = .ok (true, files1) ∧
    ∃ N, ∀ loops ≥ N, ∃ files2, runDecipher kitExample { runExample with loops := loops } (givenExample3.flatMap Given.words) files1 = .ok (true, files2) ∧
      files2 (ascText "out.txt") = some (List.replicate 600000 65) := by
  have hq : Quiet runExample.e1 := ⟨rfl, by intro e he; cases he⟩
  have hring : (ring (kitExample.magick.bytes ++ kitExample.filetype.bytes) [⟨[2, 64], [5], [6], 1, 1, 7⟩]).length = 41 := by decide
  have hok2 : ∀ g ∈ givenExample2, g.OK commandEnvExample := by
    intro g hg
    unfold givenExample2 at hg
    simp only [List.mem_cons, List.not_mem_nil, or_false] at hg
    rcases hg with rfl | rfl | rfl | rfl
    · exact names_word rfl (by decide +kernel)
    · trivial
    · exact file_word rfl (by decide)
    · exact file_word rfl (by decide)
  have hok3 : ∀ g ∈ givenExample3, g.OK commandEnvExample := by
    intro g hg
    unfold givenExample3 at hg
    simp only [List.mem_cons, List.not_mem_nil, or_false] at hg
    rcases hg with rfl | rfl | rfl
    · exact file_word rfl (by decide)
    · trivial
    · exact file_word rfl (by decide)
  have hrn : ringNamed kitExample givenExample2 = ascText "/home/a/keyring.rdf" := rfl
  have hm : filesExample (ascText "plain.txt") = some (List.replicate 600000 65) := if_pos rfl
  have hfile : filesExample (ascText "/home/a/keyring.rdf") = fileOf (kitExample.magick.bytes ++ kitExample.filetype.bytes) [⟨[2, 64], [5], [6], 1, 1, 7⟩] := by
    unfold filesExample
    rw [if_neg (by decide +kernel), if_pos rfl]
  have hlen : (List.replicate 600000 (65 : Byte)).length = 600000 := List.length_replicate
  generalize hg : List.replicate 600000 (65 : Byte) = m at hm hlen ⊢
  obtain ⟨files1, h1, _, ⟨r, hr1, hr2⟩, h4⟩ := C172_restored_partial kitExample_lawful runExample packet_example.1 List.length_replicate givenExample2 hok2 (ascText "plain.txt") (ascText "cipher.wiz") rfl
    (mode := .ctr) (f := aesCipher)
    ⟨rfl, by unfold OneOf; decide +kernel, rfl, by unfold OneOf; decide +kernel, by unfold OneOf; decide +kernel, by unfold OneOf; decide +kernel, by unfold OneOf; decide +kernel,
      by unfold OneOf; decide +kernel, by decide +kernel, by decide +kernel, rfl⟩
    (by unfold Spec.Packet.Name; decide +kernel) ⟨by decide +kernel, by rw [hrn]; decide +kernel, by
      intro p hp
      have hp : some (ascText "p.rdf") = some p := hp
      cases hp
      rw [hrn]
      decide +kernel⟩ filesExample m hm [⟨[2, 64], [5], [6], 1, 1, 7⟩]
    (by
      rw [hrn]
      refine ⟨hfile, ?_, ?_⟩
      · intro r hr
        cases List.mem_singleton.1 hr
        exact ⟨by decide, by decide, by decide, fun _ => by decide⟩
      · intro r hr
        cases hr
        decide) (bufferOf [97, 98]) rfl
    (by
      refine ⟨⟨(fun _ => 2, ⟨false, [.short 1]⟩), by simp [runExample], by decide +kernel⟩, hq, ?_, ?_, by show 1 + 1 < 1000; decide, by rw [hring]; decide⟩
      · intro e he
        simp only [runExample, List.mem_singleton] at he
        exact .inl he
      · intro x hx
        rw [hring]
        simp only [runExample, List.mem_cons, List.not_mem_nil, or_false] at hx
        rcases hx with rfl | rfl
        · exact ⟨⟨rfl, by intro e he; cases he⟩, by show 0 + 41 + 16 < 2 ^ 35; decide⟩
        · exact ⟨⟨rfl, by intro e he; simp at he; exact ⟨_, he⟩⟩, by show 1 + 41 + 16 < 2 ^ 35; decide⟩)
    (by rw [hlen]; decide)
    (by
      intro key c hc
      refine .inr (.inr (.inr (.inr ?_)))
      show m.length % 262144 ≠ 0 ∧ m.length % 262144 + c.cipher.blocksize < 262144
      rw [hc, hlen]
      exact ⟨by decide, by show 75712 + 16 < 262144; decide⟩)
  have hfuel : ((files1 (ringNamed kitExample givenExample2)).getD []).length + 16 < 2 ^ 35 := by
    rw [hr2]
    unfold fileOf
    rw [if_neg (by simp), Option.getD_some]
    have : ring (kitExample.magick.bytes ++ kitExample.filetype.bytes) ([⟨[2, 64], [5], [6], 1, 1, 7⟩] ++ [r]) =
        ring (kitExample.magick.bytes ++ kitExample.filetype.bytes) [⟨[2, 64], [5], [6], 1, 1, 7⟩] ++ r.encode := by
      unfold ring encodeAll
      rw [List.flatMap_append, List.append_assoc]
      simp
    rw [this, List.length_append, hring, encode_length]
    have a := hr1.id
    have b := hr1.key
    have c := hr1.nonce
    have : r.body.length ≤ 100 + r.id.length + r.key.length + r.nonce.length := by
      have : r.stamp.length ≤ 50 := by
        unfold Record.stamp
        split <;> simp only [List.length_append, le_length] <;> omega
      unfold Record.body counted
      simp only [List.length_append, le_length]
      omega
    omega
  refine ⟨files1, h1, ?_⟩
  obtain ⟨N, hN⟩ := h4 runExample givenExample3 (ascText "out.txt") (bufferOf [97, 98]) List.length_replicate hok3 rfl List.length_replicate rfl rfl rfl rfl rfl (by decide +kernel)
    (by rw [hrn]; decide +kernel) (by decide +kernel) hq (by show 0 + _ + 16 < 2 ^ 35; omega)
  refine ⟨N, fun loops hl => ?_⟩
  obtain ⟨files2, g1, g2, _⟩ := hN loops hl
  exact ⟨files2, g1, g2⟩

end Wizard.Props

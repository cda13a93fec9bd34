import Verif.Lemmas.Secret
/-! **C103–C109**: the secret key ring (secret.c, authenticate.c). -/
namespace Wizard.Props
open Wizard Wizard.Spec Wizard.Spec.Keyring Wizard.Spec.Secret Wizard.SecretP Wizard.ContentP

/-- A new object is in order, and so is one whose id is set. -/
theorem C103_new (draw draw' : Nat → Byte) (now : BitVec 64) (bits : Nat) (hb : bits / 8 < 2 ^ 32) :
    ∃ s, acquireSecretInfo draw draw' now bits = .ok s ∧ SecretOK s ∧ s.keyLength = bits ∧
      (s.ring.major, s.ring.minor, s.ring.timestamp) = (1, 1, now) ∧
      ∀ id : StringInfo, id.WF → id.length < 2 ^ 32 →
        ∃ s' i, setSecretId s id = .ok s' ∧ SecretOK s' ∧ s'.id = some i ∧ i.WF ∧ i.bytes = id.bytes := by
  obtain ⟨c, h1, h2, h3⟩ := (C68_ready (aesCipher []) (by decide) (by decide) (aes_sized_invertible _).1).1 .ctr draw draw
  obtain ⟨n, h4, h5⟩ := store_nonce draw'
  refine ⟨⟨bits, ⟨bufferOf [], bufferOf [], bufferOf [], 1, 1, now⟩, c, n, none, none⟩, ?_, ⟨h5, ⟨h2.nonce, ?_⟩, hb⟩, rfl, rfl, ?_⟩
  · unfold acquireSecretInfo
    rw [h1, Res.ok_bind, h3]
    show (generateCipherNonce .ctr 16 draw').bind _ = _
    rw [h4]
    rfl
  · have := h2.nonceLength; rw [h3] at this; exact this
  · intro id hi hl
    obtain ⟨i, g1, g2, g3⟩ := clone_ok hi hl
    refine ⟨_, i, by unfold setSecretId; rw [g1, Res.ok_bind], ⟨h5, ⟨h2.nonce, ?_⟩, hb⟩, rfl, g2, g3⟩
    have := h2.nonceLength; rw [h3] at this; exact this

/-- Opening a sealed key. -/
theorem open_sealed {v : SecretEnv} (hv : EnvOK v) {phrase id : StringInfo} {s : SecretInfo} {w : StringInfo} {key : List Byte} {nonce : List Byte}
    (hc : s.cipher.nonce.WF ∧ s.cipher.nonce.length = 16) (hn : s.ring.nonce.WF) (hnl : nonce.length = 16)
    (hnb : s.ring.nonce.bytes = nonce) (hk : s.ring.key.WF) (hkl : s.ring.key.length < 2 ^ 32) (hw : Wizard.Sealed phrase.bytes nonce key w)
    (hww : w.WF) (hkw : s.ring.key.bytes = w.bytes) (hid : id.WF) (hidb : id.bytes = v.mac phrase.bytes key) :
    ∃ s' r, openSecretKey v phrase id s = .ok (true, s') ∧ s'.key = some r ∧ r.bytes = key ∧ s'.id = s.id := by
  have ln : s.ring.nonce.length = 16 := by rw [← StringInfo.bytes_length hn, hnb, hnl]
  obtain ⟨n, c1, c2, c3, c4⟩ := phraseCipher_ok v phrase hc hn
  obtain ⟨t, d1, d2, d3, d4⟩ := clone_full hk hkl
  have lw : s.ring.key.length = w.length := by rw [← StringInfo.bytes_length hk, hkw, StringInfo.bytes_length hww]
  obtain ⟨r, e1, e2⟩ := sealed_open (random := v.pad) hw c2 c3 (by rw [c4 ln]; exact hnb) d2 (by omega) (by rw [d3, hkw])
  obtain ⟨d, f1, f2, f3⟩ := clone_ok (bufferOf_wf (v.mac phrase.bytes r.bytes)).1 (hv.mac _ _)
  obtain ⟨o, g1, g2⟩ := compare_eq hid f2
  have ho : o = 0 := g2.mpr (by rw [f3, (bufferOf_wf _).2, hidb, e2])
  refine ⟨{ s with cipher := storeCipher phrase.bytes n v.pad, key := some r }, r, ?_, rfl, e2, rfl⟩
  unfold openSecretKey
  rw [c1, Res.ok_bind, d1, Res.ok_bind, e1, Res.ok_bind, f1, Res.ok_bind, g1, Res.ok_bind, ho]
  rfl

/-- Steps enough for `GenerateSecretKey`. -/
structure Enough (v : SecretEnv) (rs : List Record) (tries : List ((Nat → Byte) × IOEnv)) (e1 e2 : IOEnv) (digest key : List Byte) : Prop where
  turns : rs.length < v.turns
  tries : ∀ x ∈ tries, Quiet x.2 ∧ x.2.sched.length + (ring (head v) rs).length + 16 < v.fuel
  fuel : e1.sched.length + e2.sched.length + (ring (head v) rs).length + digest.length + key.length + 100 < v.fuel

/-- The record of a generated key. -/
structure SecretRecord (v : SecretEnv) (phrase : StringInfo) (s : SecretInfo) (rs : List Record) (key : List Byte) (r : Record) : Prop where
  id : r.id = v.mac phrase.bytes key
  nonce : r.nonce = s.nonce.bytes
  stamp : (r.major, r.minor, r.timestamp) = stampOf s.ring rs
  length : r.key.length = key.length
  locked : ∃ w : StringInfo, w.WF ∧ w.bytes = r.key ∧ Wizard.Sealed phrase.bytes s.nonce.bytes key w
  stream : ∀ i, i < key.length → r.key.getD i 0 = key.getD i 0 ^^^ streamByte phrase.bytes s.nonce.bytes i

/-- What `GenerateSecretKey` comes to: the first key drawn whose id is new is handed to `ImportKeyringKey`. -/
theorem generate_eq {v : SecretEnv} (hv : EnvOK v) {phrase : StringInfo} (hp : v.phrase = some phrase) {rs : List Record} (hr : ∀ r ∈ rs, r.Fits)
    {s : SecretInfo} (hs : SecretOK s) {tries : List ((Nat → Byte) × IOEnv)} {x : (Nat → Byte) × IOEnv}
    (hx : tries.find? (fun x => isNew v.mac phrase.bytes rs (keyOf s.keyLength x.1)) = some x)
    (ht : rs.length < v.turns) (hq : ∀ x ∈ tries, Quiet x.2 ∧ x.2.sched.length + (ring (head v) rs).length + 16 < v.fuel) :
    ∃ s' i k, SecretOK s' ∧ s'.keyLength = s.keyLength ∧ s'.nonce = s.nonce ∧ s'.id = some i ∧ i.WF ∧ i.bytes = v.mac phrase.bytes (keyOf s.keyLength x.1) ∧
      s'.key = some k ∧ k.bytes = keyOf s.keyLength x.1 ∧ KeyOK s'.ring ∧
      SecretRecord v phrase s rs (keyOf s.keyLength x.1) (recordOf s'.ring) ∧
      ∀ e1 e2, generateSecretKey v tries (fileOf (head v) rs) e1 e2 s =
        (importKeyring v.fuel v.turns v.magick v.filetype (fileOf (head v) rs) e1 e2 s'.ring).bind (fun w => .ok (some (true, s', w.2))) := by
  have h := search_spec hv phrase hr ht tries s hs hq
  rw [hx] at h
  obtain ⟨s1, h1, d⟩ := h
  obtain ⟨key, k1, k2, k3, k4⟩ := d.key
  obtain ⟨id, i1, i2, i3⟩ := d.id
  have hkl : key.length < 2 ^ 32 := by rw [k3]; exact hs.bits
  obtain ⟨s2, g1, g⟩ := seal_spec v phrase d.ok k2 hkl
  have hid := d.ring
  rw [← g.ringId] at hid
  refine ⟨s2, id, key, g.ok, g.bits.trans d.bits, g.nonce.trans d.nonce, g.id.trans i1, i2, i3, g.sameKey.trans k1, k4, ?_, ?_, ?_⟩
  · refine ⟨hid.1, g.ringKey.1, g.ringNonce.1, ?_, by rw [g.ringKey.2]; exact hkl, by rw [g.ringNonce.2.1]; decide⟩
    rw [← StringInfo.bytes_length hid.1, hid.2]; exact hv.mac _ _
  · refine ⟨hid.2, ?_, ?_, ?_, ⟨s2.ring.key, g.ringKey.1, rfl, ?_⟩, ?_⟩
    · show s2.ring.nonce.bytes = _; rw [g.ringNonce.2.2, d.nonce]
    · show (s2.ring.major, s2.ring.minor, s2.ring.timestamp) = _; rw [g.stamp, d.stamp]
    · show s2.ring.key.bytes.length = _
      rw [StringInfo.bytes_length g.ringKey.1, g.ringKey.2, ← k4, StringInfo.bytes_length k2]
    · rw [← k4, ← d.nonce]; exact g.locked
    · rw [← k4, ← d.nonce]
      intro i hi
      exact g.stream i (by rw [StringInfo.bytes_length k2] at hi; exact hi)
  · intro e1 e2
    unfold generateSecretKey
    rw [hp]
    simp only []
    rw [h1, Res.ok_bind]
    simp only []
    rw [k1]
    show (sealSecretKey v phrase s1 key).bind _ = _
    rw [g1]
    rfl

theorem encode_le (r : Record) : r.encode.length ≤ r.id.length + r.key.length + r.nonce.length + 32 := by
  rw [encode_length]
  unfold Record.body Record.stamp counted
  split <;> simp only [List.length_append, le_length] <;> omega

/-- **C103**, in part: `GenerateSecretKey` draws keys until the id of one, its HMAC under the passphrase, is not in the key ring;
then the file holds what it held and one record more.  Any object given that id and the passphrase authenticates, and gets the
key.  (Missing: key rings whose last record is of protocol 1.0, see `C109_protocol_violated`.) -/
theorem C103_generated_partial (v : SecretEnv) (hv : EnvOK v) (phrase : StringInfo) (hp : v.phrase = some phrase) (rs : List Record)
    (hr : ∀ r ∈ rs, r.Fits) (s : SecretInfo) (hs : SecretOK s) (hnew : ¬ ((stampOf s.ring rs).1 = 1 ∧ (stampOf s.ring rs).2.1 = 0))
    (tries : List ((Nat → Byte) × IOEnv)) (x : (Nat → Byte) × IOEnv)
    (hx : tries.find? (fun x => isNew v.mac phrase.bytes rs (keyOf s.keyLength x.1)) = some x)
    (e1 e2 : IOEnv) (he1 : Quiet e1) (he2 : NoFail e2.sched)
    (hf : Enough v rs tries e1 e2 (v.mac phrase.bytes (keyOf s.keyLength x.1)) (keyOf s.keyLength x.1)) :
    ∃ s' i k r, generateSecretKey v tries (fileOf (head v) rs) e1 e2 s = .ok (some (true, s', fileOf (head v) (rs ++ [r]))) ∧
      SecretOK s' ∧ s'.id = some i ∧ i.WF ∧ s'.key = some k ∧ k.bytes = keyOf s.keyLength x.1 ∧
      i.bytes = v.mac phrase.bytes k.bytes ∧ r.id = i.bytes ∧ r.Fits ∧ lookup rs i.bytes = none ∧
      ∀ (v' : SecretEnv) (phrase' : StringInfo), v'.mac = v.mac → v'.magick = v.magick → v'.filetype = v.filetype → v'.phrase = some phrase' →
        phrase'.bytes = phrase.bytes → ∀ (t : SecretInfo), SecretOK t → ∀ j : StringInfo, t.id = some j → j.WF → j.bytes = i.bytes →
        ∀ e, Quiet e → e.sched.length + (ring (head v) (rs ++ [r])).length + 16 < v'.fuel → rs.length + 1 < v'.turns →
        ∃ t' k', authenticateSecretKey v' (fileOf (head v) (rs ++ [r])) e t = .ok (true, t') ∧ t'.key = some k' ∧ k'.bytes = k.bytes := by
  obtain ⟨s', i, k, h1, h2, h2', h3, h4, h5, h6, h7, h8, h9, h10⟩ := generate_eq hv hp hr hs hx hf.turns hf.tries
  have hst := h9.stamp
  have himp : Importable s'.ring := by
    refine ⟨h8, fun ho => hnew ?_⟩
    have a : s'.ring.major = (stampOf s.ring rs).1 := congrArg Prod.fst hst
    have b : s'.ring.minor = (stampOf s.ring rs).2.1 := congrArg (fun x => x.2.1) hst
    exact ⟨a ▸ ho.1, b ▸ ho.2⟩
  have hfits := fits_of h8 himp.new
  have hln : (recordOf s'.ring).nonce.length = 16 := by
    rw [h9.nonce, StringInfo.bytes_length hs.nonce.wf, hs.nonce.length]
  have hle := encode_le (recordOf s'.ring)
  rw [h9.id, h9.length, hln] at hle
  have hlk : lookup rs (v.mac phrase.bytes (keyOf s.keyLength x.1)) = none := by
    have := List.find?_some hx
    simpa [isNew] using this
  have hid : s'.ring.id.bytes = v.mac phrase.bytes (keyOf s.keyLength x.1) := h9.id
  have himport := C43_import v.magick v.filetype hv.header rs hr e1 e2 he1 he2 s'.ring himp v.fuel v.turns
    (by unfold importFuel; have := hf.fuel; unfold head at this; omega) hf.turns
  rw [hid, hlk] at himport
  have hadd : addRecord rs (recordOf s'.ring) = rs ++ [recordOf s'.ring] := by
    unfold addRecord
    rw [show (recordOf s'.ring).id = _ from h9.id, hlk]
    rfl
  rw [hadd] at himport
  refine ⟨s', i, k, recordOf s'.ring, ?_, h1, h3, h4, h6, h7, by rw [h5, h7], by rw [h9.id, h5], hfits, by rw [h5]; exact hlk, ?_⟩
  · rw [h10]
    unfold head
    rw [himport]
    rfl
  · intro v' phrase' m1 m2 m3 m4 m5 t ht j hj hjw hjb e he hfuel hturns
    have hlj : j.length < 2 ^ 32 := by
      rw [← StringInfo.bytes_length hjw, hjb, h5]; exact hv.mac _ _
    obtain ⟨j', q1, q2, q3⟩ := clone_ok hjw hlj
    have hlook : lookup (rs ++ [recordOf s'.ring]) j'.bytes = some (recordOf s'.ring) := by
      unfold lookup at hlk ⊢
      rw [q3, hjb, h5, List.find?_append, hlk]
      simp [h9.id]
    have hall : ∀ r ∈ rs ++ [recordOf s'.ring], r.Fits := by
      intro r hr'
      rcases List.mem_append.mp hr' with h | h
      · exact hr r h
      · rw [List.mem_singleton] at h; rw [h]; exact hfits
    have hv' : Header v'.magick v'.filetype := by rw [m2, m3]; exact hv.header
    obtain ⟨K, g1, g⟩ := export_got (u := []) (k := { t.ring with id := j' }) (fuel := v'.fuel) (turns := v'.turns) hv' he q2 hall hlook
      (by rw [m2, m3]; exact hfuel) (by simp; omega)
    rw [List.append_nil] at g1
    obtain ⟨w, w1, w2, w3⟩ := h9.locked
    have hkl : K.key.length < 2 ^ 32 := by
      rw [← StringInfo.bytes_length g.keyWF, g.key, h9.length]
      show (keyOf s.keyLength x.1).length < _
      unfold keyOf
      simp only [List.length_map, List.length_range]
      exact hs.bits
    have hv2 : EnvOK v' := ⟨hv', by rw [m1]; exact hv.mac⟩
    obtain ⟨t', r, o1, o2, o3, _⟩ := open_sealed hv2 (phrase := phrase') (id := j) (s := { t with ring := K }) (w := w)
      (key := keyOf s.keyLength x.1) (nonce := s.nonce.bytes) ht.cipher g.nonceWF
      (by rw [StringInfo.bytes_length hs.nonce.wf, hs.nonce.length]) (by show K.nonce.bytes = _; rw [g.nonce, h9.nonce]) g.keyWF hkl
      (by rw [m5]; exact w3) w1 (by show K.key.bytes = _; rw [g.key, w2]) hjw (by rw [hjb, h5, m1, m5])
    refine ⟨t', r, ?_, o2, by rw [o3, h7]⟩
    unfold authenticateSecretKey
    rw [hj]
    simp only []
    rw [q1, Res.ok_bind]
    unfold fileOf head
    rw [if_neg (by simp), ← m2, ← m3, g1, Res.ok_bind]
    simp only [Bool.true_eq_false, if_false]
    rw [m4]
    rw [hj] at o1
    exact o1

/-! ### C104 -/

/-- Every further write fails. -/
def Full (n : Nat) (c : List Byte) (f : FileIO) : Prop := f.content = c ∧ ∃ m, n ≤ m ∧ f.sched = List.replicate m .fail

theorem full_write {fuel n : Nat} {c : List Byte} {f : FileIO} (h : Full (n + 1) c f) (data : List Byte) :
    ∃ b f', writeFileChunk (fuel + 1) f data = .ok (b, f') ∧ Full n c f' := by
  obtain ⟨h1, m, h2, h3⟩ := h
  unfold writeFileChunk writeLoop
  cases data with
  | nil => exact ⟨true, f, rfl, h1, m, by omega, h3⟩
  | cons a l =>
    rw [if_pos (by simp)]
    unfold sysWrite
    rw [h3, show m = (m - 1) + 1 by omega, List.replicate_succ]
    exact ⟨false, _, rfl, h1, m - 1, by omega, rfl⟩

/-- A disk that is full. -/
def fullDisk : IOEnv := ⟨false, List.replicate 13 .fail⟩

theorem full_writes {fuel : Nat} {m t : StringInfo} (hh : Header m t) (k : KeyringInfo) (hk : KeyOK k) (c : List Byte) :
    ∃ b f, importWrites (fuel + 1) (openFile c fullDisk) m t k = .ok (b, f) ∧ f.content = c := by
  have h0 : Full 13 c (openFile c fullDisk) := ⟨rfl, 13, Nat.le_refl _, rfl⟩
  unfold importWrites writeFile32 writeFile16 writeFile64
  rw [rdN_bytes hh.mWF, Res.ok_bind]
  obtain ⟨b1, f1, e1, g1⟩ := full_write (fuel := fuel) h0 m.bytes
  rw [e1, Res.ok_bind, rdN_bytes hh.tWF, Res.ok_bind]
  simp only []
  obtain ⟨b2, f2, e2, g2⟩ := full_write (fuel := fuel) g1 t.bytes
  rw [e2, Res.ok_bind]
  simp only []
  have g2' : Full 11 c { f2 with pos := f2.content.length } := g2
  obtain ⟨b3, f3, e3, g3⟩ := full_write (fuel := fuel) g2' [wizardSignature.setWidth 8, (wizardSignature >>> 8).setWidth 8, (wizardSignature >>> 16).setWidth 8, (wizardSignature >>> 24).setWidth 8]
  rw [e3, Res.ok_bind]
  simp only []
  obtain ⟨b4, f4, e4, g4⟩ := full_write (fuel := fuel) g3 [(0 : BitVec 64).setWidth 8, ((0 : BitVec 64) >>> 8).setWidth 8, ((0 : BitVec 64) >>> 16).setWidth 8, ((0 : BitVec 64) >>> 24).setWidth 8]
  rw [e4, Res.ok_bind]
  simp only []
  obtain ⟨b5, f5, e5, g5⟩ := full_write (fuel := fuel) g4 [k.major.setWidth 8, (k.major >>> 8).setWidth 8]
  rw [e5, Res.ok_bind]
  simp only []
  obtain ⟨b6, f6, e6, g6⟩ := full_write (fuel := fuel) g5 [k.minor.setWidth 8, (k.minor >>> 8).setWidth 8]
  rw [e6, Res.ok_bind]
  simp only []
  obtain ⟨b7, f7, e7, g7⟩ := full_write (fuel := fuel) g6 [k.timestamp.setWidth 8, (k.timestamp >>> 8).setWidth 8, (k.timestamp >>> 16).setWidth 8, (k.timestamp >>> 24).setWidth 8,
    (k.timestamp >>> 32).setWidth 8, (k.timestamp >>> 40).setWidth 8, (k.timestamp >>> 48).setWidth 8, (k.timestamp >>> 56).setWidth 8]
  rw [e7, Res.ok_bind]
  simp only []
  have w32 := fun {n : Nat} {c : List Byte} {f : FileIO} (h : Full (n + 1) c f) (v : BitVec 64) => full_write (fuel := fuel) h
    [v.setWidth 8, (v >>> 8).setWidth 8, (v >>> 16).setWidth 8, (v >>> 24).setWidth 8]
  obtain ⟨b8, f8, e8, g8⟩ := w32 g7 (BitVec.ofNat 64 k.id.length)
  rw [e8, Res.ok_bind, rdN_bytes hk.id, Res.ok_bind]
  simp only []
  obtain ⟨b9, f9, e9, g9⟩ := full_write (fuel := fuel) g8 k.id.bytes
  rw [e9, Res.ok_bind]
  simp only []
  obtain ⟨b10, f10, e10, g10⟩ := w32 g9 (BitVec.ofNat 64 k.key.length)
  rw [e10, Res.ok_bind, rdN_bytes hk.key, Res.ok_bind]
  simp only []
  obtain ⟨b11, f11, e11, g11⟩ := full_write (fuel := fuel) g10 k.key.bytes
  rw [e11, Res.ok_bind]
  simp only []
  obtain ⟨b12, f12, e12, g12⟩ := w32 g11 (BitVec.ofNat 64 k.nonce.length)
  rw [e12, Res.ok_bind, rdN_bytes hk.nonce, Res.ok_bind]
  simp only []
  obtain ⟨b13, f13, e13, g13⟩ := full_write (fuel := fuel) g12 k.nonce.bytes
  rw [e13, Res.ok_bind]
  exact ⟨_, _, rfl, g13.1⟩

/-- **C104**, partial: the half that holds.  `GenerateSecretKey` returns False exactly if no passphrase can be had, and then the object and the key
ring file are as they were.  What is missing: that the key is in the key ring when it returns True, see `C104_added_violated`. -/
theorem C104_status_partial (v : SecretEnv) (tries : List ((Nat → Byte) × IOEnv)) (file file' : Option (List Byte)) (e1 e2 : IOEnv) (s s' : SecretInfo) (st : Bool)
    (h : generateSecretKey v tries file e1 e2 s = .ok (some (st, s', file'))) :
    (st = false ↔ v.phrase = none) ∧ (st = false → s' = s ∧ file' = file) := by
  unfold generateSecretKey at h
  cases hp : v.phrase with
  | none =>
    rw [hp] at h
    cases h
    exact ⟨⟨fun _ => rfl, fun _ => rfl⟩, fun _ => ⟨rfl, rfl⟩⟩
  | some phrase =>
    rw [hp] at h
    simp only [] at h
    have hst : st = true := by
      cases hr : searchSecretKey v phrase file tries s with
      | ub => rw [hr] at h; cases h
      | fatal => rw [hr] at h; cases h
      | ok r =>
        rw [hr, Res.ok_bind] at h
        cases r with
        | none => cases h
        | some s1 =>
          simp only [] at h
          cases hq : sealSecretKey v phrase s1 (s1.key.getD (bufferOf [])) with
          | ub => rw [hq] at h; cases h
          | fatal => rw [hq] at h; cases h
          | ok s2 =>
            rw [hq, Res.ok_bind] at h
            cases hw : importKeyring v.fuel v.turns v.magick v.filetype file e1 e2 s2.ring with
            | ub => rw [hw] at h; cases h
            | fatal => rw [hw] at h; cases h
            | ok w => rw [hw, Res.ok_bind] at h; cases h; rfl
    subst hst
    exact ⟨⟨fun h => (by cases h), fun h => (by cases h)⟩, fun h => (by cases h)⟩

/-- **C104 is false**: `GenerateSecretKey` "returns WizardTrue if a key is generated and successfully added to the secret key
ring", but the status of the import is overwritten by the constant (secret.c:332, 335), and the import itself only logs a
failed write (keyring.c:501-506).  On a full disk the call returns True with the id of a key the file does not hold: the content
that is then enciphered with it (utilities/encipher.c:684-692) can not be deciphered again. -/
theorem C104_added_violated (v : SecretEnv) (hv : EnvOK v) (phrase : StringInfo) (hp : v.phrase = some phrase) (rs : List Record) (hne : rs ≠ [])
    (hr : ∀ r ∈ rs, r.Fits) (s : SecretInfo) (hs : SecretOK s)
    (tries : List ((Nat → Byte) × IOEnv)) (x : (Nat → Byte) × IOEnv)
    (hx : tries.find? (fun x => isNew v.mac phrase.bytes rs (keyOf s.keyLength x.1)) = some x)
    (e1 e : IOEnv) (he1 : Quiet e1) (he : Quiet e)
    (hf : Enough v rs tries e1 e (v.mac phrase.bytes (keyOf s.keyLength x.1)) (keyOf s.keyLength x.1)) :
    ∃ s' i, generateSecretKey v tries (fileOf (head v) rs) e1 fullDisk s = .ok (some (true, s', fileOf (head v) rs)) ∧
      s'.id = some i ∧ lookup rs i.bytes = none ∧
      ∃ t, authenticateSecretKey v (fileOf (head v) rs) e s' = .ok (false, t) := by
  obtain ⟨s', i, k, h1, h2, h2', h3, h4, h5, h6, h7, h8, h9, h10⟩ := generate_eq hv hp hr hs hx hf.turns hf.tries
  have hlk : lookup rs (v.mac phrase.bytes (keyOf s.keyLength x.1)) = none := by
    have := List.find?_some hx
    simpa [isNew] using this
  have hid : s'.ring.id.bytes = v.mac phrase.bytes (keyOf s.keyLength x.1) := h9.id
  have hfu := hf.fuel
  have hexp := C43_export v.magick v.filetype hv.header rs hr e1 he1 s'.ring h8.id v.fuel v.turns (by unfold head at hfu; omega) hf.turns
  rw [hid, hlk] at hexp
  obtain ⟨K, x1, _⟩ := hexp
  obtain ⟨b, f, w1, w2⟩ := full_writes (fuel := v.fuel - 1) hv.header s'.ring h8 (ring (head v) rs)
  rw [show v.fuel - 1 + 1 = v.fuel by omega] at w1
  have himp : importKeyring v.fuel v.turns v.magick v.filetype (fileOf (head v) rs) e1 fullDisk s'.ring = .ok (true, fileOf (head v) rs) := by
    unfold importKeyring
    unfold head at w1 w2 ⊢
    rw [x1, Res.ok_bind]
    simp only [Bool.false_eq_true, if_false]
    rw [show (fileOf (v.magick.bytes ++ v.filetype.bytes) rs).getD [] = ring (v.magick.bytes ++ v.filetype.bytes) rs by
      unfold fileOf; rw [if_neg hne]; rfl, w1, Res.ok_bind, w2]
    unfold fileOf
    rw [if_neg hne]
  refine ⟨s', i, by rw [h10, himp]; rfl, h3, by rw [h5]; exact hlk, ?_⟩
  have hil : i.length < 2 ^ 32 := by rw [← StringInfo.bytes_length h4, h5]; exact hv.mac _ _
  obtain ⟨j, q1, q2, q3⟩ := clone_ok h4 hil
  have hexp := C43_export v.magick v.filetype hv.header rs hr e he { s'.ring with id := j } q2 v.fuel v.turns (by unfold head at hfu; omega) hf.turns
  have hb : ({ s'.ring with id := j } : KeyringInfo).id.bytes = v.mac phrase.bytes (keyOf s.keyLength x.1) := by
    show j.bytes = _; rw [q3, h5]
  rw [hb, hlk] at hexp
  obtain ⟨K', y1, _⟩ := hexp
  unfold authenticateSecretKey
  rw [h3]
  simp only []
  rw [q1, Res.ok_bind]
  unfold head
  rw [y1, Res.ok_bind]
  exact ⟨_, rfl⟩

/-! ### C105 -/

/-- **C105** Whatever the file holds and the system calls do: `AuthenticateSecretKey` returns True only if the HMAC of the key it
delivers, under the passphrase, is the id asked for. -/
theorem C105_sound (v : SecretEnv) (hv : EnvOK v) (file : Option (List Byte)) (e : IOEnv) (s s' : SecretInfo)
    (id : StringInfo) (hid : s.id = some id) (hw : id.WF) (h : authenticateSecretKey v file e s = .ok (true, s')) :
    ∃ phrase k, v.phrase = some phrase ∧ s'.key = some k ∧ v.mac phrase.bytes k.bytes = id.bytes ∧ s'.id = some id := by
  unfold authenticateSecretKey at h
  rw [hid] at h
  simp only [] at h
  cases h1 : cloneStringInfo id with
  | ub => rw [h1] at h; cases h
  | fatal => rw [h1] at h; cases h
  | ok i =>
    rw [h1, Res.ok_bind] at h
    cases h2 : exportKeyring v.fuel v.turns v.magick v.filetype file e { s.ring with id := i } with
    | ub => rw [h2] at h; cases h
    | fatal => rw [h2] at h; cases h
    | ok r =>
      rw [h2, Res.ok_bind] at h
      by_cases hr : r.1 = false
      · rw [if_pos hr] at h; cases h
      · rw [if_neg hr] at h
        cases hp : v.phrase with
        | none => rw [hp] at h; cases h
        | some phrase =>
          rw [hp] at h
          simp only [] at h
          unfold openSecretKey at h
          cases h3 : phraseCipher v phrase { s with ring := r.2, id := some id } with
          | ub => rw [h3] at h; cases h
          | fatal => rw [h3] at h; cases h
          | ok c =>
            rw [h3, Res.ok_bind] at h
            simp only [] at h
            cases h4 : cloneStringInfo r.2.key with
            | ub => rw [h4] at h; cases h
            | fatal => rw [h4] at h; cases h
            | ok k =>
              rw [h4, Res.ok_bind] at h
              cases h5 : decipherCipher .ctr c k with
              | ub => rw [h5] at h; cases h
              | fatal => rw [h5] at h; cases h
              | ok k' =>
                rw [h5, Res.ok_bind] at h
                obtain ⟨d, d1, d2, d3⟩ := clone_ok (bufferOf_wf (v.mac phrase.bytes k'.bytes)).1 (hv.mac _ _)
                obtain ⟨o, o1, o2⟩ := compare_eq hw d2
                rw [d1, Res.ok_bind, o1, Res.ok_bind] at h
                injection h with h
                have ha := congrArg Prod.fst h
                have hb := congrArg Prod.snd h
                simp only [decide_eq_true_eq] at ha hb
                refine ⟨phrase, k', rfl, by rw [← hb], ?_, by rw [← hb]⟩
                rw [o2.mp ha, d3, (bufferOf_wf _).2]

/-! ### C106 -/

/-- **C106**, in part: `GenerateSecretKey` does not end while the ids of the keys it draws are in the key ring, and ends with
the first that is not (C103). -/
theorem C106_search_partial (v : SecretEnv) (hv : EnvOK v) (phrase : StringInfo) (hp : v.phrase = some phrase) (rs : List Record)
    (hr : ∀ r ∈ rs, r.Fits) (s : SecretInfo) (hs : SecretOK s) (tries : List ((Nat → Byte) × IOEnv)) (ht : rs.length < v.turns)
    (hq : ∀ x ∈ tries, Quiet x.2 ∧ x.2.sched.length + (ring (head v) rs).length + 16 < v.fuel) (e1 e2 : IOEnv) :
    generateSecretKey v tries (fileOf (head v) rs) e1 e2 s = .ok none ↔
      ∀ x ∈ tries, (lookup rs (v.mac phrase.bytes (keyOf s.keyLength x.1))).isSome := by
  have h := search_spec hv phrase hr ht tries s hs hq
  cases hx : tries.find? (fun x => isNew v.mac phrase.bytes rs (keyOf s.keyLength x.1)) with
  | none =>
    rw [hx] at h
    constructor
    · intro _ x hxm
      rw [List.find?_eq_none] at hx
      have := hx x hxm
      unfold isNew at this
      cases hl : lookup rs (v.mac phrase.bytes (keyOf s.keyLength x.1)) with
      | none => rw [hl] at this; simp at this
      | some r => rfl
    · intro _
      unfold generateSecretKey
      rw [hp]
      simp only []
      rw [h, Res.ok_bind]
  | some x =>
    obtain ⟨s', i, k, h1, h2, h2', h3, h4, h5, h6, h7, h8, h9, h10⟩ := generate_eq hv hp hr hs hx ht hq
    constructor
    · intro hc
      rw [h10] at hc
      cases hi : importKeyring v.fuel v.turns v.magick v.filetype (fileOf (head v) rs) e1 e2 s'.ring with
      | ok w => rw [hi] at hc; cases hc
      | ub => rw [hi] at hc; cases hc
      | fatal => rw [hi] at hc; cases hc
    · intro hall
      have h11 := List.find?_some hx
      have h12 := hall x (List.mem_of_find?_eq_some hx)
      unfold isNew at h11
      cases hl : lookup rs (v.mac phrase.bytes (keyOf s.keyLength x.1)) with
      | none => rw [hl] at h12; cases h12
      | some r => rw [hl] at h11; simp at h11

/-- **C106 is false** for keys of less than eight bits: every key drawn is empty (secret.c:314-315), so once its id is in the
key ring, as it is after the first call, `GenerateSecretKey` never returns.  `encipher -key-length` asks for such keys: it
parses the name of the option in place of its value (utilities/encipher.c:407-408) and gets 0. -/
theorem C106_empty_violated (v : SecretEnv) (hv : EnvOK v) (phrase : StringInfo) (hp : v.phrase = some phrase) (rs : List Record)
    (hr : ∀ r ∈ rs, r.Fits) (s : SecretInfo) (hs : SecretOK s) (hb : s.keyLength < 8) (hin : (lookup rs (v.mac phrase.bytes [])).isSome)
    (ht : rs.length < v.turns) (e1 e2 : IOEnv) (tries : List ((Nat → Byte) × IOEnv))
    (hq : ∀ x ∈ tries, Quiet x.2 ∧ x.2.sched.length + (ring (head v) rs).length + 16 < v.fuel) :
    generateSecretKey v tries (fileOf (head v) rs) e1 e2 s = .ok none := by
  rw [C106_search_partial v hv phrase hp rs hr s hs tries ht hq e1 e2]
  intro x _
  have : keyOf s.keyLength x.1 = [] := by
    unfold keyOf
    rw [Nat.div_eq_of_lt hb]
    rfl
  rw [this]
  exact hin

/-! ### C107 -/

/-- **C107 is false**: the nonce is drawn once, when the object is made (secret.c:137), and the cipher key is the passphrase
alone (secret.c:326-328).  Two keys generated by one object under one passphrase are enciphered with the same stream: the
difference of the two records in the file is the difference of the keys. -/
theorem C107_stream_violated (v : SecretEnv) (hv : EnvOK v) (phrase : StringInfo) (hp : v.phrase = some phrase) (rs rs' : List Record)
    (hr : ∀ r ∈ rs, r.Fits) (hr' : ∀ r ∈ rs', r.Fits) (s : SecretInfo) (hs : SecretOK s) (tries tries' : List ((Nat → Byte) × IOEnv))
    (x x' : (Nat → Byte) × IOEnv) (hx : tries.find? (fun x => isNew v.mac phrase.bytes rs (keyOf s.keyLength x.1)) = some x)
    (hx' : tries'.find? (fun x => isNew v.mac phrase.bytes rs' (keyOf s.keyLength x.1)) = some x')
    (ht : rs.length < v.turns) (ht' : rs'.length < v.turns)
    (hq : ∀ x ∈ tries, Quiet x.2 ∧ x.2.sched.length + (ring (head v) rs).length + 16 < v.fuel)
    (hq' : ∀ x ∈ tries', Quiet x.2 ∧ x.2.sched.length + (ring (head v) rs').length + 16 < v.fuel) :
    ∃ s1 s2, (∀ e1 e2, generateSecretKey v tries (fileOf (head v) rs) e1 e2 s =
        (importKeyring v.fuel v.turns v.magick v.filetype (fileOf (head v) rs) e1 e2 s1.ring).bind (fun w => .ok (some (true, s1, w.2)))) ∧
      (∀ e1 e2, generateSecretKey v tries' (fileOf (head v) rs') e1 e2 s1 =
        (importKeyring v.fuel v.turns v.magick v.filetype (fileOf (head v) rs') e1 e2 s2.ring).bind (fun w => .ok (some (true, s2, w.2)))) ∧
      (recordOf s1.ring).nonce = (recordOf s2.ring).nonce ∧
      ∀ i, i < s.keyLength / 8 → (recordOf s1.ring).key.getD i 0 ^^^ (recordOf s2.ring).key.getD i 0 =
        (keyOf s.keyLength x.1).getD i 0 ^^^ (keyOf s.keyLength x'.1).getD i 0 := by
  obtain ⟨s1, i, k, h1, h2, h2', h3, h4, h5, h6, h7, h8, h9, h10⟩ := generate_eq hv hp hr hs hx ht hq
  rw [← h2] at hx'
  obtain ⟨s2, i', k', g1, g2, g2', g3, g4, g5, g6, g7, g8, g9, g10⟩ := generate_eq hv hp hr' h1 hx' ht' hq'
  refine ⟨s1, s2, h10, g10, by rw [h9.nonce, g9.nonce, h2'], ?_⟩
  have hl : ∀ b d, (keyOf b d).length = b / 8 := by intro b d; unfold keyOf; simp
  intro n hn
  rw [h9.stream n (by rw [hl]; exact hn), g9.stream n (by rw [hl, h2]; exact hn), h2, h2']
  generalize (keyOf s.keyLength x.1).getD n 0 = a
  generalize (keyOf s.keyLength x'.1).getD n 0 = b
  generalize streamByte phrase.bytes s.nonce.bytes n = c
  rw [BitVec.xor_assoc, BitVec.xor_comm b c, ← BitVec.xor_assoc c c b, BitVec.xor_self, BitVec.zero_xor]

/-! ### C108 -/

/-- **C108**, in part: the first key of a key ring gets the protocol and the time stamp of the object, which are 1.1 and the
time the object was made (`C103_new`). -/
theorem C108_first_partial (v : SecretEnv) (hv : EnvOK v) (phrase : StringInfo) (hp : v.phrase = some phrase)
    (s : SecretInfo) (hs : SecretOK s) (hnew : ¬ (s.ring.major = 1 ∧ s.ring.minor = 0))
    (tries : List ((Nat → Byte) × IOEnv)) (x : (Nat → Byte) × IOEnv) (hx : tries.head? = some x)
    (e1 e2 : IOEnv) (he1 : Quiet e1) (he2 : NoFail e2.sched)
    (hf : Enough v [] tries e1 e2 (v.mac phrase.bytes (keyOf s.keyLength x.1)) (keyOf s.keyLength x.1)) :
    ∃ s' r, generateSecretKey v tries none e1 e2 s = .ok (some (true, s', some (ring (head v) [r]))) ∧
      (r.major, r.minor, r.timestamp) = (s.ring.major, s.ring.minor, s.ring.timestamp) := by
  have hx' : tries.find? (fun x => isNew v.mac phrase.bytes [] (keyOf s.keyLength x.1)) = some x := by
    cases tries with
    | nil => cases hx
    | cons y ys =>
      injection hx with hx
      rw [List.find?_cons, ← hx]
      rfl
  obtain ⟨s', i, k, h1, h2, h2', h3, h4, h5, h6, h7, h8, h9, h10⟩ := generate_eq hv hp (rs := []) (by simp) hs hx' hf.turns hf.tries
  have hst := h9.stamp
  have himp : Importable s'.ring := by
    refine ⟨h8, fun ho => hnew ?_⟩
    have a : s'.ring.major = s.ring.major := congrArg Prod.fst hst
    have b : s'.ring.minor = s.ring.minor := congrArg (fun x => x.2.1) hst
    exact ⟨a ▸ ho.1, b ▸ ho.2⟩
  have hln : (recordOf s'.ring).nonce.length = 16 := by
    rw [h9.nonce, StringInfo.bytes_length hs.nonce.wf, hs.nonce.length]
  have hle := encode_le (recordOf s'.ring)
  rw [h9.id, h9.length, hln] at hle
  have himport := C43_import v.magick v.filetype hv.header [] (by simp) e1 e2 he1 he2 s'.ring himp v.fuel v.turns
    (by unfold importFuel; have := hf.fuel; unfold head at this; omega) hf.turns
  refine ⟨s', recordOf s'.ring, ?_, hst⟩
  have := h10 e1 e2
  rw [show fileOf (head v) [] = none from rfl] at this
  rw [this, show (none : Option (List Byte)) = fileOf (v.magick.bytes ++ v.filetype.bytes) [] from rfl, himport]
  rfl

/-- **C108 is false** for every further key: the search for its id (secret.c:321) reads protocol and time stamp of each record it
passes into the object that is then imported (keyring.c:266-273), so the record of the new key gets the protocol and the time
stamp of the last record of the key ring, not its own. -/
theorem C108_stamp_violated (v : SecretEnv) (hv : EnvOK v) (phrase : StringInfo) (hp : v.phrase = some phrase) (rs : List Record) (last : Record)
    (hr : ∀ r ∈ rs ++ [last], r.Fits) (hlast : ¬ last.Old) (s : SecretInfo) (hs : SecretOK s)
    (tries : List ((Nat → Byte) × IOEnv)) (x : (Nat → Byte) × IOEnv)
    (hx : tries.find? (fun x => isNew v.mac phrase.bytes (rs ++ [last]) (keyOf s.keyLength x.1)) = some x)
    (e1 e2 : IOEnv) (he1 : Quiet e1) (he2 : NoFail e2.sched)
    (hf : Enough v (rs ++ [last]) tries e1 e2 (v.mac phrase.bytes (keyOf s.keyLength x.1)) (keyOf s.keyLength x.1)) :
    ∃ s' r, generateSecretKey v tries (fileOf (head v) (rs ++ [last])) e1 e2 s = .ok (some (true, s', fileOf (head v) (rs ++ [last] ++ [r]))) ∧
      r.timestamp = last.timestamp ∧ r.major = last.major ∧ r.minor = last.minor := by
  obtain ⟨s', i, k, h1, h2, h2', h3, h4, h5, h6, h7, h8, h9, h10⟩ := generate_eq hv hp hr hs hx hf.turns hf.tries
  have hst := h9.stamp
  have hso : stampOf s.ring (rs ++ [last]) = (last.major, last.minor, last.timestamp) := by
    unfold stampOf
    rw [List.getLast?_concat]
  rw [hso] at hst
  have a : s'.ring.major = last.major := congrArg Prod.fst hst
  have b : s'.ring.minor = last.minor := congrArg (fun x => x.2.1) hst
  have c : s'.ring.timestamp = last.timestamp := congrArg (fun x => x.2.2) hst
  have himp : Importable s'.ring := ⟨h8, fun ho => hlast ⟨a ▸ ho.1, b ▸ ho.2⟩⟩
  have hln : (recordOf s'.ring).nonce.length = 16 := by
    rw [h9.nonce, StringInfo.bytes_length hs.nonce.wf, hs.nonce.length]
  have hle := encode_le (recordOf s'.ring)
  rw [h9.id, h9.length, hln] at hle
  have hlk : lookup (rs ++ [last]) (v.mac phrase.bytes (keyOf s.keyLength x.1)) = none := by
    have := List.find?_some hx
    simpa [isNew] using this
  have himport := C43_import v.magick v.filetype hv.header (rs ++ [last]) hr e1 e2 he1 he2 s'.ring himp v.fuel v.turns
    (by unfold importFuel; have := hf.fuel; unfold head at this; omega) hf.turns
  have hadd : addRecord (rs ++ [last]) (recordOf s'.ring) = rs ++ [last] ++ [recordOf s'.ring] := by
    unfold addRecord
    rw [show (recordOf s'.ring).id = _ from h9.id, hlk]
    rfl
  rw [hadd] at himport
  refine ⟨s', recordOf s'.ring, ?_, c, a, b⟩
  rw [h10]
  unfold head
  rw [himport]
  rfl

/-! ### C109 -/

/-- **C109 is false** for a key ring whose last record is of protocol 1.0: the new record takes over the protocol, is written in
the form of protocol 1.1, and the key ring is corrupt; authentication with the id just generated aborts the program, if
the low 32 bits of that record's time stamp exceed the size of the new one. -/
theorem C109_protocol_violated (v : SecretEnv) (hv : EnvOK v) (phrase : StringInfo) (hp : v.phrase = some phrase) (rs : List Record) (last : Record)
    (hr : ∀ r ∈ rs ++ [last], r.Fits) (hlast : last.Old) (s : SecretInfo) (hs : SecretOK s)
    (tries : List ((Nat → Byte) × IOEnv)) (x : (Nat → Byte) × IOEnv)
    (hx : tries.find? (fun x => isNew v.mac phrase.bytes (rs ++ [last]) (keyOf s.keyLength x.1)) = some x)
    (e1 e2 e3 : IOEnv) (he1 : Quiet e1) (he2 : NoFail e2.sched) (he3 : Quiet e3)
    (hf : Enough v (rs ++ [last]) tries e1 e2 (v.mac phrase.bytes (keyOf s.keyLength x.1)) (keyOf s.keyLength x.1))
    (hfuel : e1.sched.length + e2.sched.length + e3.sched.length + (ring (head v) (rs ++ [last])).length + 2 ^ 34 < v.fuel)
    (hts : (v.mac phrase.bytes (keyOf s.keyLength x.1)).length + s.keyLength / 8 + 48 < last.timestamp.toNat % 2 ^ 32) :
    ∃ s' i file, generateSecretKey v tries (fileOf (head v) (rs ++ [last])) e1 e2 s = .ok (some (true, s', some file)) ∧ s'.id = some i ∧
      ∀ (t : SecretInfo) (j : StringInfo), t.id = some j → j.WF → j.bytes = i.bytes → authenticateSecretKey v (some file) e3 t = .ub := by
  obtain ⟨s', i, k, h1, h2, h2', h3, h4, h5, h6, h7, h8, h9, h10⟩ := generate_eq hv hp hr hs hx hf.turns hf.tries
  have hst := h9.stamp
  have hso : stampOf s.ring (rs ++ [last]) = (last.major, last.minor, last.timestamp) := by
    unfold stampOf
    rw [List.getLast?_concat]
  rw [hso] at hst
  have a : s'.ring.major = last.major := congrArg Prod.fst hst
  have b : s'.ring.minor = last.minor := congrArg (fun x => x.2.1) hst
  have c : s'.ring.timestamp = last.timestamp := congrArg (fun x => x.2.2) hst
  have hlk : lookup (rs ++ [last]) (v.mac phrase.bytes (keyOf s.keyLength x.1)) = none := by
    have := List.find?_some hx
    simpa [isNew] using this
  have hid : s'.ring.id.bytes = v.mac phrase.bytes (keyOf s.keyLength x.1) := h9.id
  have l1 : s'.ring.id.length = (v.mac phrase.bytes (keyOf s.keyLength x.1)).length := by rw [← StringInfo.bytes_length h8.id, hid]
  have l2 : s'.ring.key.length = s.keyLength / 8 := by
    have := h9.length
    rw [show (recordOf s'.ring).key = s'.ring.key.bytes from rfl, StringInfo.bytes_length h8.key] at this
    rw [this]; unfold keyOf; simp
  have l3 : s'.ring.nonce.length = 16 := by
    have := h9.nonce
    rw [← StringInfo.bytes_length h8.nonce, show s'.ring.nonce.bytes = _ from this, StringInfo.bytes_length hs.nonce.wf, hs.nonce.length]
  have l4 : (written s'.ring).length ≤ s'.ring.id.length + s'.ring.key.length + s'.ring.nonce.length + 32 := by
    unfold written mark counted
    simp only [List.length_append, le_length, StringInfo.bytes_length h8.id, StringInfo.bytes_length h8.key, StringInfo.bytes_length h8.nonce]
    omega
  have l5 : last.timestamp.toNat % 2 ^ 32 < 2 ^ 32 := Nat.mod_lt _ (by decide)
  unfold head at hfuel
  obtain ⟨file, f1, f2⟩ := protocol_corrupt v.magick v.filetype hv.header (rs ++ [last]) hr e1 e2 he1 he2 (by simp) s'.ring h8
    ⟨a ▸ hlast.1, b ▸ hlast.2⟩ (by rw [hid]; exact hlk) (by rw [c]; omega) v.fuel v.turns (by omega) hf.turns
  refine ⟨s', i, file, ?_, h3, ?_⟩
  · rw [h10]
    unfold head
    rw [f1]
    rfl
  · intro t j ht hjw hjb
    have hjl : j.length < 2 ^ 32 := by rw [← StringInfo.bytes_length hjw, hjb, h5]; exact hv.mac _ _
    obtain ⟨j', q1, q2, q3⟩ := clone_ok hjw hjl
    unfold authenticateSecretKey
    rw [ht]
    simp only []
    rw [q1, Res.ok_bind, f2 e3 { t.ring with id := j' } he3 (by omega) q2 (by show lookup _ j'.bytes = none; rw [q3, hjb, h5]; exact hlk)]
    rfl

/-! ### Concrete cases -/

/-- A toy digest of two bytes. -/
def toyMac (p k : List Byte) : List Byte := [BitVec.ofNat 8 p.length, k.foldl (· + ·) 0]

/-- Surroundings with the passphrase "ab". -/
def toyEnv : SecretEnv := ⟨toyMac, some (bufferOf [97, 98]), strOf [0x7f, 0x53], strOf [1, 2, 3], 2 ^ 35, 1000, fun _ => 0⟩

theorem toyEnv_ok : EnvOK toyEnv := ⟨header_example, fun _ _ => by show 2 < 2 ^ 32; decide⟩

-- a ring that holds the id of the first key drawn (four bytes, sum 4), not that of the second (sum 8)
example : ∃ s : SecretInfo, SecretOK s ∧ s.keyLength = 32 ∧
    [((fun _ => 1 : Nat → Byte), (⟨false, []⟩ : IOEnv)), ((fun _ => 2 : Nat → Byte), (⟨false, [.short 1]⟩ : IOEnv))].find?
      (fun x => isNew toyEnv.mac (bufferOf [97, 98]).bytes [⟨[2, 4], [5], [6], 1, 1, 7⟩] (keyOf s.keyLength x.1)) =
      some ((fun _ => 2 : Nat → Byte), (⟨false, [.short 1]⟩ : IOEnv)) ∧
    Enough toyEnv [⟨[2, 4], [5], [6], 1, 1, 7⟩] [((fun _ => 1 : Nat → Byte), (⟨false, []⟩ : IOEnv)), ((fun _ => 2 : Nat → Byte), (⟨false, [.short 1]⟩ : IOEnv))]
      ⟨false, []⟩ ⟨false, []⟩ [2, 8] [2, 2, 2, 2] ∧
    ¬ ((stampOf s.ring [⟨[2, 4], [5], [6], 1, 1, 7⟩]).1 = 1 ∧ (stampOf s.ring [⟨[2, 4], [5], [6], 1, 1, 7⟩]).2.1 = 0) := by
  obtain ⟨s, _, h2, h3, h4, _⟩ := C103_new (fun _ => 3) (fun _ => 4) 1700000000 32 (by decide)
  refine ⟨s, h2, h3, ?_, ⟨by show 1 < 1000; decide, ?_, ?_⟩, by
    show ¬ ((1 : BitVec 16) = 1 ∧ (1 : BitVec 16) = 0); decide⟩
  · rw [h3]; rfl
  · intro x hx
    simp only [List.mem_cons, List.not_mem_nil, or_false] at hx
    have l : (ring (head toyEnv) [⟨[2, 4], [5], [6], 1, 1, 7⟩]).length = 41 := by decide
    rw [l]
    rcases hx with rfl | rfl
    · exact ⟨⟨rfl, by intro e he; cases he⟩, by show 0 + 41 + 16 < 2 ^ 35; decide⟩
    · exact ⟨⟨rfl, by intro e he; simp at he; exact ⟨_, he⟩⟩, by show 1 + 41 + 16 < 2 ^ 35; decide⟩
  · have l : (ring (head toyEnv) [⟨[2, 4], [5], [6], 1, 1, 7⟩]).length = 41 := by decide
    rw [l]
    show 0 + 0 + 41 + 2 + 4 + 100 < 2 ^ 35
    decide

-- an old ring for C109
example : (⟨[2, 4], [5], [6], 1, 0, 1100000000⟩ : Record).Old ∧ (⟨[2, 4], [5], [6], 1, 0, 1100000000⟩ : Record).Fits ∧
    2 + 32 / 8 + 48 < (1100000000 : BitVec 64).toNat % 2 ^ 32 :=
  ⟨⟨rfl, rfl⟩, ⟨by decide, by decide, by decide, fun _ => by decide⟩, by decide⟩

-- a ring on which the second generation of an empty key does not end
example : (lookup [⟨toyMac [97, 98] [], [], List.replicate 16 0, 1, 1, 7⟩] (toyMac [97, 98] [])).isSome := by decide

end Wizard.Props

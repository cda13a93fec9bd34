import Verif.Model.Secret
import Verif.Spec.Secret
import Verif.Props.Keyring
import Verif.Props.Key
import Verif.Lemmas.Content
/-! Lemmas for secret.c. -/
namespace Wizard.SecretP
open Wizard Wizard.Spec Wizard.Spec.Keyring Wizard.Spec.Secret Wizard.Props Wizard.ContentP

/-- An object between calls. -/
structure SecretOK (s : SecretInfo) : Prop where
  nonce : NonceOK s.nonce
  cipher : s.cipher.nonce.WF ∧ s.cipher.nonce.length = 16
  bits : s.keyLength / 8 < 2 ^ 32

/-- The surroundings are sound: the header, and digests of less than 2^32 bytes. -/
structure EnvOK (v : SecretEnv) : Prop where
  header : Header v.magick v.filetype
  mac : ∀ p k, (v.mac p k).length < 2 ^ 32

/-- The bytes of the header. -/
def head (v : SecretEnv) : List Byte := v.magick.bytes ++ v.filetype.bytes

theorem randomKey_ok {n : Nat} (hn : n < 2 ^ 32) (draw : Nat → Byte) :
    ∃ k, getRandomKey n draw = .ok k ∧ k.WF ∧ k.length = n ∧ k.bytes = (List.range n).map draw := by
  have hsz : sizeMax = 2 ^ 64 := by unfold sizeMax; rfl
  have hmc : maxCipherBlocksize = 128 := rfl
  unfold getRandomKey acquireStringInfo
  rw [if_pos (by omega), Res.ok_bind]
  simp only []
  rw [wrN_ok (by simp), Res.ok_bind]
  refine ⟨_, rfl, ?_, rfl, ?_⟩
  · show n + 128 ≤ _
    simp
    omega
  · show List.take n _ = _
    simp

theorem passedAll_stamp (k : KeyringInfo) (rs : List Record) :
    passedAll k rs = ⟨k.id, k.key, k.nonce, (stampOf k rs).1, (stampOf k rs).2.1, (stampOf k rs).2.2⟩ := by
  induction rs generalizing k with
  | nil => rfl
  | cons r rs ih =>
    rw [passedAll, ih]
    unfold stampOf passed
    cases rs with
    | nil => rfl
    | cons a l =>
      rw [List.getLast?_cons_cons]
      cases h : (a :: l).getLast? with
      | some x => rfl
      | none => simp at h

/-- One turn. -/
theorem try_spec {v : SecretEnv} (hv : EnvOK v) (phrase : StringInfo) {rs : List Record} (hr : ∀ r ∈ rs, r.Fits) {s : SecretInfo} (hs : SecretOK s)
    (draw : Nat → Byte) {e : IOEnv} (he : Quiet e) (hf : e.sched.length + (ring (head v) rs).length + 16 < v.fuel) (ht : rs.length < v.turns) :
    ∃ id key k, trySecretKey v phrase draw (fileOf (head v) rs) e s =
        .ok (!isNew v.mac phrase.bytes rs (keyOf s.keyLength draw), { s with ring := k, id := some id, key := some key }) ∧
      key.WF ∧ key.length = s.keyLength / 8 ∧ key.bytes = keyOf s.keyLength draw ∧ id.WF ∧ id.bytes = v.mac phrase.bytes key.bytes ∧
      k.id.WF ∧ k.id.bytes = id.bytes ∧
      (isNew v.mac phrase.bytes rs (keyOf s.keyLength draw) = true →
        (k.major, k.minor, k.timestamp) = stampOf s.ring rs) := by
  obtain ⟨key, k1, k2, k3, k4⟩ := randomKey_ok hs.bits draw
  have hm : (bufferOf (v.mac phrase.bytes key.bytes)).length < 2 ^ 32 := hv.mac _ _
  obtain ⟨id, i1, i2, i3⟩ := clone_ok (bufferOf_wf (v.mac phrase.bytes key.bytes)).1 hm
  rw [(bufferOf_wf _).2] at i3
  have hil : id.length < 2 ^ 32 := by rw [← StringInfo.bytes_length i2, i3]; exact hv.mac _ _
  obtain ⟨i, j1, j2, j3⟩ := clone_ok i2 hil
  have hid : i.bytes = v.mac phrase.bytes (keyOf s.keyLength draw) := by rw [j3, i3, k4]; rfl
  have h := C43_export v.magick v.filetype hv.header rs hr e he { s.ring with id := i } j2 v.fuel v.turns hf ht
  unfold trySecretKey
  rw [k1, Res.ok_bind, i1, Res.ok_bind, j1, Res.ok_bind]
  have hb : (({ s.ring with id := i } : KeyringInfo).id.bytes) = v.mac phrase.bytes (keyOf s.keyLength draw) := hid
  rw [hb] at h
  unfold isNew
  cases hl : lookup rs (v.mac phrase.bytes (keyOf s.keyLength draw)) with
  | some r =>
    rw [hl] at h
    obtain ⟨k', h1, h2⟩ := h
    unfold head
    rw [h1, Res.ok_bind]
    refine ⟨id, key, k', rfl, k2, k3, k4, i2, i3, ?_, ?_, fun h => by simp at h⟩
    · rw [h2.id]; exact j2
    · rw [h2.id]; exact j3
  | none =>
    have hx : exportKeyring v.fuel v.turns v.magick v.filetype (fileOf (head v) rs) e { s.ring with id := i } =
        .ok (false, passedAll { s.ring with id := i } rs) := by
      cases hrs : rs with
      | nil => rfl
      | cons a l =>
        have hne : rs ≠ [] := by rw [hrs]; simp
        obtain ⟨f, c, l', h1⟩ := export_rest (u := []) (k := { s.ring with id := i }) hv.header he j2 hr (by rw [hb]; exact hl) hf (by omega) (fuel := v.fuel) (turns := v.turns)
        rw [← hrs]
        unfold fileOf
        rw [if_neg hne]
        rw [List.append_nil] at h1
        unfold head
        rw [h1, show v.turns - rs.length = v.turns - rs.length - 1 + 1 by omega, exportLoop_end _ c (by simp) (by omega)]
    rw [hx, Res.ok_bind]
    refine ⟨id, key, _, rfl, k2, k3, k4, i2, i3, ?_, ?_, fun _ => ?_⟩
    · rw [passedAll_id]; exact j2
    · rw [passedAll_id]; exact j3
    · rw [passedAll_stamp]
      simp only [stampOf]

/-- The object after the search. -/
structure Drawn (v : SecretEnv) (phrase : StringInfo) (rs : List Record) (s s' : SecretInfo) (draw : Nat → Byte) : Prop where
  ok : SecretOK s'
  bits : s'.keyLength = s.keyLength
  nonce : s'.nonce = s.nonce
  key : ∃ key, s'.key = some key ∧ key.WF ∧ key.length = s.keyLength / 8 ∧ key.bytes = keyOf s.keyLength draw
  id : ∃ id, s'.id = some id ∧ id.WF ∧ id.bytes = v.mac phrase.bytes (keyOf s.keyLength draw)
  ring : s'.ring.id.WF ∧ s'.ring.id.bytes = v.mac phrase.bytes (keyOf s.keyLength draw)
  stamp : (s'.ring.major, s'.ring.minor, s'.ring.timestamp) = stampOf s.ring rs

theorem stampOf_ne {k k' : KeyringInfo} {rs : List Record} (h : rs ≠ []) : stampOf k rs = stampOf k' rs := by
  unfold stampOf
  cases e : rs.getLast? with
  | some r => rfl
  | none => simp at e; exact absurd e h

theorem search_spec {v : SecretEnv} (hv : EnvOK v) (phrase : StringInfo) {rs : List Record} (hr : ∀ r ∈ rs, r.Fits) (ht : rs.length < v.turns) :
    ∀ (tries : List ((Nat → Byte) × IOEnv)) (s : SecretInfo), SecretOK s →
      (∀ x ∈ tries, Quiet x.2 ∧ x.2.sched.length + (ring (head v) rs).length + 16 < v.fuel) →
      match tries.find? (fun x => isNew v.mac phrase.bytes rs (keyOf s.keyLength x.1)) with
      | none => searchSecretKey v phrase (fileOf (head v) rs) tries s = .ok none
      | some x => ∃ s', searchSecretKey v phrase (fileOf (head v) rs) tries s = .ok (some s') ∧ Drawn v phrase rs s s' x.1 := by
  intro tries
  induction tries with
  | nil => intro s _ _; rfl
  | cons x xs ih =>
    intro s hs hx
    obtain ⟨he, hf⟩ := hx x (List.mem_cons_self ..)
    obtain ⟨id, key, k, h1, h2, h3, h4, h5, h6, h7, h8, h9⟩ := try_spec hv phrase hr hs x.1 he hf ht
    rw [List.find?_cons]
    cases hn : isNew v.mac phrase.bytes rs (keyOf s.keyLength x.1) with
    | true =>
      simp only []
      rw [hn] at h1
      refine ⟨{ s with ring := k, id := some id, key := some key }, ?_, ⟨hs.nonce, hs.cipher, hs.bits⟩, rfl, rfl,
        ⟨key, rfl, h2, h3, h4⟩, ⟨id, rfl, h5, by rw [h6, h4]⟩, ⟨h7, by rw [h8, h6, h4]⟩, h9 hn⟩
      unfold searchSecretKey
      rw [h1, Res.ok_bind]
      rfl
    | false =>
      simp only []
      rw [hn] at h1
      have hne : rs ≠ [] := by
        rintro rfl
        simp [isNew, lookup] at hn
      have hr' := ih { s with ring := k, id := some id, key := some key } ⟨hs.nonce, hs.cipher, hs.bits⟩ (fun y hy => hx y (List.mem_cons_of_mem _ hy))
      have he : searchSecretKey v phrase (fileOf (head v) rs) (x :: xs) s =
          searchSecretKey v phrase (fileOf (head v) rs) xs { s with ring := k, id := some id, key := some key } := by
        rw [searchSecretKey, h1, Res.ok_bind]
        rfl
      rw [he]
      simp only [] at hr'
      cases hfnd : xs.find? (fun x => isNew v.mac phrase.bytes rs (keyOf s.keyLength x.1)) with
      | none => rw [hfnd] at hr'; exact hr'
      | some y =>
        rw [hfnd] at hr'
        obtain ⟨s', e1, d⟩ := hr'
        exact ⟨s', e1, ⟨d.ok, d.bits, d.nonce, d.key, d.id, d.ring, by rw [d.stamp]; exact stampOf_ne hne⟩⟩

/-- The prepared cipher. -/
theorem phraseCipher_ok (v : SecretEnv) (phrase : StringInfo) {s : SecretInfo} (hc : s.cipher.nonce.WF ∧ s.cipher.nonce.length = 16)
    (hn : s.ring.nonce.WF) :
    ∃ n, phraseCipher v phrase s = .ok (storeCipher phrase.bytes n v.pad) ∧ n.WF ∧ n.length = 16 ∧
      (s.ring.nonce.length = 16 → n.bytes = s.ring.nonce.bytes) := by
  have hr := storeCipher_ready phrase.bytes v.pad hc.1 hc.2
  obtain ⟨c, h6, h7, h8, h9⟩ := (Props.C68_ready (aesCipher []) (by decide) (by decide) (Props.aes_sized_invertible _).1).2.1 _ hr s.ring.nonce hn
  have hcn : c = storeCipher phrase.bytes c.nonce v.pad := by
    unfold setCipherNonce at h6
    cases hq : setStringInfo (storeCipher phrase.bytes s.cipher.nonce v.pad).nonce s.ring.nonce with
    | ok n => rw [hq, Res.ok_bind] at h6; injection h6 with h6; rw [← h6]; rfl
    | ub => rw [hq] at h6; cases h6
    | fatal => rw [hq] at h6; cases h6
  refine ⟨c.nonce, ?_, h7.nonce, ?_, ?_⟩
  · rw [← hcn]; exact h6
  · have := h7.nonceLength; rw [h8] at this; exact this
  · intro hl
    have lb : s.ring.nonce.bytes.length = 16 := by rw [StringInfo.bytes_length hn, hl]
    rw [h9]
    show s.ring.nonce.bytes.take 16 ++ List.replicate (16 - s.ring.nonce.length) 0 = _
    rw [hl, List.take_of_length_le (by omega)]
    simp

/-- A byte of the stream that AES in counter mode makes of a passphrase and a nonce. -/
def streamByte (phrase nonce : List Byte) (i : Nat) : Byte :=
  ((aesCipher phrase).encipher (Modes.counterBlock 16 (beNat nonce + i / 16))).getD (i % 16) 0

/-- The object after the key was sealed. -/
structure Filed (phrase : StringInfo) (s s' : SecretInfo) (key : StringInfo) : Prop where
  ok : SecretOK s'
  bits : s'.keyLength = s.keyLength
  nonce : s'.nonce = s.nonce
  id : s'.id = s.id
  sameKey : s'.key = s.key
  ringId : s'.ring.id = s.ring.id
  stamp : (s'.ring.major, s'.ring.minor, s'.ring.timestamp) = (s.ring.major, s.ring.minor, s.ring.timestamp)
  ringNonce : s'.ring.nonce.WF ∧ s'.ring.nonce.length = 16 ∧ s'.ring.nonce.bytes = s.nonce.bytes
  ringKey : s'.ring.key.WF ∧ s'.ring.key.length = key.length
  locked : Wizard.Sealed phrase.bytes s.nonce.bytes key.bytes s'.ring.key
  stream : ∀ i, i < key.length → s'.ring.key.bytes.getD i 0 = key.bytes.getD i 0 ^^^ streamByte phrase.bytes s.nonce.bytes i

theorem clone_full {s : StringInfo} (h : s.WF) (hl : s.length < 2 ^ 32) :
    ∃ c, cloneStringInfo s = .ok c ∧ c.WF ∧ c.bytes = s.bytes ∧ c.length = s.length := by
  obtain ⟨c, h1, h2, h3⟩ := clone_ok h hl
  exact ⟨c, h1, h2, h3, by rw [← StringInfo.bytes_length h2, h3, StringInfo.bytes_length h]⟩

theorem seal_spec (v : SecretEnv) (phrase : StringInfo) {s : SecretInfo} (hs : SecretOK s) {key : StringInfo} (hk : key.WF)
    (hl : key.length < 2 ^ 32) : ∃ s', sealSecretKey v phrase s key = .ok s' ∧ Filed phrase s s' key := by
  obtain ⟨k, a1, a2, a3, a4⟩ := clone_full hk hl
  obtain ⟨n, b1, b2, b3, b4⟩ := clone_full hs.nonce.wf (by rw [hs.nonce.length]; decide)
  obtain ⟨m, c1, c2, c3, c4⟩ := phraseCipher_ok v phrase (s := { s with ring := { s.ring with key := k, nonce := n } }) hs.cipher b2
  have c4 : m.bytes = s.nonce.bytes := by rw [c4 (by show n.length = 16; rw [b4]; exact hs.nonce.length)]; exact b3
  obtain ⟨t, d1, d2, d3, d4⟩ := clone_full a2 (by omega)
  obtain ⟨t', e1, e2, e3⟩ := store_encipher (skey := phrase.bytes) (random := v.pad) c2 c3 (by rw [c4]; exact hs.nonce.room) d2 (by omega)
  obtain ⟨u, f1, f2, f3, f4⟩ := clone_full e2 (by omega)
  have hready := storeCipher_ready phrase.bytes v.pad c2 c3
  have hstream : ∀ i, i < t.length → t'.bytes.getD i 0 = t.bytes.getD i 0 ^^^ streamByte phrase.bytes s.nonce.bytes i := by
    rcases Props.C29_counters _ hready t d2 with ⟨_, h⟩ | ⟨x, h1, _, h3, _⟩
    · rw [h] at e1; cases e1
    · rw [h1] at e1
      injection e1 with e1
      rw [← e1]
      intro i hi
      rw [h3 i hi]
      unfold streamByte
      rw [← c4]
      rfl
  refine ⟨{ s with cipher := storeCipher phrase.bytes m v.pad, ring := { s.ring with key := u, nonce := n } }, ?_, ?_⟩
  · unfold sealSecretKey
    rw [a1, Res.ok_bind, b1, Res.ok_bind]
    simp only []
    rw [c1, Res.ok_bind, d1, Res.ok_bind, e1, Res.ok_bind, f1, Res.ok_bind]
  · refine ⟨⟨hs.nonce, ⟨c2, c3⟩, hs.bits⟩, rfl, rfl, rfl, rfl, rfl, rfl, ⟨b2, by show n.length = 16; rw [b4]; exact hs.nonce.length, b3⟩,
      ⟨f2, by show u.length = key.length; omega⟩, ?_, ?_⟩
    · exact ⟨m, v.pad, t, t', c2, c3, c4, d2, by rw [d3, a3], e1, f3, f4⟩
    · intro i hi
      show u.bytes.getD i 0 = _
      rw [f3, hstream i (by omega), d3, a3]

end Wizard.SecretP

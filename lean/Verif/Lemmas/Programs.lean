import Verif.Spec.Programs
import Verif.Props.Content
import Verif.Props.Secret
import Verif.Props.Packet
import Verif.Props.Hex
/-! Lemmas for the programs as wholes (C172). -/
namespace Wizard.Props
open Wizard Wizard.Spec Wizard.Spec.Content Wizard.Spec.Packet Wizard.Spec.Keyring Wizard.Spec.Secret Wizard.Spec.Programs Wizard.SecretP Wizard.ContentP

theorem nonce_slack (mode : CipherMode) (n : Nat) (hn : n ≤ maxCipherBlocksize) (draw : Nat → Byte) {r : StringInfo} (h : generateCipherNonce mode n draw = .ok r) :
    r.datum.drop r.length = List.replicate maxCipherBlocksize 0 := by
  have hmax : maxCipherBlocksize = 128 := rfl
  have hs : n + maxCipherBlocksize < sizeMax := by
    unfold sizeMax
    omega
  unfold generateCipherNonce acquireStringInfo at h
  rw [if_pos hs] at h
  split at h
  · have e1 : resetStringInfo ⟨n, List.replicate (n + maxCipherBlocksize) 0⟩ =
        .ok ⟨n, List.replicate (n + maxCipherBlocksize) 0⟩ := by
      unfold resetStringInfo
      rw [wrN_ok (by simp)]
      simp [Nat.add_sub_cancel_left]
    simp only [Res.ok_bind, e1] at h
    rw [wrN_ok (by simp; omega)] at h
    cases h
    simp only [List.take_zero, List.nil_append]
    rw [List.drop_append, List.drop_eq_nil_of_le (by simp; omega), List.length_map, List.length_range, Nat.zero_add, List.drop_replicate, List.drop_replicate, List.nil_append]
    congr 1
    omega
  · simp only [Res.ok_bind] at h
    rw [wrN_ok (by simp)] at h
    cases h
    simp only [List.take_zero, List.nil_append]
    rw [List.drop_append, List.drop_eq_nil_of_le (by simp), List.length_map, List.length_range, Nat.zero_add, List.drop_replicate, List.drop_replicate, List.nil_append]
    congr 1
    omega

theorem text_ext {a b : StringInfo} (hl : a.length = b.length) (hb : a.bytes = b.bytes) (hd : a.datum.drop a.length = b.datum.drop b.length) : a = b := by
  cases a with
  | mk n d =>
  cases b with
  | mk n' d' =>
  simp only [StringInfo.bytes] at hl hb hd
  subst hl
  rw [StringInfo.mk.injEq]
  refine ⟨rfl, ?_⟩
  rw [← List.take_append_drop n d, ← List.take_append_drop n d', hb, hd]

/-- A cipher as `encipher` makes it. -/
theorem contentCipher_ok {kit : Kit} (hk : Lawful kit) (run : Run) {t : BitVec 64} {f : List Byte → BlockCipher} (hf : kit.cipherOf t = some f) (mode : CipherMode) (key : List Byte) :
    ∃ c, contentCipher kit run t mode key = .ok c ∧ c.Ready ∧ c.cipher = f key ∧ c.nonce.datum.drop c.nonce.length = List.replicate maxCipherBlocksize 0 ∧
      (mode = .ctr → c.nonce.bytes = (List.range (((f []).blocksize + 1) / 2)).map run.nonce ++ List.replicate ((f []).blocksize - ((f []).blocksize + 1) / 2) 0) := by
  obtain ⟨b1, b2, b3, b4, _⟩ := hk.cipher t f hf []
  obtain ⟨k1, k2, k3, k4, k5⟩ := hk.cipher t f hf key
  obtain ⟨r, hr, hw, hl, _, hc⟩ := C68_generated_nonce mode (f []).blocksize b2 run.nonce
  refine ⟨⟨f key, r, run.random⟩, ?_, ⟨by show 0 < (f key).blocksize; omega, k2, hw, by rw [hl, k5], k3⟩, rfl, nonce_slack mode _ b2 _ hr, hc⟩
  unfold contentCipher acquireCipherInfo
  rw [hf]
  show Res.bind (Res.bind (generateCipherNonce _ _ _) _) _ = _
  rw [hr]
  rfl

/-- A cipher as `decipher` makes it is the one that `encipher` made. -/
theorem contentCipher_again {kit : Kit} (hk : Lawful kit) (run run' : Run) {t : BitVec 64} {f : List Byte → BlockCipher} (hf : kit.cipherOf t = some f) (mode : CipherMode) (key : List Byte)
    {c : CipherInfo} (hc : contentCipher kit run t mode key = .ok c) :
    ∃ c1 c', contentCipher kit run' t mode key = .ok c1 ∧ setCipherNonce c1 (bufferOf (hexStringToStringInfo (stringInfoToHexString c.nonce.bytes))) = .ok c' ∧ c'.cipher = c.cipher ∧ c'.nonce = c.nonce := by
  obtain ⟨c0, h0, r0, e0, s0, _⟩ := contentCipher_ok hk run hf mode key
  rw [hc] at h0
  cases h0
  obtain ⟨c1, h1, r1, e1, s1, _⟩ := contentCipher_ok hk run' hf mode key
  obtain ⟨w, wb⟩ := bufferOf_wf c.nonce.bytes
  obtain ⟨n, g1, g2, _, g4, g5⟩ := setStringInfo_spec c1.nonce (bufferOf c.nonce.bytes) r1.nonce w
  have hl : c.nonce.length = c1.nonce.length := by rw [r0.nonceLength, r1.nonceLength, e0, e1]
  have hbl : c.nonce.bytes.length = c.nonce.length := by
    have := r0.nonce
    unfold StringInfo.WF at this
    unfold StringInfo.bytes
    rw [List.length_take]
    omega
  refine ⟨c1, { c1 with nonce := n }, h1, ?_, by rw [e1, e0], ?_⟩
  · rw [C01_hex_round_trip]
    unfold setCipherNonce
    rw [g1]
    rfl
  · refine text_ext (by rw [g2, hl]) ?_ (by rw [g5, s1, s0])
    show n.bytes = _
    rw [g4, wb, List.take_of_length_le (by omega)]
    have : (bufferOf c.nonce.bytes).length = c.nonce.bytes.length := rfl
    rw [this, hbl, hl, Nat.sub_self]
    simp

theorem beNat_zeros (p : List Byte) (n : Nat) : beNat (p ++ List.replicate n 0) = beNat p * 256 ^ n := by
  induction n with
  | zero => simp
  | succ n ih =>
    rw [List.replicate_succ', ← List.append_assoc, beNat_append, ih, Nat.pow_succ]
    show 256 * _ + 0 = _
    rw [Nat.add_zero, Nat.mul_comm 256, Nat.mul_assoc]

/-- The counter of CTR mode starts with its lower half zero. -/
theorem counter_fits {kit : Kit} (hk : Lawful kit) (run : Run) {s : Settings} {mode : CipherMode} {f : List Byte → BlockCipher} (hs : Choice kit s mode f) (key : List Byte)
    {c : CipherInfo} (hc : contentCipher kit run s.cipher mode key = .ok c) : CounterFits (contentOf kit run s key mode c) := by
  intro hm
  have hm : mode = .ctr := hm
  obtain ⟨c0, h0, r0, e0, _, n0⟩ := contentCipher_ok hk run hs.cipher mode key
  rw [hc] at h0
  cases h0
  obtain ⟨b1, b2, _, _, b5⟩ := hk.cipher _ f hs.cipher key
  have hch := hs.chunksize
  show beNat c.nonce.bytes + (s.chunksize / c.cipher.blocksize + 1) < 256 ^ c.cipher.blocksize
  rw [n0 hm, beNat_zeros, e0, ← b5]
  have hlt := beNat_lt ((List.range (((f key).blocksize + 1) / 2)).map run.nonce)
  rw [List.length_map, List.length_range] at hlt
  generalize beNat ((List.range (((f key).blocksize + 1) / 2)).map run.nonce) = a at hlt ⊢
  generalize (f key).blocksize = b at *
  have h1 : s.chunksize / b ≤ s.chunksize := Nat.div_le_self _ _
  have h2 : (256 : Nat) ^ 5 ≤ 256 ^ (b - (b + 1) / 2) := Nat.pow_le_pow_right (by decide) (by omega)
  have h3 : (256 : Nat) ^ 5 = 1099511627776 := by decide
  have h4 : 256 ^ b = 256 ^ ((b + 1) / 2) * 256 ^ (b - (b + 1) / 2) := by rw [← Nat.pow_add]; congr 1; omega
  rw [h4]
  have h5 : (a + 1) * 256 ^ (b - (b + 1) / 2) ≤ 256 ^ ((b + 1) / 2) * 256 ^ (b - (b + 1) / 2) := Nat.mul_le_mul_right _ hlt
  rw [Nat.add_mul, Nat.one_mul] at h5
  have : (2 : Nat) ^ 32 = 4294967296 := by decide
  omega

theorem content_sound {kit : Kit} (hk : Lawful kit) (run : Run) {s : Settings} {mode : CipherMode} {f : List Byte → BlockCipher} (hs : Choice kit s mode f) (key : List Byte)
    {c : CipherInfo} (hc : contentCipher kit run s.cipher mode key = .ok c) : Sound (contentOf kit run s key mode c) := by
  obtain ⟨c0, h0, r0, e0, _, _⟩ := contentCipher_ok hk run hs.cipher mode key
  rw [hc] at h0
  cases h0
  obtain ⟨_, _, _, b4, _⟩ := hk.cipher _ f hs.cipher key
  have hch := hs.chunksize
  refine ⟨r0, by show c.cipher.Invertible; rw [e0]; exact b4, ⟨hch.1, Nat.lt_trans hch.2 (by decide)⟩, fun n h e => hk.tag _ _ n h e, fun e h => hk.packer _ _ e h⟩

theorem hex_text {s : List Byte} (h0 : 0 < s.length) (h1 : s.length ≤ 2000) : Text (stringInfoToHexString s) := by
  obtain ⟨h2, h3⟩ := C01_hex_text_shape s
  refine ⟨?_, by omega, ?_⟩
  · intro h
    rw [h] at h2
    simp at h2
    omega
  · intro c hc
    have key : ∀ c : Byte, IsLowerHex c → 32 ≤ c.toNat ∧ c ≠ 60 ∧ c ≠ 38 := by decide
    exact key c (h3 c hc)

theorem recordable {kit : Kit} (hk : Lawful kit) {s : Settings} {mode : CipherMode} {f : List Byte → BlockCipher} (hs : Choice kit s mode f) {id nonce : List Byte}
    (hi : 0 < id.length ∧ id.length ≤ 2000) (hn : 0 < nonce.length ∧ nonce.length ≤ 2000) : Recordable (recorded s id nonce) :=
  ⟨hs.cipherKnown, hs.known, hs.authenticate, hs.keyHash, hs.entropy, hs.hmac, hs.level, hs.chunksize.2, hex_text hn.1 hn.2, hex_text hi.1 hi.2, by show Text s.version; rw [hs.version]; exact hk.version⟩

end Wizard.Props

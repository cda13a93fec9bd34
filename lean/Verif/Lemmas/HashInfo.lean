import Verif.Spec.HashApi
import Verif.Lemmas.HashTransform
import Verif.Lemmas.MD5
import Verif.Lemmas.SHA3Sponge
import Verif.Lemmas.CRC64
/-! The hash interface: every type keeps its invariant through Initialize, Update and Finalize. -/
namespace Wizard
open Spec Spec.Hash

theorem shaHigh32_eq (n : Nat) : (shaHigh32 n).toNat = n % 2 ^ 32 / 2 ^ (32 - 3) := by
  unfold shaHigh32
  rw [BitVec.toNat_ushiftRight, BitVec.toNat_ofNat, Nat.shiftRight_eq_div_pow]

theorem shaHigh64_eq (n : Nat) : (shaHigh64 n).toNat = n % 2 ^ 64 / 2 ^ (64 - 3) := by
  unfold shaHigh64
  rw [BitVec.toNat_ushiftRight, BitVec.toNat_ofNat, Nat.shiftRight_eq_div_pow]

theorem sha1Alg_ok (lsb : Bool) : (sha1Alg lsb).OK :=
  ⟨⟨6, rfl, by decide⟩, rfl, (by decide : 8 < 64), rfl, Nat.le_refl _, fun _ _ => Nat.le_refl _, shaHigh32_eq⟩
theorem sha224Alg_ok (lsb : Bool) : (sha224Alg lsb).OK :=
  ⟨⟨6, rfl, by decide⟩, rfl, (by decide : 8 < 64), rfl, (by decide : 7 ≤ 8), fun _ _ => (by decide : 7 ≤ 8), shaHigh32_eq⟩
theorem sha256Alg_ok (lsb : Bool) : (sha256Alg lsb).OK :=
  ⟨⟨6, rfl, by decide⟩, rfl, (by decide : 8 < 64), rfl, (by decide : 8 ≤ 8), fun _ _ => (by decide : 8 ≤ 8), shaHigh32_eq⟩
theorem sha384Alg_ok (lsb : Bool) : (sha384Alg lsb).OK :=
  ⟨⟨7, rfl, by decide⟩, rfl, (by decide : 16 < 128), rfl, (by decide : 6 ≤ 8), fun _ _ => (by decide : 6 ≤ 8), shaHigh64_eq⟩
theorem sha512Alg_ok (lsb : Bool) : (sha512Alg lsb).OK :=
  ⟨⟨7, rfl, by decide⟩, rfl, (by decide : 16 < 128), rfl, (by decide : 8 ≤ 8), fun _ _ => (by decide : 8 ≤ 8), shaHigh64_eq⟩

/-- The digest of the SHA-1 and SHA-2 functions when the length recorded is `L`. -/
def shaFn {w : Nat} (A : ShaAlg w) (m : List Byte) (L : Nat) : List Byte :=
  ((md A.block A.transform A.init (pad A.block A.lenBytes m (be A.lenBytes (8 * L)))).take A.digestWords).flatMap shaWordBytes

theorem flatMap_be {w : Nat} (hw : w = 8 * (w / 8)) (l : List (BitVec w)) :
    l.flatMap shaWordBytes = l.flatMap fun x => be (w / 8) x.toNat := by
  congr 1; funext x; exact shaWordBytes_be hw x

theorem sha1FnL (lsb : Bool) (m : List Byte) (L : Nat) : shaFn (sha1Alg lsb) m L =
    (let h := md 64 SHA1.compress SHA1.init (pad 64 8 m (be 8 (8 * L)))
     be 4 h.a.toNat ++ be 4 h.b.toNat ++ be 4 h.c.toNat ++ be 4 h.d.toNat ++ be 4 h.e.toNat) := by
  unfold shaFn
  have h := md_map (n := 64) (f1 := transformSha1 lsb) (f2 := SHA1.compress) sha1Acc
    (fun s b hb => transformSha1_eq lsb s hb) SHA1.init (pad 64 8 m (be 8 (8 * L)))
  rw [show sha1Acc SHA1.init = (sha1Alg lsb).init from rfl] at h
  show (List.take 5 (md 64 (transformSha1 lsb) _ (pad 64 8 m (be 8 (8 * L))))).flatMap _ = _
  rw [h, flatMap_be rfl]
  generalize md 64 SHA1.compress SHA1.init _ = v
  simp [sha1Acc]

theorem sha1Fn (lsb : Bool) (m : List Byte) : shaFn (sha1Alg lsb) m m.length = SHA1.hash m := sha1FnL lsb m m.length

theorem take_flatMap_be {w : Nat} (l : List (BitVec w)) (j k : Nat) :
    (l.take k).flatMap (fun x => be j x.toNat) = (l.flatMap fun x => be j x.toNat).take (k * j) := by
  induction l generalizing k with
  | nil => simp
  | cons x l ih =>
    match k with
    | 0 => simp
    | k + 1 =>
      rw [List.take_succ_cons, List.flatMap_cons, List.flatMap_cons, ih, Nat.add_mul, Nat.one_mul, Nat.add_comm (k * j),
        List.take_append, be_length, Nat.add_sub_cancel_left, List.take_of_length_le (l := be j x.toNat) (by rw [be_length]; omega)]

theorem sha256FnL (lsb : Bool) (m : List Byte) (L : Nat) : shaFn (sha256Alg lsb) m L =
    ((md 64 (SHA2.compress SHA2.p32) SHA2.init256 (pad 64 8 m (be 8 (8 * L)))).words.flatMap fun x => be 4 x.toNat).take 32 := by
  unfold shaFn
  have h := md_map (n := 64) (f1 := transformSha256 lsb) (f2 := SHA2.compress SHA2.p32) SHA2.V.words
    (fun s b hb => transformSha256_eq lsb s hb) SHA2.init256 (pad 64 8 m (be 8 (8 * L)))
  rw [← (sha2_inits lsb).2.1] at h
  show (List.take 8 (md 64 (transformSha256 lsb) _ (pad 64 8 m (be 8 (8 * L))))).flatMap _ = _
  rw [h, flatMap_be rfl, take_flatMap_be]

theorem sha256Fn (lsb : Bool) (m : List Byte) : shaFn (sha256Alg lsb) m m.length = SHA2.sha256 m := sha256FnL lsb m m.length

theorem sha384Fn (lsb : Bool) (m : List Byte) : shaFn (sha384Alg lsb) m m.length = SHA2.sha384 m := by
  unfold shaFn
  have h := md_map (n := 128) (f1 := transformSha512 lsb) (f2 := SHA2.compress SHA2.p64) SHA2.V.words
    (fun s b hb => transformSha512_eq lsb s hb) SHA2.init384 (pad 128 16 m (be 16 (8 * m.length)))
  rw [← (sha2_inits lsb).2.2.1] at h
  show (List.take 6 (md 128 (transformSha512 lsb) _ (pad 128 16 m (be 16 (8 * m.length))))).flatMap _ = _
  rw [h, flatMap_be rfl, take_flatMap_be]
  rfl

theorem sha512Fn (lsb : Bool) (m : List Byte) : shaFn (sha512Alg lsb) m m.length = SHA2.sha512 m := by
  unfold shaFn
  have h := md_map (n := 128) (f1 := transformSha512 lsb) (f2 := SHA2.compress SHA2.p64) SHA2.V.words
    (fun s b hb => transformSha512_eq lsb s hb) SHA2.init512 (pad 128 16 m (be 16 (8 * m.length)))
  rw [← (sha2_inits lsb).2.2.2] at h
  show (List.take 8 (md 128 (transformSha512 lsb) _ (pad 128 16 m (be 16 (8 * m.length))))).flatMap _ = _
  rw [h, flatMap_be rfl, take_flatMap_be]
  rfl

/-- SHA-224 of a message whose padded form is one block. -/
theorem sha224Fn_short (lsb : Bool) (m : List Byte) (hm : m.length < 56) :
    shaFn (sha224Alg lsb) m m.length = SHA2.sha224 m := by
  unfold shaFn
  have hl : (pad 64 8 m (be 8 (8 * m.length))).length = 64 := by
    unfold pad
    rw [Nat.mod_eq_of_lt (by omega : m.length < 64)]
    simp [be_length]; omega
  show (List.take 7 (md 64 (transformSha224 lsb) (sha224Alg lsb).init (pad 64 8 m (be 8 (8 * m.length))))).flatMap _ = _
  unfold SHA2.sha224 SHA2.hash32
  rw [md_one (by decide) hl, md_one (by decide) hl, (sha2_inits lsb).1, transformSha224_take lsb _ hl, flatMap_be rfl,
    take_flatMap_be]

/-- The function each type computes. -/
def hashFn (lsb : Bool) : HashType → List Byte → List Byte
  | .crc64 => CRC.crc64
  | .md5 => MD5.hash
  | .sha1 => SHA1.hash
  | .sha2224 => fun m => shaFn (sha224Alg lsb) m m.length
  | .sha2256 | .sha2 => SHA2.sha256
  | .sha2384 => SHA2.sha384
  | .sha2512 => SHA2.sha512
  | .sha3 => Keccak.sponge 128 0x01 36
  | .sha3224 => Keccak.sponge 144 0x01 28
  | .sha3256 => Keccak.sponge 136 0x01 32
  | .sha3384 => Keccak.sponge 104 0x01 48
  | .sha3512 => Keccak.sponge 72 0x01 64
  | .undefined | .no => fun _ => []

/-- The digest size of each type. -/
def hashSize : HashType → Nat
  | .crc64 => 8
  | .md5 => 16
  | .sha1 => 20
  | .sha2224 => 28
  | .sha2256 | .sha2 => 32
  | .sha2384 => 48
  | .sha2512 => 64
  | .sha3 => 36
  | .sha3224 => 28
  | .sha3256 => 32
  | .sha3384 => 48
  | .sha3512 => 64
  | .undefined | .no => 0

def ShaShape {w : Nat} (A : ShaAlg w) (s : ShaInfo w) : Prop :=
  s.message.length = A.block + maxCipherBlocksize ∧ s.digest.length = A.digestWords * (w / 8) + maxCipherBlocksize

def Sha3Shape (n : Nat) (s : Sha3Info) : Prop := s.digestsize = n ∧ s.digest.length = n + maxCipherBlocksize

/-- The handle is of the right type and its buffers have their sizes. -/
def HandleShape (lsb : Bool) : HashType → HashHandle → Prop
  | .crc64, .crc64 s => s.digest.length = 8 + maxCipherBlocksize
  | .md5, .md5 s => s.message.length = 64 + maxCipherBlocksize ∧ s.digest.length = 16 + maxCipherBlocksize
  | .sha1, .sha1 s => ShaShape (sha1Alg lsb) s
  | .sha2224, .sha2224 s => ShaShape (sha224Alg lsb) s
  | .sha2256, .sha2256 s | .sha2, .sha2256 s => ShaShape (sha256Alg lsb) s
  | .sha2384, .sha2384 s => ShaShape (sha384Alg lsb) s
  | .sha2512, .sha2512 s => ShaShape (sha512Alg lsb) s
  | .sha3, .sha3 s => Sha3Shape 36 s
  | .sha3224, .sha3 s => Sha3Shape 28 s
  | .sha3256, .sha3 s => Sha3Shape 32 s
  | .sha3384, .sha3 s => Sha3Shape 48 s
  | .sha3512, .sha3 s => Sha3Shape 64 s
  | _, _ => False

/-- The handle has been fed the bytes `m` since Initialize. -/
def HandleHolds (lsb : Bool) (m : List Byte) : HashType → HashHandle → Prop
  | .crc64, .crc64 s => Crc64Holds s m
  | .md5, .md5 s => Md5Holds s m
  | .sha1, .sha1 s => ShaHolds (sha1Alg lsb) s m
  | .sha2224, .sha2224 s => ShaHolds (sha224Alg lsb) s m
  | .sha2256, .sha2256 s | .sha2, .sha2256 s => ShaHolds (sha256Alg lsb) s m
  | .sha2384, .sha2384 s => ShaHolds (sha384Alg lsb) s m
  | .sha2512, .sha2512 s => ShaHolds (sha512Alg lsb) s m
  | .sha3, .sha3 s => Sha3Holds 128 36 s m
  | .sha3224, .sha3 s => Sha3Holds 144 28 s m
  | .sha3256, .sha3 s => Sha3Holds 136 32 s m
  | .sha3384, .sha3 s => Sha3Holds 104 48 s m
  | .sha3512, .sha3 s => Sha3Holds 72 64 s m
  | _, _ => False

structure HashShape (lsb : Bool) (t : HashType) (h : HashInfo) : Prop where
  hash : h.hash = t
  size : h.digest.length = hashSize t
  wf : h.digest.WF
  shape : HandleShape lsb t h.handle

structure HashHolds (lsb : Bool) (t : HashType) (h : HashInfo) (m : List Byte) : Prop where
  hash : h.hash = t
  size : h.digest.length = hashSize t
  wf : h.digest.WF
  holds : HandleHolds lsb m t h.handle

theorem ShaHoldsL.shape {w : Nat} {A : ShaAlg w} {s : ShaInfo w} {m : List Byte} {L : Nat} (h : ShaHoldsL A s m L) :
    ShaShape A s := ⟨h.message, h.digest⟩

theorem Sha3Holds.shape {r n : Nat} {s : Sha3Info} {m : List Byte} (h : Sha3Holds r n s m) : Sha3Shape n s :=
  ⟨h.size, h.digest⟩

theorem HashHolds.shape {lsb : Bool} {t : HashType} {h : HashInfo} {m : List Byte} (hh : HashHolds lsb t h m) :
    HashShape lsb t h := by
  obtain ⟨h1, h2, h3, h4⟩ := hh
  refine ⟨h1, h2, h3, ?_⟩
  generalize h.handle = x at *
  cases t <;> cases x <;> simp only [HandleHolds] at h4 <;> simp only [HandleShape] <;>
    first | exact h4.elim | exact h4.shape | exact ⟨h4.message, h4.digest⟩ | exact h4.digest

theorem resetStringInfo_ok (s : StringInfo) (hs : s.WF) :
    ∃ r, resetStringInfo s = .ok r ∧ r.length = s.length ∧ r.WF ∧ r.bytes = List.replicate s.length 0 := by
  have h : s.length + maxCipherBlocksize ≤ s.datum.length := hs
  unfold resetStringInfo
  rw [wrN_ok (by simp; omega), Res.ok_bind]
  refine ⟨_, rfl, rfl, ?_, ?_⟩
  · show s.length + maxCipherBlocksize ≤ _
    simp; omega
  · show List.take s.length _ = _
    simp

theorem acquireStringInfo_small {n : Nat} (h : n ≤ 200) :
    acquireStringInfo n = .ok ⟨n, List.replicate (n + maxCipherBlocksize) 0⟩ := by
  unfold acquireStringInfo
  rw [if_pos]
  unfold sizeMax maxCipherBlocksize; omega

theorem wf_replicate (n : Nat) (b : Byte) : (⟨n, List.replicate (n + maxCipherBlocksize) b⟩ : StringInfo).WF := by
  show _ ≤ _
  simp

theorem acquireHandle_shape (lsb : Bool) (junk : HashJunk) (t : HashType) (ht : HashType.Supported t) :
    ∃ x, acquireHandle lsb junk t = .ok x ∧ HandleShape lsb t x ∧ hashDigestsize x = hashSize t := by
  cases t
  case undefined => exact absurd rfl ht.1
  case no => exact absurd rfl ht.2
  all_goals refine ⟨_, rfl, ?_, rfl⟩
  case crc64 => exact List.length_replicate
  case md5 => exact ⟨List.length_replicate, List.length_replicate⟩
  all_goals first
    | exact ⟨List.length_replicate, List.length_replicate⟩
    | exact ⟨rfl, List.length_replicate⟩

theorem hashSize_le (t : HashType) : hashSize t ≤ 64 := by cases t <;> decide

theorem acquireHash_shape (lsb : Bool) (junk : HashJunk) (t : HashType) (ht : HashType.Supported t) :
    ∃ h, acquireHash lsb junk t = .ok h ∧ HashShape lsb t h := by
  obtain ⟨x, h1, h2, h3⟩ := acquireHandle_shape lsb junk t ht
  have := hashSize_le t
  unfold acquireHash
  rw [h1, Res.ok_bind, h3, acquireStringInfo_small (by omega), Res.ok_bind]
  obtain ⟨r, g1, g2, g3, _⟩ := resetStringInfo_ok ⟨hashSize t, List.replicate (hashSize t + maxCipherBlocksize) 0⟩ (wf_replicate _ _)
  rw [g1, Res.ok_bind]
  exact ⟨_, rfl, rfl, g2, g3, h2⟩

theorem initializeHash_holds {lsb : Bool} {t : HashType} {h : HashInfo} (hh : HashShape lsb t h) :
    ∃ h', initializeHash lsb h = .ok (true, h') ∧ HashHolds lsb t h' [] := by
  obtain ⟨h1, h2, h3, h4⟩ := hh
  obtain ⟨ty, d, x⟩ := h
  simp only [] at h1 h2 h3 h4
  subst h1
  cases ty <;> cases x <;> simp only [HandleShape] at h4 <;> (try exact h4.elim) <;> refine ⟨_, rfl, rfl, h2, h3, ?_⟩ <;>
    simp only [HandleHolds]
  · exact initializeCrc64_holds h4
  · exact initializeMd5_holds h4.1 h4.2
  · exact initializeSha_holds (sha1Alg_ok lsb) h4.1 h4.2
  · exact initializeSha_holds (sha256Alg_ok lsb) h4.1 h4.2
  · exact initializeSha_holds (sha224Alg_ok lsb) h4.1 h4.2
  · exact initializeSha_holds (sha256Alg_ok lsb) h4.1 h4.2
  · exact initializeSha_holds (sha384Alg_ok lsb) h4.1 h4.2
  · exact initializeSha_holds (sha512Alg_ok lsb) h4.1 h4.2
  all_goals exact initializeSha3_holds (by decide) rfl h4.1 h4.2

theorem updateHash_holds {lsb : Bool} {t : HashType} {h : HashInfo} {m : List Byte} (hh : HashHolds lsb t h m)
    {d : StringInfo} (hd : d.WF) (hl : d.length < updateLimit t) {fuel : Nat} (hf : d.length < fuel) :
    ∃ h', updateHash lsb fuel h d = .ok (true, h') ∧ HashHolds lsb t h' (m ++ d.bytes) := by
  obtain ⟨h1, h2, h3, h4⟩ := hh
  obtain ⟨ty, g, x⟩ := h
  simp only [] at h1 h2 h3 h4
  subst h1
  have sha : ∀ {w : Nat} {A : ShaAlg w} (hA : A.OK) {s : ShaInfo w}, ShaHolds A s m → d.length < 2 ^ w →
      ∃ r, updateSha A s d = .ok r ∧ ShaHolds A r (m ++ d.bytes) := fun hA _ hs hn => updateSha_holds hA hs hd hn
  cases ty <;> cases x <;> simp only [HandleHolds] at h4 <;> (try exact h4.elim) <;> simp only [updateLimit] at hl <;>
    simp only [updateHash]
  · obtain ⟨r, e, g⟩ := updateCrc64_holds h4 hd
    rw [e, Res.ok_bind]; exact ⟨_, rfl, rfl, h2, h3, g⟩
  · obtain ⟨r, e, g⟩ := updateMd5_holds h4 hd
    rw [e, Res.ok_bind]; exact ⟨_, rfl, rfl, h2, h3, g⟩
  · obtain ⟨r, e, g⟩ := sha (sha1Alg_ok lsb) h4 hl
    rw [e, Res.ok_bind]; exact ⟨_, rfl, rfl, h2, h3, g⟩
  · obtain ⟨r, e, g⟩ := sha (sha256Alg_ok lsb) h4 hl
    rw [e, Res.ok_bind]; exact ⟨_, rfl, rfl, h2, h3, g⟩
  · obtain ⟨r, e, g⟩ := sha (sha224Alg_ok lsb) h4 hl
    rw [e, Res.ok_bind]; exact ⟨_, rfl, rfl, h2, h3, g⟩
  · obtain ⟨r, e, g⟩ := sha (sha256Alg_ok lsb) h4 hl
    rw [e, Res.ok_bind]; exact ⟨_, rfl, rfl, h2, h3, g⟩
  · obtain ⟨r, e, g⟩ := sha (sha384Alg_ok lsb) h4 hl
    rw [e, Res.ok_bind]; exact ⟨_, rfl, rfl, h2, h3, g⟩
  · obtain ⟨r, e, g⟩ := sha (sha512Alg_ok lsb) h4 hl
    rw [e, Res.ok_bind]; exact ⟨_, rfl, rfl, h2, h3, g⟩
  all_goals
    obtain ⟨r, e, g⟩ := updateSha3_holds (by decide) (by decide) h4 hd hf (Or.inl (by omega))
    rw [e, Res.ok_bind]; exact ⟨_, rfl, rfl, h2, h3, g⟩

theorem setHashDigest_ok {h : HashInfo} (hw : h.digest.WF) {n : Nat} (hn : h.digest.length = n) {g : List Byte}
    (hg : g.length = n + maxCipherBlocksize) (x : HashHandle) :
    ∃ h', setHashDigest h n g x = .ok h' ∧ h'.hash = h.hash ∧ h'.digest.length = n ∧ h'.digest.WF ∧ h'.handle = x ∧
      h'.digest.bytes = g.take n := by
  obtain ⟨r, h1, h2, h3, h4, _⟩ := setStringInfo_spec h.digest ⟨n, g⟩ hw (by show _ ≤ _; simp only []; omega)
  unfold setHashDigest
  rw [h1, Res.ok_bind]
  refine ⟨_, rfl, rfl, by rw [← hn, ← h2], ?_, rfl, ?_⟩
  · show r.length + _ ≤ r.datum.length
    rw [h2, h3]; exact hw
  · show r.bytes = _
    rw [h4, hn]
    simp [StringInfo.bytes, List.take_take]

theorem finalizeHash_holds {lsb : Bool} {t : HashType} {h : HashInfo} {m : List Byte} (hh : HashHolds lsb t h m) :
    ∃ h', finalizeHash lsb h = .ok (true, h') ∧ HashShape lsb t h' ∧ h'.digest.bytes = hashFn lsb t m := by
  obtain ⟨h1, h2, h3, h4⟩ := hh
  obtain ⟨ty, g, x⟩ := h
  simp only [] at h1 h2 h3 h4
  subst h1
  have sha : ∀ {w : Nat} {A : ShaAlg w} (hA : A.OK) {s : ShaInfo w}, ShaHolds A s m →
      ∃ r, finalizeSha A s = .ok r ∧ r.digest.take (A.digestWords * (w / 8)) = shaFn A m m.length ∧ ShaShape A r :=
    fun hA _ hs => by
      obtain ⟨r, e1, e2, e3, e4⟩ := finalizeSha_holds hA hs
      exact ⟨r, e1, e2, e3, e4⟩
  have fin : ∀ (n : Nat) (dg : List Byte) (y : HashHandle), hashSize ty = n → dg.length = n + maxCipherBlocksize →
      HandleShape lsb ty y → dg.take n = hashFn lsb ty m →
      ∃ h', (do let h ← setHashDigest ⟨ty, g, x⟩ n dg y; Res.ok (true, h)) = .ok (true, h') ∧ HashShape lsb ty h' ∧
        h'.digest.bytes = hashFn lsb ty m := by
    intro n dg y hn hdg hy hf
    obtain ⟨h', e1, e2, e3, e4, e5, e6⟩ := setHashDigest_ok (h := ⟨ty, g, x⟩) h3 (by rw [← hn]; exact h2) hdg y
    rw [e1, Res.ok_bind]
    exact ⟨h', rfl, ⟨e2, by rw [e3, hn], e4, by rw [e5]; exact hy⟩, by rw [e6, hf]⟩
  cases ty <;> cases x <;> simp only [HandleHolds] at h4 <;> (try exact h4.elim) <;> simp only [finalizeHash]
  · obtain ⟨r, e, e2, e3⟩ := finalizeCrc64_holds h4
    rw [e, Res.ok_bind]; exact fin 8 r.digest (.crc64 r) rfl e3.digest e3.digest e2
  · obtain ⟨r, e, e2, e3, e4⟩ := finalizeMd5_holds h4
    rw [e, Res.ok_bind]; exact fin 16 r.digest (.md5 r) rfl e4 ⟨e3, e4⟩ e2
  · obtain ⟨r, e, e2, e3⟩ := sha (sha1Alg_ok lsb) h4
    rw [e, Res.ok_bind]; exact fin 20 r.digest (.sha1 r) rfl e3.2 e3 (e2.trans (sha1Fn lsb m))
  · obtain ⟨r, e, e2, e3⟩ := sha (sha256Alg_ok lsb) h4
    rw [e, Res.ok_bind]; exact fin 32 r.digest (.sha2256 r) rfl e3.2 e3 (e2.trans (sha256Fn lsb m))
  · obtain ⟨r, e, e2, e3⟩ := sha (sha224Alg_ok lsb) h4
    rw [e, Res.ok_bind]; exact fin 28 r.digest (.sha2224 r) rfl e3.2 e3 e2
  · obtain ⟨r, e, e2, e3⟩ := sha (sha256Alg_ok lsb) h4
    rw [e, Res.ok_bind]; exact fin 32 r.digest (.sha2256 r) rfl e3.2 e3 (e2.trans (sha256Fn lsb m))
  · obtain ⟨r, e, e2, e3⟩ := sha (sha384Alg_ok lsb) h4
    rw [e, Res.ok_bind]; exact fin 48 r.digest (.sha2384 r) rfl e3.2 e3 (e2.trans (sha384Fn lsb m))
  · obtain ⟨r, e, e2, e3⟩ := sha (sha512Alg_ok lsb) h4
    rw [e, Res.ok_bind]; exact fin 64 r.digest (.sha2512 r) rfl e3.2 e3 (e2.trans (sha512Fn lsb m))
  all_goals
    obtain ⟨r, e, e2, e3⟩ := finalizeSha3_holds (by decide) (by decide) (by decide) (by decide) h4
    rw [e, Res.ok_bind]
    unfold sha3Digest at e2
    rw [e3.size] at e2 ⊢
    exact fin _ r.digest (.sha3 r) rfl e3.digest e3.shape e2

/-! ### Sessions -/

/-- All the bytes of the strings. -/
def allBytes (ds : List StringInfo) : List Byte := ds.flatMap StringInfo.bytes

/-- What is required of the strings passed to `UpdateHash`. -/
def UpdatesOK (t : HashType) (fuel : Nat) (ds : List StringInfo) : Prop :=
  ∀ d ∈ ds, d.WF ∧ d.length < updateLimit t ∧ d.length < fuel

theorem hashUpdates_holds {lsb : Bool} {t : HashType} {fuel : Nat} (ds : List StringInfo) :
    ∀ {h : HashInfo} {m : List Byte}, HashHolds lsb t h m → UpdatesOK t fuel ds →
    ∃ h', hashUpdates lsb fuel h ds = .ok h' ∧ HashHolds lsb t h' (m ++ allBytes ds) := by
  induction ds with
  | nil => intro h m hh _; exact ⟨h, rfl, by simpa [allBytes] using hh⟩
  | cons d ds ih =>
    intro h m hh hds
    obtain ⟨w, l, f⟩ := hds d (List.mem_cons_self ..)
    obtain ⟨h1, e1, g1⟩ := updateHash_holds hh w l f
    obtain ⟨h2, e2, g2⟩ := ih g1 fun x hx => hds x (List.mem_cons_of_mem _ hx)
    refine ⟨h2, by rw [hashUpdates, e1]; exact e2, ?_⟩
    rw [List.append_assoc] at g2; exact g2

theorem hashSession_holds {lsb : Bool} {t : HashType} {fuel : Nat} {ds : List StringInfo} {h : HashInfo}
    (hh : HashShape lsb t h) (hds : UpdatesOK t fuel ds) :
    ∃ h', hashSession lsb fuel h ds = .ok h' ∧ HashShape lsb t h' ∧ h'.digest.bytes = hashFn lsb t (allBytes ds) := by
  obtain ⟨h1, e1, g1⟩ := initializeHash_holds hh
  obtain ⟨h2, e2, g2⟩ := hashUpdates_holds ds g1 hds
  obtain ⟨h3, e3, g3, g4⟩ := finalizeHash_holds g2
  refine ⟨h3, ?_, g3, g4⟩
  unfold hashSession
  rw [e1, Res.ok_bind, e2, Res.ok_bind, e3]; rfl

theorem hashSessions_shape {lsb : Bool} {t : HashType} {fuel : Nat} (l : List (List StringInfo)) :
    ∀ {h : HashInfo}, HashShape lsb t h → (∀ ds ∈ l, UpdatesOK t fuel ds) →
    ∃ h', hashSessions lsb fuel h l = .ok h' ∧ HashShape lsb t h' := by
  induction l with
  | nil => intro h hh _; exact ⟨h, rfl, hh⟩
  | cons ds l ih =>
    intro h hh hl
    obtain ⟨h1, e1, g1, _⟩ := hashSession_holds hh (hl ds (List.mem_cons_self ..))
    obtain ⟨h2, e2, g2⟩ := ih g1 fun x hx => hl x (List.mem_cons_of_mem _ hx)
    exact ⟨h2, by rw [hashSessions, e1]; exact e2, g2⟩

end Wizard

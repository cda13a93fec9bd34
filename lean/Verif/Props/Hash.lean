import Verif.Lemmas.HashEval
/-! Properties of hash.c, hmac.c and the hash functions.

`hashSession` is InitializeHash, UpdateHash for each string, FinalizeHash; `hashSessions` several messages in turn with one
object (Spec/HashApi.lean).  `allBytes ds` are the bytes of the strings one after the other; `UpdatesOK t fuel ds` says that
the strings are what AcquireStringInfo makes, that each is shorter than `updateLimit t` (4 GiB for SHA-1, SHA-224 and
SHA-256, 512 MiB for SHA-3, none within size_t for the others) and that the loop bound is above their lengths. -/
namespace Wizard.Props
open Spec Spec.Hash

/-- What one acquired object gives after any earlier messages. -/
theorem hash_api (lsb : Bool) (junk : HashJunk) {t : HashType} (ht : HashType.Supported t) (fuel : Nat)
    (earlier : List (List StringInfo)) (he : ∀ ds ∈ earlier, UpdatesOK t fuel ds) (ds : List StringInfo)
    (hd : UpdatesOK t fuel ds) :
    ∃ h0 h1 h2, acquireHash lsb junk t = .ok h0 ∧ hashSessions lsb fuel h0 earlier = .ok h1 ∧
      hashSession lsb fuel h1 ds = .ok h2 ∧ h2.digest.bytes = hashFn lsb t (allBytes ds) := by
  obtain ⟨h0, a1, a2⟩ := acquireHash_shape lsb junk t ht
  obtain ⟨h1, b1, b2⟩ := hashSessions_shape earlier a2 he
  obtain ⟨h2, c1, _, c2⟩ := hashSession_holds b2 hd
  exact ⟨h0, h1, h2, a1, b1, c1, c2⟩

/-- **C32** For every hash type: two sequences of UpdateHash calls with the same bytes in total give the same digest,
whatever each object was used for before and whatever its memory held, on hosts of either byte order.

Partial: each single string must be shorter than `updateLimit t`; C76 shows that SHA-3 needs this, C75 that SHA-1,
SHA-224 and SHA-256 do. -/
theorem C32_split_partial (lsb : Bool) (junk junk' : HashJunk) (t : HashType) (ht : HashType.Supported t) (fuel : Nat)
    (earlier earlier' : List (List StringInfo)) (he : ∀ ds ∈ earlier, UpdatesOK t fuel ds)
    (he' : ∀ ds ∈ earlier', UpdatesOK t fuel ds) (ds ds' : List StringInfo) (hd : UpdatesOK t fuel ds)
    (hd' : UpdatesOK t fuel ds') (heq : allBytes ds = allBytes ds') :
    ∃ h0 h1 h2 k0 k1 k2, acquireHash lsb junk t = .ok h0 ∧ hashSessions lsb fuel h0 earlier = .ok h1 ∧
      hashSession lsb fuel h1 ds = .ok h2 ∧ acquireHash lsb junk' t = .ok k0 ∧ hashSessions lsb fuel k0 earlier' = .ok k1 ∧
      hashSession lsb fuel k1 ds' = .ok k2 ∧ h2.digest.bytes = k2.digest.bytes := by
  obtain ⟨h0, h1, h2, a1, a2, a3, a4⟩ := hash_api lsb junk ht fuel earlier he ds hd
  obtain ⟨k0, k1, k2, b1, b2, b3, b4⟩ := hash_api lsb junk' ht fuel earlier' he' ds' hd'
  exact ⟨h0, h1, h2, k0, k1, k2, a1, a2, a3, b1, b2, b3, by rw [a4, b4, heq]⟩

/-- **C32** without the limit, for the types whose functions handle strings of every size: all a C caller can pass. -/
theorem C32_split_large (lsb : Bool) (junk : HashJunk) (t : HashType) (ht : t = .crc64 ∨ t = .md5 ∨ t = .sha2384 ∨ t = .sha2512)
    (ds ds' : List StringInfo) (hd : ∀ d ∈ ds ++ ds', d.WF ∧ d.length < 2 ^ 64) (heq : allBytes ds = allBytes ds') :
    ∃ h0 h k, acquireHash lsb junk t = .ok h0 ∧ hashSession lsb (2 ^ 64) h0 ds = .ok h ∧
      hashSession lsb (2 ^ 64) h0 ds' = .ok k ∧ h.digest.bytes = k.digest.bytes := by
  have hs : HashType.Supported t := by rcases ht with rfl | rfl | rfl | rfl <;> exact ⟨nofun, nofun⟩
  have hlim : updateLimit t = 2 ^ 64 := by rcases ht with rfl | rfl | rfl | rfl <;> rfl
  have ok : ∀ l : List StringInfo, (∀ d ∈ l, d ∈ ds ++ ds') → UpdatesOK t (2 ^ 64) l := fun l hl d h =>
    ⟨(hd d (hl d h)).1, by rw [hlim]; exact (hd d (hl d h)).2, (hd d (hl d h)).2⟩
  obtain ⟨h0, a1, a2⟩ := acquireHash_shape lsb junk t hs
  obtain ⟨h, b1, _, b2⟩ := hashSession_holds (fuel := 2 ^ 64) a2 (ok ds fun d h => List.mem_append_left _ h)
  obtain ⟨k, c1, _, c2⟩ := hashSession_holds (fuel := 2 ^ 64) a2 (ok ds' fun d h => List.mem_append_right _ h)
  exact ⟨h0, h, k, a1, b1, c1, by rw [b2, c2, heq]⟩

/-- Three strings, one empty and one of 200 bytes, meet the conditions. -/
example : UpdatesOK .sha3224 1000 [⟨3, List.replicate (3 + maxCipherBlocksize) 7⟩, ⟨0, List.replicate (0 + maxCipherBlocksize) 0⟩,
    ⟨200, List.replicate (200 + maxCipherBlocksize) 9⟩] := by
  intro d hd
  simp only [List.mem_cons, List.not_mem_nil, or_false] at hd
  rcases hd with rfl | rfl | rfl <;> exact ⟨wf_replicate _ _, by simp only [updateLimit]; omega, by simp only []; omega⟩

/-- **C33** For CRC-64, MD5, SHA-1, SHA-256 (also by the name SHA2), SHA-384 and SHA-512: for every message, every split,
every earlier use and either byte order of the host, the digest is the published function of the message.

Partial: single strings below `updateLimit t` as in C32; SHA-224 and SHA-3 are excluded because it is false of them, see
C73 and C74. -/
theorem C33_conforms_partial (lsb : Bool) (junk : HashJunk) (t : HashType)
    (ht : t = .crc64 ∨ t = .md5 ∨ t = .sha1 ∨ t = .sha2 ∨ t = .sha2256 ∨ t = .sha2384 ∨ t = .sha2512) (fuel : Nat)
    (earlier : List (List StringInfo)) (he : ∀ ds ∈ earlier, UpdatesOK t fuel ds) (ds : List StringInfo)
    (hd : UpdatesOK t fuel ds) :
    ∃ h0 h1 h2, acquireHash lsb junk t = .ok h0 ∧ hashSessions lsb fuel h0 earlier = .ok h1 ∧
      hashSession lsb fuel h1 ds = .ok h2 ∧ h2.digest.bytes = published t (allBytes ds) := by
  have hs : HashType.Supported t := by rcases ht with rfl | rfl | rfl | rfl | rfl | rfl | rfl <;> exact ⟨nofun, nofun⟩
  obtain ⟨h0, h1, h2, a1, a2, a3, a4⟩ := hash_api lsb junk hs fuel earlier he ds hd
  refine ⟨h0, h1, h2, a1, a2, a3, a4.trans ?_⟩
  rcases ht with rfl | rfl | rfl | rfl | rfl | rfl | rfl <;> rfl

/-- The digest of "abc" after a first message, as the kernel computes it from the model. -/
def abcDigest (t : HashType) : Option (List Byte) :=
  match acquireHash true ⟨[], []⟩ t with
  | .ok h =>
    match hashSession true 10 h [⟨1, 0x61 :: List.replicate 128 0⟩, ⟨2, 0x62 :: 0x63 :: List.replicate 128 0⟩] with
    | .ok h => some h.digest.bytes
    | _ => none
  | _ => none

/-- The published test vectors. -/
example : abcDigest .md5 = some [0x90, 0x01, 0x50, 0x98, 0x3c, 0xd2, 0x4f, 0xb0, 0xd6, 0x96, 0x3f, 0x7d, 0x28, 0xe1, 0x7f, 0x72] := by
  decide +kernel
example : abcDigest .sha1 = some [0xa9, 0x99, 0x3e, 0x36, 0x47, 0x06, 0x81, 0x6a, 0xba, 0x3e, 0x25, 0x71, 0x78, 0x50, 0xc2, 0x6c,
    0x9c, 0xd0, 0xd8, 0x9d] := by decide +kernel
example : abcDigest .sha2256 = some [0xba, 0x78, 0x16, 0xbf, 0x8f, 0x01, 0xcf, 0xea, 0x41, 0x41, 0x40, 0xde, 0x5d, 0xae, 0x22, 0x23,
    0xb0, 0x03, 0x61, 0xa3, 0x96, 0x17, 0x7a, 0x9c, 0xb4, 0x10, 0xff, 0x61, 0xf2, 0x00, 0x15, 0xad] := by decide +kernel

/-- **C34** For every hash type there is one function `F` of the message, the one hash sessions compute, such that for
every key, message, split and earlier use FinalizeHMAC leaves the RFC 2104 construction of `F` with the block size the
library reports. -/
theorem C34_hmac_construction (lsb : Bool) (t : HashType) (ht : HashType.Supported t) :
    ∃ F : List Byte → List Byte,
      (∀ junk fuel ds, UpdatesOK t fuel ds →
        ∃ h0 h, acquireHash lsb junk t = .ok h0 ∧ hashSession lsb fuel h0 ds = .ok h ∧ h.digest.bytes = F (allBytes ds)) ∧
      (∀ junk fuel earlier key ds, 128 < fuel → (∀ x ∈ earlier, UpdatesOK t fuel (x.1 :: x.2)) → UpdatesOK t fuel (key :: ds) →
        ∃ k0 k1 k2, acquireHmac lsb junk t = .ok k0 ∧ hmacSessions lsb fuel k0 earlier = .ok k1 ∧
          hmacSession lsb fuel k1 key ds = .ok k2 ∧
          k2.digest.bytes = hmac F (hashBlocksize k0.hashInfo.handle) key.bytes (allBytes ds)) := by
  refine ⟨hashFn lsb t, ?_, ?_⟩
  · intro junk fuel ds hd
    obtain ⟨h0, a1, a2⟩ := acquireHash_shape lsb junk t ht
    obtain ⟨h, b1, _, b2⟩ := hashSession_holds a2 hd
    exact ⟨h0, h, a1, b1, b2⟩
  · intro junk fuel earlier key ds hf he hd
    obtain ⟨k0, a1, a2⟩ := acquireHmac_shape lsb junk t ht
    obtain ⟨k1, b1, b2⟩ := hmacSessions_shape hf earlier a2 he
    obtain ⟨k2, c1, _, c2⟩ := hmacSession_holds hf b2 hd
    exact ⟨k0, k1, k2, a1, b1, c1, by rw [c2, handle_blocksize a2.hash.shape]⟩

/-- **C34** For MD5, SHA-1, SHA-256, SHA-384 and SHA-512 (and CRC-64 with a block of 32 bytes), for every key of every
length, every message and split, and whatever the object was used for before, FinalizeHMAC leaves the HMAC of RFC 2104.

Partial: single strings, the key among them, below `updateLimit t`; SHA-224 and SHA-3 are excluded, see
`C34_hmac_sha3_violated` and C73. -/
theorem C34_hmac_partial (lsb : Bool) (junk : HashJunk) (t : HashType)
    (ht : t = .crc64 ∨ t = .md5 ∨ t = .sha1 ∨ t = .sha2 ∨ t = .sha2256 ∨ t = .sha2384 ∨ t = .sha2512) (fuel : Nat)
    (hf : 128 < fuel) (earlier : List (StringInfo × List StringInfo)) (he : ∀ x ∈ earlier, UpdatesOK t fuel (x.1 :: x.2))
    (key : StringInfo) (ds : List StringInfo) (hd : UpdatesOK t fuel (key :: ds)) :
    ∃ k0 k1 k2, acquireHmac lsb junk t = .ok k0 ∧ hmacSessions lsb fuel k0 earlier = .ok k1 ∧
      hmacSession lsb fuel k1 key ds = .ok k2 ∧
      k2.digest.bytes = hmac (published t) (publishedBlocksize t) key.bytes (allBytes ds) := by
  have hs : HashType.Supported t := by rcases ht with rfl | rfl | rfl | rfl | rfl | rfl | rfl <;> exact ⟨nofun, nofun⟩
  obtain ⟨k0, a1, a2⟩ := acquireHmac_shape lsb junk t hs
  obtain ⟨k1, b1, b2⟩ := hmacSessions_shape hf earlier a2 he
  obtain ⟨k2, c1, _, c2⟩ := hmacSession_holds hf b2 hd
  refine ⟨k0, k1, k2, a1, b1, c1, c2.trans ?_⟩
  rcases ht with rfl | rfl | rfl | rfl | rfl | rfl | rfl <;> rfl

/-- **C34** ConstructHMAC is the three calls with the message as one string. -/
theorem C34_construct (lsb : Bool) (fuel : Nat) (k : HmacInfo) (key message : StringInfo) :
    constructHmac lsb fuel k key message = hmacSession lsb fuel k key [message] := by
  unfold constructHmac hmacSession
  congr 1; funext k1
  rw [hmacUpdates]
  cases updateHmac lsb fuel k1 message <;> rfl

/-- A key longer than the block and a message in two strings meet the conditions. -/
example : UpdatesOK .sha1 1000 [⟨70, List.replicate (70 + maxCipherBlocksize) 7⟩, ⟨0, List.replicate (0 + maxCipherBlocksize) 0⟩,
    ⟨64, List.replicate (64 + maxCipherBlocksize) 9⟩] := by
  intro d hd
  simp only [List.mem_cons, List.not_mem_nil, or_false] at hd
  rcases hd with rfl | rfl | rfl <;> exact ⟨wf_replicate _ _, by simp only [updateLimit]; omega, by simp only []; omega⟩

/-- **C35** Two different messages of the same length whose differing bits lie within 64 consecutive bits, of any length
and split in any way, get different CRC-64 digests from the API. -/
theorem C35_crc_burst (lsb : Bool) (junk : HashJunk) (fuel : Nat) (earlier : List (List StringInfo))
    (he : ∀ ds ∈ earlier, UpdatesOK .crc64 fuel ds) (ds ds' : List StringInfo) (hd : UpdatesOK .crc64 fuel ds)
    (hd' : UpdatesOK .crc64 fuel ds') (hb : CRC.Burst 64 (allBytes ds) (allBytes ds')) (hne : allBytes ds ≠ allBytes ds') :
    ∃ h0 h1 h2 h3, acquireHash lsb junk .crc64 = .ok h0 ∧ hashSessions lsb fuel h0 earlier = .ok h1 ∧
      hashSession lsb fuel h1 ds = .ok h2 ∧ hashSession lsb fuel h1 ds' = .ok h3 ∧ h2.digest.bytes ≠ h3.digest.bytes := by
  obtain ⟨h0, a1, a2⟩ := acquireHash_shape lsb junk .crc64 ⟨nofun, nofun⟩
  obtain ⟨h1, b1, b2⟩ := hashSessions_shape earlier a2 he
  obtain ⟨h2, c1, _, c2⟩ := hashSession_holds b2 hd
  obtain ⟨h3, d1, _, d2⟩ := hashSession_holds b2 hd'
  exact ⟨h0, h1, h2, h3, a1, b1, c1, d1, by rw [c2, d2]; exact crc64_burst hb hne⟩

/-- Two messages that differ in the bits 6 to 69, of 80. -/
example : CRC.Burst 64 [0x12, 0, 0, 0, 0, 0, 0, 0, 0, 0x80] [0x52, 0, 0, 0, 0, 0, 0, 0, 0x20, 0x80] := by
  refine ⟨rfl, 6, fun i hi => ?_⟩
  by_cases h : i < 80
  · have : ∀ i : Fin 80, (CRC.bits [0x12, 0, 0, 0, 0, 0, 0, 0, 0, 0x80])[i.val]? ≠
      (CRC.bits [0x52, 0, 0, 0, 0, 0, 0, 0, 0x20, 0x80])[i.val]? → 6 ≤ i.val ∧ i.val < 6 + 64 := by decide +kernel
    exact this ⟨i, h⟩ hi
  · exact absurd (by rw [List.getElem?_eq_none (by show (80 : Nat) ≤ i; omega), List.getElem?_eq_none (by show (80 : Nat) ≤ i; omega)]) hi

/-- **C73** The SHA-224 of the library is not the published SHA-224: `TransformSHA2224` (sha2224.c:562-568) adds only seven
of the eight working variables to the accumulator, so from the second block on the digest is wrong.  Fifty-six zero bytes
are the shortest kind of such a message. -/
theorem C73_sha224_violated (lsb : Bool) (junk : HashJunk) :
    ∃ h0 h, acquireHash lsb junk .sha2224 = .ok h0 ∧
      hashSession lsb 100 h0 [⟨56, List.replicate (56 + maxCipherBlocksize) 0⟩] = .ok h ∧
      h.digest.bytes ≠ published .sha2224 (List.replicate 56 0) := by
  obtain ⟨h0, a1, a2⟩ := acquireHash_shape lsb junk .sha2224 ⟨nofun, nofun⟩
  obtain ⟨h, b1, _, b2⟩ := hashSession_holds (fuel := 100) (ds := [⟨56, List.replicate (56 + maxCipherBlocksize) 0⟩]) a2
    (by
      intro d hd
      cases List.mem_singleton.mp hd
      exact ⟨wf_replicate _ _, by simp only [updateLimit]; omega, by simp only []; omega⟩)
  refine ⟨h0, h, a1, b1, ?_⟩
  rw [b2, show allBytes [⟨56, List.replicate (56 + maxCipherBlocksize) 0⟩] = List.replicate 56 (0 : Byte) from by decide]
  show shaFn _ _ _ ≠ SHA2.sha224 _
  rw [sha224_eval]
  cases lsb <;> decide +kernel

/-- **C73** Partial: for every message of at most 55 bytes, which fills one block, in every split and after any earlier
messages, the digest is the published SHA-224. -/
theorem C73_sha224_short_partial (lsb : Bool) (junk : HashJunk) (fuel : Nat) (earlier : List (List StringInfo))
    (he : ∀ ds ∈ earlier, UpdatesOK .sha2224 fuel ds) (ds : List StringInfo) (hd : UpdatesOK .sha2224 fuel ds)
    (hl : (allBytes ds).length < 56) :
    ∃ h0 h1 h2, acquireHash lsb junk .sha2224 = .ok h0 ∧ hashSessions lsb fuel h0 earlier = .ok h1 ∧
      hashSession lsb fuel h1 ds = .ok h2 ∧ h2.digest.bytes = published .sha2224 (allBytes ds) := by
  obtain ⟨h0, h1, h2, a1, a2, a3, a4⟩ := hash_api lsb junk (t := .sha2224) ⟨nofun, nofun⟩ fuel earlier he ds hd
  exact ⟨h0, h1, h2, a1, a2, a3, a4.trans (sha224Fn_short lsb _ hl)⟩

/-- **C74** None of the four SHA-3 functions of the library is that of FIPS 202: the message is followed by the padding of
the original Keccak submission instead of the bits 01 and the padding; the digests of the empty message differ. -/
theorem C74_sha3_violated (lsb : Bool) (junk : HashJunk) (t : HashType)
    (ht : t = .sha3224 ∨ t = .sha3256 ∨ t = .sha3384 ∨ t = .sha3512) :
    ∃ h0 h, acquireHash lsb junk t = .ok h0 ∧ hashSession lsb 1 h0 [] = .ok h ∧ h.digest.bytes ≠ published t [] := by
  have hs : HashType.Supported t := by rcases ht with rfl | rfl | rfl | rfl <;> exact ⟨nofun, nofun⟩
  obtain ⟨h0, a1, a2⟩ := acquireHash_shape lsb junk t hs
  obtain ⟨h, b1, _, b2⟩ := hashSession_holds (fuel := 1) (ds := []) a2 (fun d hd => absurd hd List.not_mem_nil)
  refine ⟨h0, h, a1, b1, ?_⟩
  rw [b2, show allBytes [] = [] from rfl]
  rcases ht with rfl | rfl | rfl | rfl
  · exact sha3224_differs
  · exact sha3256_differs
  · exact sha3384_differs
  · exact sha3512_differs

/-- **C74** Partial: for every message the four functions compute Keccak as submitted to the SHA-3 competition, with the
capacity and output length of the SHA-3 function of that name. -/
theorem C74_keccak_partial (lsb : Bool) (junk : HashJunk) (t : HashType) (n : Nat)
    (ht : (t, n) ∈ [(HashType.sha3224, 28), (.sha3256, 32), (.sha3384, 48), (.sha3512, 64)]) (fuel : Nat)
    (earlier : List (List StringInfo)) (he : ∀ ds ∈ earlier, UpdatesOK t fuel ds) (ds : List StringInfo)
    (hd : UpdatesOK t fuel ds) :
    ∃ h0 h1 h2, acquireHash lsb junk t = .ok h0 ∧ hashSessions lsb fuel h0 earlier = .ok h1 ∧
      hashSession lsb fuel h1 ds = .ok h2 ∧ h2.digest.bytes = Keccak.keccak n (allBytes ds) := by
  simp only [List.mem_cons, Prod.mk.injEq, List.not_mem_nil, or_false] at ht
  have hs : HashType.Supported t := by
    rcases ht with ⟨rfl, _⟩ | ⟨rfl, _⟩ | ⟨rfl, _⟩ | ⟨rfl, _⟩ <;> exact ⟨nofun, nofun⟩
  obtain ⟨h0, h1, h2, a1, a2, a3, a4⟩ := hash_api lsb junk hs fuel earlier he ds hd
  refine ⟨h0, h1, h2, a1, a2, a3, a4.trans ?_⟩
  rcases ht with ⟨rfl, rfl⟩ | ⟨rfl, rfl⟩ | ⟨rfl, rfl⟩ | ⟨rfl, rfl⟩ <;> rfl

/-- **C34** HMAC with SHA-3 is not the published one even if the underlying Keccak is taken for the hash function: the key
is padded to 64 bytes, the rate (136 bytes for SHA3-256) being the block size; empty key and empty message. -/
theorem C34_hmac_sha3_violated (lsb : Bool) (junk : HashJunk) :
    ∃ k0 k, acquireHmac lsb junk .sha3256 = .ok k0 ∧
      hmacSession lsb 200 k0 ⟨0, List.replicate (0 + maxCipherBlocksize) 0⟩ [] = .ok k ∧
      k.digest.bytes ≠ hmac (Keccak.keccak 32) (publishedBlocksize .sha3256) [] [] := by
  obtain ⟨k0, a1, a2⟩ := acquireHmac_shape lsb junk .sha3256 ⟨nofun, nofun⟩
  obtain ⟨k, b1, _, b2⟩ := hmacSession_holds (fuel := 200) (by decide) (key := ⟨0, List.replicate (0 + maxCipherBlocksize) 0⟩)
    (ds := []) a2 (by
      intro d hd
      cases List.mem_singleton.mp hd
      exact ⟨wf_replicate _ _, by simp only [updateLimit]; omega, by simp only []; omega⟩)
  refine ⟨k0, k, a1, b1, ?_⟩
  rw [b2, show allBytes [] = [] from rfl, show (⟨0, List.replicate (0 + maxCipherBlocksize) 0⟩ : StringInfo).bytes = [] from rfl]
  exact hmac_sha3_differs

/-- The SHA-1 digest of a message that is padded already. -/
def sha1OfPadded (p : List Byte) : List Byte :=
  let h := md 64 SHA1.compress SHA1.init p
  be 4 h.a.toNat ++ be 4 h.b.toNat ++ be 4 h.c.toNat ++ be 4 h.d.toNat ++ be 4 h.e.toNat

/-- The SHA-256 digest of a message that is padded already. -/
def sha256OfPadded (p : List Byte) : List Byte :=
  ((md 64 (SHA2.compress SHA2.p32) SHA2.init256 p).words.flatMap fun x => be 4 x.toNat).take 32

/-- The padding of FIPS 180-4 with the number of bytes `L` in the length field. -/
def padWithLength (m : List Byte) (L : Nat) : List Byte := pad 64 8 m (be 8 (8 * L))

example (m : List Byte) : SHA1.hash m = sha1OfPadded (padWithLength m m.length) ∧
    SHA2.sha256 m = sha256OfPadded (padWithLength m m.length) := ⟨rfl, rfl⟩

theorem padWithLength_wrong {m : List Byte} (h1 : 2 ^ 32 ≤ m.length) (h2 : m.length < 2 ^ 61) :
    padWithLength m (m.length % 2 ^ 32) ≠ padWithLength m m.length := by
  intro h
  unfold padWithLength pad at h
  have h := List.append_cancel_left h
  have := be_inj (by omega) (by omega) h
  omega

/-- **C75** A string of 4 GiB or more given to one UpdateHash call of SHA-1 is hashed with its length modulo 4 GiB in the
padding (sha1.c:604-605 keeps the length in an unsigned int): what goes through the compression function is not the padded
message of FIPS 180-4. -/
theorem C75_sha1_long_update_violated (lsb : Bool) (junk : HashJunk) (fuel : Nat) (d : StringInfo) (hd : d.WF)
    (h1 : 2 ^ 32 ≤ d.length) (h2 : d.length < 2 ^ 61) :
    ∃ h0 h, acquireHash lsb junk .sha1 = .ok h0 ∧ hashSession lsb fuel h0 [d] = .ok h ∧
      h.digest.bytes = sha1OfPadded (padWithLength d.bytes (d.length % 2 ^ 32)) ∧
      padWithLength d.bytes (d.length % 2 ^ 32) ≠ padWithLength d.bytes d.length := by
  obtain ⟨h0, a1, a2⟩ := acquireHash_shape lsb junk .sha1 ⟨nofun, nofun⟩
  obtain ⟨g1, b1, b2⟩ := initializeHash_holds a2
  obtain ⟨c1, c2, c3, c4⟩ := b2
  obtain ⟨ty, dg, x⟩ := g1
  simp only [] at c1 c2 c3 c4
  subst c1
  have hb := StringInfo.bytes_length hd
  cases x <;> simp only [HandleHolds] at c4 <;> try exact c4.elim
  rename_i s
  obtain ⟨r, e1, e2⟩ := updateSha_holdsL (sha1Alg_ok lsb) c4 hd
  obtain ⟨q, f1, f2, f3, f4⟩ := finalizeSha_holdsL (sha1Alg_ok lsb) e2
  obtain ⟨h', g1, g2, g3, g4, g5, g6⟩ := setHashDigest_ok (h := ⟨.sha1, dg, .sha1 r⟩) (n := 20) c3 c2 f4 (.sha1 q)
  refine ⟨h0, h', a1, ?_, ?_, ?_⟩
  · unfold hashSession
    rw [b1, Res.ok_bind, hashUpdates, updateHash]
    simp only [e1, Res.ok_bind, hashUpdates, finalizeHash, f1, g1]
  · rw [g6]
    have := sha1FnL lsb d.bytes (d.length % 2 ^ 32)
    refine Eq.trans ?_ this
    refine Eq.trans f2 ?_
    rw [List.nil_append, List.length_nil, Nat.zero_add]; rfl
  · have := padWithLength_wrong (m := d.bytes) (by rw [hb]; exact h1) (by rw [hb]; exact h2)
    rwa [hb] at this

/-- **C75** The same for SHA-256. -/
theorem C75_sha256_long_update_violated (lsb : Bool) (junk : HashJunk) (fuel : Nat) (d : StringInfo) (hd : d.WF)
    (h1 : 2 ^ 32 ≤ d.length) (h2 : d.length < 2 ^ 61) :
    ∃ h0 h, acquireHash lsb junk .sha2256 = .ok h0 ∧ hashSession lsb fuel h0 [d] = .ok h ∧
      h.digest.bytes = sha256OfPadded (padWithLength d.bytes (d.length % 2 ^ 32)) ∧
      padWithLength d.bytes (d.length % 2 ^ 32) ≠ padWithLength d.bytes d.length := by
  obtain ⟨h0, a1, a2⟩ := acquireHash_shape lsb junk .sha2256 ⟨nofun, nofun⟩
  obtain ⟨g1, b1, b2⟩ := initializeHash_holds a2
  obtain ⟨c1, c2, c3, c4⟩ := b2
  obtain ⟨ty, dg, x⟩ := g1
  simp only [] at c1 c2 c3 c4
  subst c1
  have hb := StringInfo.bytes_length hd
  cases x <;> simp only [HandleHolds] at c4 <;> try exact c4.elim
  rename_i s
  obtain ⟨r, e1, e2⟩ := updateSha_holdsL (sha256Alg_ok lsb) c4 hd
  obtain ⟨q, f1, f2, f3, f4⟩ := finalizeSha_holdsL (sha256Alg_ok lsb) e2
  obtain ⟨h', g1, g2, g3, g4, g5, g6⟩ := setHashDigest_ok (h := ⟨.sha2256, dg, .sha2256 r⟩) (n := 32) c3 c2 f4 (.sha2256 q)
  refine ⟨h0, h', a1, ?_, ?_, ?_⟩
  · unfold hashSession
    rw [b1, Res.ok_bind, hashUpdates, updateHash]
    simp only [e1, Res.ok_bind, hashUpdates, finalizeHash, f1, g1]
  · rw [g6]
    have := sha256FnL lsb d.bytes (d.length % 2 ^ 32)
    refine Eq.trans ?_ this
    refine Eq.trans f2 ?_
    rw [List.nil_append, List.length_nil, Nat.zero_add]; rfl
  · have := padWithLength_wrong (m := d.bytes) (by rw [hb]; exact h1) (by rw [hb]; exact h2)
    rwa [hb] at this

/-- **C75** Partial: as long as every single string is shorter than 4 GiB (2^64 bytes for SHA-384 and SHA-512) the length
in the padding is that of the whole message, which may be longer than 4 GiB. -/
theorem C75_length_partial (lsb : Bool) (junk : HashJunk) (t : HashType)
    (ht : t = .sha1 ∨ t = .sha2256 ∨ t = .sha2384 ∨ t = .sha2512) (fuel : Nat) (ds : List StringInfo)
    (hd : ∀ d ∈ ds, d.WF ∧ d.length < updateLimit t ∧ d.length < fuel) :
    ∃ h0 h, acquireHash lsb junk t = .ok h0 ∧ hashSession lsb fuel h0 ds = .ok h ∧
      h.digest.bytes = published t (allBytes ds) := by
  have hs : HashType.Supported t := by rcases ht with rfl | rfl | rfl | rfl <;> exact ⟨nofun, nofun⟩
  obtain ⟨h0, a1, a2⟩ := acquireHash_shape lsb junk t hs
  obtain ⟨h, b1, _, b2⟩ := hashSession_holds a2 hd
  refine ⟨h0, h, a1, b1, b2.trans ?_⟩
  rcases ht with rfl | rfl | rfl | rfl <;> rfl

/-- A string of 4 GiB. -/
example : (⟨2 ^ 32, List.replicate (2 ^ 32 + maxCipherBlocksize) 0⟩ : StringInfo).WF := wf_replicate _ _

/-- The rate in bytes of the SHA-3 types. -/
def sha3Rate : HashType → Nat
  | .sha3 => 128
  | .sha3224 => 144
  | .sha3256 => 136
  | .sha3384 => 104
  | _ => 72

/-- **C76** UpdateHash does not return: once a SHA-3 object holds bytes of an unfinished block, a string whose length is a
multiple of 512 MiB makes UpdateSHA3 (sha3.c:797-822) loop for ever, the number of bits still to go being cut to 32 bits,
all zero.  The loop does not end within any number of turns. -/
theorem C76_sha3_update_hangs_violated (lsb : Bool) (junk : HashJunk) (t : HashType)
    (ht : t = .sha3 ∨ t = .sha3224 ∨ t = .sha3256 ∨ t = .sha3384 ∨ t = .sha3512) (d big : StringInfo) (hd : d.WF)
    (h0 : d.length < 2 ^ 29) (h1 : d.length % sha3Rate t ≠ 0) (hbig : 0 < big.length) (hmod : big.length % 2 ^ 29 = 0) :
    ∃ g0 g1 g2, acquireHash lsb junk t = .ok g0 ∧ initializeHash lsb g0 = .ok (true, g1) ∧
      updateHash lsb (2 ^ 29) g1 d = .ok (true, g2) ∧ ∀ fuel, updateHash lsb fuel g2 big = .fatal := by
  have hs : HashType.Supported t := by rcases ht with rfl | rfl | rfl | rfl | rfl <;> exact ⟨nofun, nofun⟩
  have hl : updateLimit t = 2 ^ 29 := by rcases ht with rfl | rfl | rfl | rfl | rfl <;> rfl
  obtain ⟨g0, a1, a2⟩ := acquireHash_shape lsb junk t hs
  obtain ⟨g1, b1, b2⟩ := initializeHash_holds a2
  obtain ⟨g2, c1, c2⟩ := updateHash_holds b2 hd (by rw [hl]; exact h0) h0
  refine ⟨g0, g1, g2, a1, b1, c1, fun fuel => ?_⟩
  have hb := StringInfo.bytes_length hd
  obtain ⟨e1, _, _, e4⟩ := c2
  obtain ⟨ty, dg, x⟩ := g2
  simp only [] at e1 e4
  subst e1
  rw [List.nil_append] at e4
  have key : ∀ {r n : Nat} {s : Sha3Info}, 0 < r → r ≤ 192 → d.length % r ≠ 0 → Sha3Holds r n s d.bytes →
      updateSha3 fuel s big = .fatal := by
    intro r n s hr hr2 hm h
    have hq : s.bitsInQueue ≠ 0 ∧ s.bitsInQueue % 8 = 0 := by
      obtain ⟨a, q, e, ha, hq, hbits, _⟩ := h.split
      have : d.length = a.length + q.length := by rw [← hb, e, List.length_append]
      obtain ⟨c, hc⟩ := ha
      rw [this, hc, Nat.mul_add_mod, Nat.mod_eq_of_lt hq] at hm
      omega
    unfold updateSha3
    rw [if_neg (by omega), h.squeeze]
    simp only [Bool.false_eq_true, if_false]
    rw [sha3AbsorbLoop_stuck hr hr2 big.datum hbig (by omega) h hq.1 fuel]; rfl
  rcases ht with rfl | rfl | rfl | rfl | rfl <;> cases x <;> simp only [HandleHolds] at e4 <;> (try exact e4.elim) <;>
    simp only [updateHash] <;> rw [key (by decide) (by decide) h1 e4] <;> rfl

/-- **C76** Partial: for strings below the limits every call of a whole history of messages returns, so every UpdateHash
ends within as many turns as the string has bytes. -/
theorem C76_update_returns_partial (lsb : Bool) (junk : HashJunk) (t : HashType) (ht : HashType.Supported t) (fuel : Nat)
    (sessions : List (List StringInfo)) (he : ∀ ds ∈ sessions, UpdatesOK t fuel ds) :
    ∃ h0 h, acquireHash lsb junk t = .ok h0 ∧ hashSessions lsb fuel h0 sessions = .ok h := by
  obtain ⟨h0, a1, a2⟩ := acquireHash_shape lsb junk t ht
  obtain ⟨h1, b1, _⟩ := hashSessions_shape sessions a2 he
  exact ⟨h0, h1, a1, b1⟩

end Wizard.Props

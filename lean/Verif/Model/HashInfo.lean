import Verif.Model.Sha
import Verif.Model.MD5
import Verif.Model.SHA3
import Verif.Model.CRC64
/-! hash.c and hmac.c. -/
namespace Wizard

/-- hash.h:26-43 `HashType`. -/
inductive HashType where
  | undefined | no | crc64 | md5 | sha1 | sha2 | sha2224 | sha2256 | sha2384 | sha2512
  | sha3 | sha3224 | sha3256 | sha3384 | sha3512
  deriving DecidableEq, Repr

/-- The object behind `hash_info->handle`. -/
inductive HashHandle where
  | crc64 (s : Crc64Info)
  | md5 (s : Md5Info)
  | sha1 (s : ShaInfo 32)
  | sha2224 (s : ShaInfo 32)
  | sha2256 (s : ShaInfo 32)
  | sha2384 (s : ShaInfo 64)
  | sha2512 (s : ShaInfo 64)
  | sha3 (s : Sha3Info)
  deriving DecidableEq, Repr

/-- hash.c:59-75 `struct _HashInfo`.  The time stamp and signature are not modelled. -/
structure HashInfo where
  hash : HashType
  digest : StringInfo
  handle : HashHandle
  deriving DecidableEq, Repr

/-- The unset memory an object may contain: the table of the checksum and the accumulator of MD5. -/
structure HashJunk where
  crc : List (BitVec 64)
  md5 : List (BitVec 32)

/-- hash.c:112-201: the switch of `AcquireHashInfo`; a type without implementation is a fatal error.  For SHA-3: the digest
size (sha3.c:145-174), the rate and the capacity (sha3.c:715-740).  `lsb` is the
byte order of the host. -/
def acquireHandle (lsb : Bool) (junk : HashJunk) : HashType → Res HashHandle
  | .crc64 => .ok (.crc64 (acquireCrc64 junk.crc))
  | .md5 => .ok (.md5 (acquireMd5 junk.md5))
  | .sha1 => .ok (.sha1 (acquireSha (sha1Alg lsb)))
  | .sha2224 => .ok (.sha2224 (acquireSha (sha224Alg lsb)))
  | .sha2256 | .sha2 => .ok (.sha2256 (acquireSha (sha256Alg lsb)))
  | .sha2384 => .ok (.sha2384 (acquireSha (sha384Alg lsb)))
  | .sha2512 => .ok (.sha2512 (acquireSha (sha512Alg lsb)))
  | .sha3 => .ok (.sha3 (acquireSha3 36 1024 576))
  | .sha3224 => .ok (.sha3 (acquireSha3 28 1152 448))
  | .sha3256 => .ok (.sha3 (acquireSha3 32 1088 512))
  | .sha3384 => .ok (.sha3 (acquireSha3 48 832 768))
  | .sha3512 => .ok (.sha3 (acquireSha3 64 576 1024))
  | .undefined | .no => .fatal

/-- hash.c:598-689 `GetHashDigestsize`, with the constants of each algorithm (crc64.c:51, md5.c:51, sha1.c:52,
sha2224.c:51, sha2256.c:51, sha2384.c:51, sha2512.c:51, sha3.c:147-171). -/
def hashDigestsize : HashHandle → Nat
  | .crc64 _ => 8
  | .md5 _ => 16
  | .sha1 _ => 20
  | .sha2224 _ => 28
  | .sha2256 _ => 32
  | .sha2384 _ => 48
  | .sha2512 _ => 64
  | .sha3 s => s.digestsize

/-- hash.c:453-544 `GetHashBlocksize`, with the constants of each algorithm (crc64.c:50, md5.c:50, sha1.c:51,
sha2224.c:50, sha2256.c:50, sha2384.c:50, sha2512.c:50, sha3.c:53). -/
def hashBlocksize : HashHandle → Nat
  | .crc64 _ => 32
  | .sha2384 _ => 128
  | .sha2512 _ => 128
  | _ => 64

/-- hash.c:99-207 `AcquireHashInfo`. -/
def acquireHash (lsb : Bool) (junk : HashJunk) (t : HashType) : Res HashInfo := do
  let h ← acquireHandle lsb junk t
  let d ← acquireStringInfo (hashDigestsize h)
  let d ← resetStringInfo d
  .ok ⟨t, d, h⟩

/-- hash.c:760-822 `InitializeHash`: the returned flag and the object.  The type selects the function; a handle of
another type would be undefined. -/
def initializeHash (lsb : Bool) (h : HashInfo) : Res (Bool × HashInfo) :=
  match h.hash, h.handle with
  | .crc64, .crc64 s => .ok (true, { h with handle := .crc64 (initializeCrc64 s) })
  | .md5, .md5 s => .ok (true, { h with handle := .md5 (initializeMd5 s) })
  | .sha1, .sha1 s => .ok (true, { h with handle := .sha1 (initializeSha (sha1Alg lsb) s) })
  | .sha2224, .sha2224 s => .ok (true, { h with handle := .sha2224 (initializeSha (sha224Alg lsb) s) })
  | .sha2256, .sha2256 s | .sha2, .sha2256 s =>
    .ok (true, { h with handle := .sha2256 (initializeSha (sha256Alg lsb) s) })
  | .sha2384, .sha2384 s => .ok (true, { h with handle := .sha2384 (initializeSha (sha384Alg lsb) s) })
  | .sha2512, .sha2512 s => .ok (true, { h with handle := .sha2512 (initializeSha (sha512Alg lsb) s) })
  | .sha3, .sha3 s => .ok (true, { h with handle := .sha3 (initializeSha3 1024 576 s) })
  | .sha3224, .sha3 s => .ok (true, { h with handle := .sha3 (initializeSha3 1152 448 s) })
  | .sha3256, .sha3 s => .ok (true, { h with handle := .sha3 (initializeSha3 1088 512 s) })
  | .sha3384, .sha3 s => .ok (true, { h with handle := .sha3 (initializeSha3 832 768 s) })
  | .sha3512, .sha3 s => .ok (true, { h with handle := .sha3 (initializeSha3 576 1024 s) })
  | .undefined, _ | .no, _ => .ok (false, h)
  | _, _ => .ub

/-- hash.c:849-915 `UpdateHash`.  `fuel` bounds the turns of the SHA-3 loop (see `sha3AbsorbLoop`). -/
def updateHash (lsb : Bool) (fuel : Nat) (h : HashInfo) (d : StringInfo) : Res (Bool × HashInfo) :=
  match h.hash, h.handle with
  | .crc64, .crc64 s => do let s ← updateCrc64 s d; .ok (true, { h with handle := .crc64 s })
  | .md5, .md5 s => do let s ← updateMd5 s d; .ok (true, { h with handle := .md5 s })
  | .sha1, .sha1 s => do let s ← updateSha (sha1Alg lsb) s d; .ok (true, { h with handle := .sha1 s })
  | .sha2224, .sha2224 s => do let s ← updateSha (sha224Alg lsb) s d; .ok (true, { h with handle := .sha2224 s })
  | .sha2256, .sha2256 s | .sha2, .sha2256 s => do
    let s ← updateSha (sha256Alg lsb) s d; .ok (true, { h with handle := .sha2256 s })
  | .sha2384, .sha2384 s => do let s ← updateSha (sha384Alg lsb) s d; .ok (true, { h with handle := .sha2384 s })
  | .sha2512, .sha2512 s => do let s ← updateSha (sha512Alg lsb) s d; .ok (true, { h with handle := .sha2512 s })
  | .sha3, .sha3 s | .sha3224, .sha3 s | .sha3256, .sha3 s | .sha3384, .sha3 s | .sha3512, .sha3 s => do
    let r ← updateSha3 fuel s d; .ok (r.1, { h with handle := .sha3 r.2 })
  | .undefined, _ | .no, _ => .ok (false, h)
  | _, _ => .ub

/-- hash.c:344 and its copies: the digest of the algorithm object is copied to the digest of the hash object. -/
def setHashDigest (h : HashInfo) (size : Nat) (digest : List Byte) (handle : HashHandle) : Res HashInfo := do
  let d ← setStringInfo h.digest ⟨size, digest⟩
  .ok ⟨h.hash, d, handle⟩

/-- hash.c:324-429 `FinalizeHash`. -/
def finalizeHash (lsb : Bool) (h : HashInfo) : Res (Bool × HashInfo) :=
  match h.hash, h.handle with
  | .crc64, .crc64 s => do
    let s ← finalizeCrc64 s
    let h ← setHashDigest h 8 s.digest (.crc64 s)
    .ok (true, h)
  | .md5, .md5 s => do
    let s ← finalizeMd5 s
    let h ← setHashDigest h 16 s.digest (.md5 s)
    .ok (true, h)
  | .sha1, .sha1 s => do
    let s ← finalizeSha (sha1Alg lsb) s
    let h ← setHashDigest h 20 s.digest (.sha1 s)
    .ok (true, h)
  | .sha2224, .sha2224 s => do
    let s ← finalizeSha (sha224Alg lsb) s
    let h ← setHashDigest h 28 s.digest (.sha2224 s)
    .ok (true, h)
  | .sha2256, .sha2256 s | .sha2, .sha2256 s => do
    let s ← finalizeSha (sha256Alg lsb) s
    let h ← setHashDigest h 32 s.digest (.sha2256 s)
    .ok (true, h)
  | .sha2384, .sha2384 s => do
    let s ← finalizeSha (sha384Alg lsb) s
    let h ← setHashDigest h 48 s.digest (.sha2384 s)
    .ok (true, h)
  | .sha2512, .sha2512 s => do
    let s ← finalizeSha (sha512Alg lsb) s
    let h ← setHashDigest h 64 s.digest (.sha2512 s)
    .ok (true, h)
  | .sha3, .sha3 s | .sha3224, .sha3 s | .sha3256, .sha3 s | .sha3384, .sha3 s | .sha3512, .sha3 s => do
    let r ← finalizeSha3 s
    let h ← setHashDigest h r.2.digestsize r.2.digest (.sha3 r.2)
    .ok (r.1, h)
  | .undefined, _ | .no, _ => .ok (false, h)
  | _, _ => .ub

/-! ### hmac.c -/

/-- hmac.c:52-67 `struct _HMACInfo`.  The time stamp and signature are not modelled. -/
structure HmacInfo where
  hashInfo : HashInfo
  digest : StringInfo
  finalNonce : StringInfo
  initialNonce : StringInfo
  deriving DecidableEq, Repr

/-- hmac.c:91-110 `AcquireHMACInfo`. -/
def acquireHmac (lsb : Bool) (junk : HashJunk) (t : HashType) : Res HmacInfo := do
  let h ← acquireHash lsb junk t
  let d ← acquireStringInfo (hashDigestsize h.handle)
  let i ← acquireStringInfo (hashBlocksize h.handle)
  let f ← acquireStringInfo (hashBlocksize h.handle)
  .ok ⟨h, d, f, i⟩

/-- hmac.c:366-373 `ResetHMAC`. -/
def resetHmac (lsb : Bool) (fuel : Nat) (k : HmacInfo) : Res HmacInfo := do
  let r ← initializeHash lsb k.hashInfo
  let r ← updateHash lsb fuel r.2 k.initialNonce
  .ok { k with hashInfo := r.2 }

/-- hmac.c:336-337, 339-340: every byte of the string xor `x`. -/
def xorStringInfo (s : StringInfo) (x : Byte) : Res StringInfo := do
  let b ← rdN s.datum 0 s.length
  let d ← wrN s.datum 0 (b.map (· ^^^ x))
  .ok ⟨s.length, d⟩

/-- hmac.c:323-333: the first nonce and the hash object. -/
def hmacKey (lsb : Bool) (fuel : Nat) (k : HmacInfo) (key : StringInfo) : Res (StringInfo × HashInfo) := do
  let i ← resetStringInfo k.initialNonce
  if key.length ≤ i.length then do
    let i ← setStringInfo i key
    .ok (i, k.hashInfo)
  else do
    let r ← initializeHash lsb k.hashInfo
    let r ← updateHash lsb fuel r.2 key
    let r ← finalizeHash lsb r.2
    let i ← setStringInfo i r.2.digest
    .ok (i, r.2)

/-- hmac.c:312-342 `InitializeHMAC`. -/
def initializeHmac (lsb : Bool) (fuel : Nat) (k : HmacInfo) (key : StringInfo) : Res HmacInfo := do
  let r ← hmacKey lsb fuel k key
  let f ← setStringInfo k.finalNonce r.1
  let i ← xorStringInfo r.1 0x36
  let f ← xorStringInfo f 0x5c
  resetHmac lsb fuel ⟨r.2, k.digest, f, i⟩

/-- hmac.c:399-405 `UpdateHMAC`. -/
def updateHmac (lsb : Bool) (fuel : Nat) (k : HmacInfo) (d : StringInfo) : Res HmacInfo := do
  let r ← updateHash lsb fuel k.hashInfo d
  .ok { k with hashInfo := r.2 }

/-- hmac.c:214-226 `FinalizeHMAC`. -/
def finalizeHmac (lsb : Bool) (fuel : Nat) (k : HmacInfo) : Res HmacInfo := do
  let r ← finalizeHash lsb k.hashInfo
  let d ← setStringInfo k.digest r.2.digest
  let r ← initializeHash lsb r.2
  let r ← updateHash lsb fuel r.2 k.finalNonce
  let r ← updateHash lsb fuel r.2 d
  let r ← finalizeHash lsb r.2
  let d ← setStringInfo d r.2.digest
  .ok ⟨r.2, d, k.finalNonce, k.initialNonce⟩

/-- hmac.c:139-150 `ConstructHMAC`. -/
def constructHmac (lsb : Bool) (fuel : Nat) (k : HmacInfo) (key message : StringInfo) : Res HmacInfo := do
  let k ← initializeHmac lsb fuel k key
  let k ← updateHmac lsb fuel k message
  finalizeHmac lsb fuel k

end Wizard

import Verif.Model.HashInfo
import Verif.Spec.Keccak
import Verif.Spec.CRC
/-! The functions behind the names of hash.h, and HMAC (RFC 2104). -/
namespace Wizard.Spec
open Hash

/-- The types that have an implementation. -/
def HashType.Supported (t : HashType) : Prop := t ≠ .undefined ∧ t ≠ .no

/-- The published function of each type.  `SHA2Hash` is SHA-256; `SHA3Hash`, which is no published function, is taken
as the sponge of rate 128 bytes with 36 bytes of output. -/
def published : HashType → List Byte → List Byte
  | .crc64 => CRC.crc64
  | .md5 => MD5.hash
  | .sha1 => SHA1.hash
  | .sha2224 => SHA2.sha224
  | .sha2256 | .sha2 => SHA2.sha256
  | .sha2384 => SHA2.sha384
  | .sha2512 => SHA2.sha512
  | .sha3 => Keccak.sponge 128 0x06 36
  | .sha3224 => Keccak.sha3 28
  | .sha3256 => Keccak.sha3 32
  | .sha3384 => Keccak.sha3 48
  | .sha3512 => Keccak.sha3 64
  | .undefined | .no => fun _ => []

/-- The block size of the published function, in bytes, as HMAC uses it (for SHA-3 the rate, FIPS 202 section 7);
CRC-64 has none, the library takes 32. -/
def publishedBlocksize : HashType → Nat
  | .crc64 => 32
  | .sha2384 | .sha2512 => 128
  | .sha3 => 128
  | .sha3224 => 144
  | .sha3256 => 136
  | .sha3384 => 104
  | .sha3512 => 72
  | _ => 64

/-- RFC 2104: the key, hashed if it is longer than the block, is filled with zeros to the block size `B`. -/
def hmacPad (H : List Byte → List Byte) (B : Nat) (K : List Byte) : List Byte :=
  let K := if K.length ≤ B then K else H K
  K ++ List.replicate (B - K.length) 0

/-- RFC 2104: H(K xor opad, H(K xor ipad, text)). -/
def hmac (H : List Byte → List Byte) (B : Nat) (K m : List Byte) : List Byte :=
  H ((hmacPad H B K).map (· ^^^ 0x5c) ++ H ((hmacPad H B K).map (· ^^^ 0x36) ++ m))

/-- The number of bytes one call of `UpdateHash` may be given.  It is what the statements below need; that it is not
a mere artefact is shown by `C75_long_update_violated` and `C76_sha3_update_hangs_violated`. -/
def updateLimit : HashType → Nat
  | .crc64 | .md5 | .sha2384 | .sha2512 => 2 ^ 64
  | .sha1 | .sha2224 | .sha2256 | .sha2 => 2 ^ 32
  | _ => 2 ^ 29

end Wizard.Spec

namespace Wizard

/-- A user's calls: `UpdateHash` for each of the strings. -/
def hashUpdates (lsb : Bool) (fuel : Nat) : HashInfo → List StringInfo → Res HashInfo
  | h, [] => .ok h
  | h, d :: ds => do
    let r ← updateHash lsb fuel h d
    hashUpdates lsb fuel r.2 ds

/-- A user's calls: `InitializeHash`, `UpdateHash` for each of the strings, `FinalizeHash`. -/
def hashSession (lsb : Bool) (fuel : Nat) (h : HashInfo) (ds : List StringInfo) : Res HashInfo := do
  let r ← initializeHash lsb h
  let h ← hashUpdates lsb fuel r.2 ds
  let r ← finalizeHash lsb h
  .ok r.2

/-- Several messages one after the other with the same object. -/
def hashSessions (lsb : Bool) (fuel : Nat) : HashInfo → List (List StringInfo) → Res HashInfo
  | h, [] => .ok h
  | h, ds :: rest => do
    let h ← hashSession lsb fuel h ds
    hashSessions lsb fuel h rest

/-- A user's calls: `UpdateHMAC` for each of the strings. -/
def hmacUpdates (lsb : Bool) (fuel : Nat) : HmacInfo → List StringInfo → Res HmacInfo
  | k, [] => .ok k
  | k, d :: ds => do
    let k ← updateHmac lsb fuel k d
    hmacUpdates lsb fuel k ds

/-- A user's calls: `InitializeHMAC` with the key, `UpdateHMAC` for each of the strings, `FinalizeHMAC`. -/
def hmacSession (lsb : Bool) (fuel : Nat) (k : HmacInfo) (key : StringInfo) (ds : List StringInfo) : Res HmacInfo := do
  let k ← initializeHmac lsb fuel k key
  let k ← hmacUpdates lsb fuel k ds
  finalizeHmac lsb fuel k

/-- Several keys and messages one after the other with the same object. -/
def hmacSessions (lsb : Bool) (fuel : Nat) : HmacInfo → List (StringInfo × List StringInfo) → Res HmacInfo
  | k, [] => .ok k
  | k, x :: rest => do
    let k ← hmacSession lsb fuel k x.1 x.2
    hmacSessions lsb fuel k rest

end Wizard

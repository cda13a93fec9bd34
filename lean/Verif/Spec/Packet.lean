import Verif.Model.Packet
/-! Settings that can be recorded. -/
namespace Wizard.Spec.Packet
open Wizard

/-- A text without control characters, `<` and `&`. -/
def Text (s : List Byte) : Prop := s ≠ [] ∧ s.length ≤ 4000 ∧ ∀ c ∈ s, 32 ≤ c.toNat ∧ c ≠ 60 ∧ c ≠ 38

/-- The name of a file without control characters, `<`, `&` and `"`, and not too long. -/
def Name (s : List Byte) : Prop := s.length < 2 ^ 31 ∧ ∀ c ∈ s, 32 ≤ c.toNat ∧ c ≠ 60 ∧ c ≠ 38 ∧ c ≠ 34

/-- The value is one that the table has. -/
def OneOf (table : List OptionInfo) (v : BitVec 64) : Prop := ∃ o ∈ table, o.type = v

/-- Settings that make sense, with chunks of less than 4 GiB. -/
structure Recordable (s : Settings) : Prop where
  cipher : OneOf cipherOptions s.cipher
  mode : OneOf modeOptions s.mode
  authenticate : OneOf authenticateOptions s.authenticate
  keyHash : OneOf hashOptions s.keyHash
  entropy : OneOf entropyOptions s.entropy
  hmac : OneOf hashOptions s.hmac
  level : s.level.toNat ≤ 9
  chunksize : s.chunksize < 2 ^ 32
  nonce : Text s.nonce
  id : Text s.id
  version : Text s.version

/-- Digests are texts of graphic characters without quotes and `?`; dates are texts; and there is memory for options. -/
structure Usual (env : PacketEnv) : Prop where
  junk : env.junk.length = 4096
  hex : ∀ t, env.hex t ≠ [] ∧ (env.hex t).length ≤ 128 ∧ ∀ c ∈ env.hex t, 33 ≤ c.toNat ∧ c.toNat ≤ 126 ∧ c ≠ 34 ∧ c ≠ 39 ∧ c ≠ 63
  modify : Text env.modify
  create : Text env.create
  timestamp : Text env.timestamp

end Wizard.Spec.Packet

import Verif.Model.Programs
import Verif.Spec.Content
import Verif.Spec.Packet
import Verif.Spec.Keyring
import Verif.Spec.Secret
import Verif.Spec.File
import Verif.Spec.EncipherCommand
import Verif.Lemmas.Keyring
/-! Vocabulary of the statements about the programs as wholes (C172). -/
namespace Wizard.Spec.Programs
open Wizard Wizard.Spec Wizard.Spec.Command Wizard.Spec.Content Wizard.Spec.Packet Wizard.Spec.Keyring Wizard.Spec.Secret

/-- The toolkit computes what it should: ciphers of blocks of 16 to 128 bytes that can be inverted, HMACs of a fixed size, lossless compression, ids of 1 to 2000 bytes. -/
structure Lawful (kit : Kit) : Prop where
  cipher : ∀ t f, kit.cipherOf t = some f → ∀ key,
    16 ≤ (f key).blocksize ∧ (f key).blocksize ≤ 128 ∧ (f key).Sized ∧ (f key).Invertible ∧ (f key).blocksize = (f []).blocksize
  tag : ∀ t key n h, kit.hmacOf t key = some (n, h) → 0 < n ∧ n < 2 ^ 62 ∧ ∀ m, (h m).length = n
  packer : ∀ t l e, kit.packerOf t l = some e → Lossless e
  mac : ∀ t p k, 0 < (kit.macOf t p k).length ∧ (kit.macOf t p k).length ≤ 2000
  header : Header kit.magick kit.filetype
  version : Text kit.version

/-- Settings that a user may choose: values that there are, and chunks of less than 4 GiB. -/
structure Choice (kit : Kit) (s : Settings) (mode : CipherMode) (f : List Byte → BlockCipher) : Prop where
  mode : modeOf s.mode = some mode
  known : OneOf modeOptions s.mode
  cipher : kit.cipherOf s.cipher = some f
  cipherKnown : OneOf cipherOptions s.cipher
  authenticate : OneOf authenticateOptions s.authenticate
  keyHash : OneOf hashOptions s.keyHash
  entropy : OneOf entropyOptions s.entropy
  hmac : OneOf hashOptions s.hmac
  level : s.level.toNat ≤ 9
  chunksize : 0 < s.chunksize ∧ s.chunksize < 2 ^ 32
  version : s.version = kit.version

/-- A key ring file: its records, the last of which, if there is one, is not of protocol 1.0. -/
structure Ring (kit : Kit) (file : Option (List Byte)) (rs : List Record) : Prop where
  file : file = fileOf (kit.magick.bytes ++ kit.filetype.bytes) rs
  fits : ∀ r ∈ rs, r.Fits
  last : ∀ r, rs.getLast? = some r → ¬ (r.major = 1 ∧ r.minor = 0)

/-- Of the keys that are drawn one has an id that is new, system calls do not fail, and loops may run long enough. -/
structure CanGenerate (kit : Kit) (run : Run) (s : Settings) (phrase : List Byte) (rs : List Record) : Prop where
  fresh : ∃ x ∈ run.tries, isNew (kit.macOf s.keyHash) phrase rs (keyOf s.keyLength.toNat x.1) = true
  e1 : Quiet run.e1
  e2 : NoFail run.e2.sched
  tries : ∀ x ∈ run.tries, Quiet x.2 ∧ x.2.sched.length + (ring (kit.magick.bytes ++ kit.filetype.bytes) rs).length + 16 < kit.fuel
  turns : rs.length + 1 < kit.turns
  fuel : run.e1.sched.length + run.e2.sched.length + (ring (kit.magick.bytes ++ kit.filetype.bytes) rs).length + 2000 + s.keyLength.toNat + 100 < kit.fuel

/-- The names that `encipher` works with are those of different files. -/
structure NamesApart (ringName : List Byte) (properties : Option (List Byte)) (plain cipherName : List Byte) : Prop where
  files : plain ≠ cipherName
  ring : ringName ≠ plain ∧ ringName ≠ cipherName
  properties : ∀ p, properties = some p → p ≠ plain ∧ p ≠ cipherName ∧ p ≠ ringName

/-- The settings that a command line asks for: of each the last that is given, or the default. -/
def chosen (version : List Byte) (gs : List Given) : Settings := {
  cipher := (last Given.cipher? gs).getD 2, mode := (last Given.mode? gs).getD 3, nonce := [], authenticate := (last Given.authenticate? gs).getD 1, id := [],
  keyHash := (last Given.key? gs).getD 7, keyLength := 512, entropy := (last Given.entropy? gs).getD 3, level := (last Given.level? gs).getD 6, hmac := (last Given.hmac? gs).getD 7,
  chunksize := (last Given.chunksize? gs).getD 262144, version := version }

/-- The key ring that a command line names. -/
def ringNamed (kit : Kit) (gs : List Given) : List Byte := (last Given.keyring? gs).getD kit.home

end Wizard.Spec.Programs

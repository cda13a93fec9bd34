import Verif.Model.EncipherCommand
import Verif.Spec.Option
/-! What is given on a command line. -/
namespace Wizard.Spec.Command
open Wizard

/-- What a user gives: an option with its argument (and what the argument means), a switch that is on or off, or the name of a file. -/
inductive Given where
  | authenticate (w : List Byte) (v : BitVec 64)
  | cipher (w : List Byte) (v : BitVec 64)
  | mode (w : List Byte) (v : BitVec 64)
  | entropy (w : List Byte) (v : BitVec 64)
  | hmac (w : List Byte) (v : BitVec 64)
  | key (w : List Byte) (v : BitVec 64)
  | level (w : List Byte) (v : BitVec 64)
  | chunksize (w : List Byte) (n : Nat)
  | keyring (w : List Byte)
  | passphrase (w : List Byte)
  | properties (w : List Byte)
  | verbose (on : Bool)
  | trueRandom (on : Bool)
  | file (w : List Byte)

/-- The arguments it is written with. -/
def Given.words : Given → List (List Byte)
  | .authenticate w _ => [ascText "-authenticate", w]
  | .cipher w _ => [ascText "-cipher", w]
  | .mode w _ => [ascText "-mode", w]
  | .entropy w _ => [ascText "-entropy", w]
  | .hmac w _ => [ascText "-hmac", w]
  | .key w _ => [ascText "-key", w]
  | .level w _ => [ascText "-level", w]
  | .chunksize w _ => [ascText "-chunksize", w]
  | .keyring w => [ascText "-keyring", w]
  | .passphrase w => [ascText "-passphrase", w]
  | .properties w => [ascText "-properties", w]
  | .verbose on => [ascText (if on then "-verbose" else "+verbose")]
  | .trueRandom on => [ascText (if on then "-true-random" else "+true-random")]
  | .file w => [w]

/-- `w` is a word that names the entry of the table with the value `v`, in lower or upper case. -/
def Names (table : List OptionInfo) (w : List Byte) (v : BitVec 64) : Prop :=
  (∀ c ∈ w, isSpaceC c = false ∧ c ≠ asc ',' ∧ c ≠ 0) ∧ (∃ c r, w = c :: r ∧ c ≠ asc '!' ∧ c ≠ asc '-' ∧ c ≠ asc '+') ∧ w.length < 2049 ∧ (Opt.named cLocaleLower table w).map (·.type) = some v

/-- Arguments mean what is said they mean; public authentication is not available; names of files do not look like options. -/
def Given.OK (env : CommandEnv) : Given → Prop
  | .authenticate w v => Names authenticateOptions w v ∧ v ≠ 2
  | .cipher w v => Names cipherOptions w v
  | .mode w v => Names modeOptions w v
  | .entropy w v => Names entropyOptions w v
  | .hmac w v => Names hashOptions w v
  | .key w v => Names hashOptions w v
  | .level w v => Names entropyLevelOptions w v
  | .chunksize w n => env.number w = some (n : Int) ∧ n < 2 ^ 64
  | .file w => ∀ c d r, w = c :: d :: r → (c ≠ asc '-' ∧ c ≠ asc '+') ∨ isAlphaC d = false
  | _ => True

def Given.authenticate? : Given → Option (BitVec 64) | .authenticate _ v => some v | _ => none
def Given.cipher? : Given → Option (BitVec 64) | .cipher _ v => some v | _ => none
def Given.mode? : Given → Option (BitVec 64) | .mode _ v => some v | _ => none
def Given.entropy? : Given → Option (BitVec 64) | .entropy _ v => some v | _ => none
def Given.hmac? : Given → Option (BitVec 64) | .hmac _ v => some v | _ => none
def Given.key? : Given → Option (BitVec 64) | .key _ v => some v | _ => none
def Given.level? : Given → Option (BitVec 32) | .level _ v => some (v.setWidth 32) | _ => none
def Given.chunksize? : Given → Option Nat | .chunksize _ n => some n | _ => none
def Given.keyring? : Given → Option (List Byte) | .keyring w => some w | _ => none
def Given.passphrase? : Given → Option (List Byte) | .passphrase w => some w | _ => none
def Given.properties? : Given → Option (List Byte) | .properties w => some w | _ => none
def Given.verbose? : Given → Option Bool | .verbose on => some on | _ => none
def Given.trueRandom? : Given → Option Bool | .trueRandom on => some on | _ => none
def Given.file? : Given → Option (List Byte) | .file w => some w | _ => none

/-- The last of them that is given counts. -/
def last {α : Type} (pick : Given → Option α) (gs : List Given) : Option α := (gs.filterMap pick).getLast?

end Wizard.Spec.Command

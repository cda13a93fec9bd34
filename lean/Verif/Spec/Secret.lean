import Verif.Spec.Keyring
import Verif.Model.Keyring
/-! What a secret key ring is to hold. -/
namespace Wizard.Spec.Secret
open Wizard Spec.Keyring

/-- The key drawn from some random bytes, of a length in bits. -/
def keyOf (bits : Nat) (draw : Nat → Byte) : List Byte := (List.range (bits / 8)).map draw

/-- Protocol and time stamp of the last record of a key ring, or else those of the object. -/
def stampOf (k : KeyringInfo) (rs : List Record) : BitVec 16 × BitVec 16 × BitVec 64 :=
  match rs.getLast? with
  | some r => (r.major, r.minor, r.timestamp)
  | none => (k.major, k.minor, k.timestamp)

/-- No record has the id of the key. -/
def isNew (mac : List Byte → List Byte → List Byte) (phrase : List Byte) (rs : List Record) (key : List Byte) : Bool :=
  (lookup rs (mac phrase key)).isNone

end Wizard.Spec.Secret

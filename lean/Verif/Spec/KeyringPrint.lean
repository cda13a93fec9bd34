import Verif.Spec.Keyring
import Verif.Model.Packet
/-! The list of the keys of a key ring: the text that is expected, written down in one piece. -/
namespace Wizard.Spec.KeyringPrint
open Wizard Spec.Keyring

/-- A byte as two hexadecimal digits. -/
def hexOfByte (b : Byte) : List Byte :=
  [(ascText "0123456789abcdef").getD (b.toNat / 16) 0, (ascText "0123456789abcdef").getD (b.toNat % 16) 0]

/-- A byte string in hexadecimal. -/
def hexOf (s : List Byte) : List Byte := s.flatMap hexOfByte

/-- What a list may tell of a key: all but the key. -/
structure Public where
  id : List Byte
  nonce : List Byte
  major : BitVec 16
  minor : BitVec 16
  timestamp : BitVec 64
  deriving DecidableEq, Repr

/-- Of a record. -/
def publicOf (r : Record) : Public := ⟨r.id, r.nonce, r.major, r.minor, r.timestamp⟩

/-- The entry of a key. -/
def entry (path : List Byte) (clock : BitVec 64 → List Byte) (k : Public) : List Byte :=
  ascText "  <keyring:Key rdf:about=\"" ++ hexOf k.id ++ ascText "\">\n    <keyring:memberOf rdf:resource=\"" ++ path ++
  ascText "\"/>\n    <keyring:nonce>" ++ hexOf k.nonce ++ ascText "</keyring:nonce>\n    <keyring:timestamp>" ++ clock k.timestamp ++
  ascText "</keyring:timestamp>\n    <keyring:protocol>" ++ decText k.major.toNat ++ ascText "." ++ decText k.minor.toNat ++
  ascText "</keyring:protocol>\n  </keyring:Key>\n"

/-- The entry of the key ring. -/
def heading (path : List Byte) (clock : BitVec 64 → List Byte) (mtime now : BitVec 64) : List Byte :=
  ascText "  <keyring:Keyring rdf:about=\"" ++ path ++ ascText "\">\n    <keyring:modify-date>" ++ clock mtime ++
  ascText "</keyring:modify-date>\n    <keyring:create-date>" ++ clock mtime ++
  ascText "</keyring:create-date>\n    <keyring:timestamp>" ++ clock now ++ ascText "</keyring:timestamp>\n  </keyring:Keyring>\n"

/-- The list. -/
def listing (path : List Byte) (clock : BitVec 64 → List Byte) (mtime now : BitVec 64) (ks : List Public) : List Byte :=
  heading path clock mtime now ++ ks.flatMap (entry path clock)

end Wizard.Spec.KeyringPrint

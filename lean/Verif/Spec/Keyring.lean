import Verif.Spec.Hash
/-! The key ring file format: a header of two digests, then one record per key. -/
namespace Wizard.Spec.Keyring
open Wizard Spec.Hash

/-- What a key ring holds for one key. -/
structure Record where
  id : List Byte
  key : List Byte
  nonce : List Byte
  major : BitVec 16
  minor : BitVec 16
  timestamp : BitVec 64
  deriving DecidableEq, Repr

/-- Protocol 1.0. -/
def Record.Old (r : Record) : Prop := r.major = 1 ∧ r.minor = 0

instance (r : Record) : Decidable r.Old := by unfold Record.Old; infer_instance

/-- The mark at the start of a record. -/
def mark : List Byte := le 4 0xabacadab

/-- Protocol and time stamp; protocol 1.0 has a time stamp of 32 bits. -/
def Record.stamp (r : Record) : List Byte :=
  if r.Old then le 4 r.timestamp.toNat ++ (le 2 1 ++ le 2 0)
  else le 4 0 ++ (le 2 r.major.toNat ++ (le 2 r.minor.toNat ++ le 8 r.timestamp.toNat))

/-- A byte string after its length. -/
def counted (s : List Byte) : List Byte := le 4 s.length ++ s

/-- A record after its mark. -/
def Record.body (r : Record) : List Byte := r.stamp ++ (counted r.id ++ (counted r.key ++ counted r.nonce))

/-- A record. -/
def Record.encode (r : Record) : List Byte := mark ++ r.body

/-- The lengths have 32 bits, and so has an old time stamp. -/
structure Record.Fits (r : Record) : Prop where
  id : r.id.length < 2 ^ 32
  key : r.key.length < 2 ^ 32
  nonce : r.nonce.length < 2 ^ 32
  old : r.Old → r.timestamp.toNat < 2 ^ 32

/-- The records of a file. -/
def encodeAll (rs : List Record) : List Byte := rs.flatMap Record.encode

/-- A key ring file. -/
def ring (header : List Byte) (rs : List Record) : List Byte := header ++ encodeAll rs

/-- The record with an id. -/
def lookup (rs : List Record) (id : List Byte) : Option Record := rs.find? (fun r => r.id == id)

/-- A new id is added, a known one is not. -/
def addRecord (rs : List Record) (r : Record) : List Record := if (lookup rs r.id).isSome then rs else rs ++ [r]

/-- The file that holds some records; there is none before the first key. -/
def fileOf (header : List Byte) (rs : List Record) : Option (List Byte) := if rs = [] then none else some (ring header rs)

end Wizard.Spec.Keyring

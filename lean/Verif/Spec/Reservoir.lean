import Verif.Spec.CRC
/-! The file of the entropy reservoir: a header of two digests, protocol, time stamp, the entropy after its length, its checksum. -/
namespace Wizard.Spec.Reservoir
open Wizard Spec.Hash

/-- What a reservoir file holds. -/
structure Contents where
  major : BitVec 16
  minor : BitVec 16
  timestamp : BitVec 64
  entropy : List Byte
  deriving DecidableEq, Repr

/-- Protocol 1.0 has no time stamp. -/
def Contents.Old (c : Contents) : Prop := c.major = 1 ∧ c.minor = 0

instance (c : Contents) : Decidable c.Old := by unfold Contents.Old; infer_instance

/-- The checksum of the entropy. -/
def checksum (s : List Byte) : BitVec 64 := (CRC.remainder s).reverse

/-- Entropy after its length and before its checksum. -/
def sealed (s : List Byte) : List Byte := le 4 s.length ++ (s ++ le 8 (checksum s).toNat)

/-- The file after its header. -/
def Contents.encode (c : Contents) : List Byte :=
  le 2 c.major.toNat ++ (le 2 c.minor.toNat ++ ((if c.Old then [] else le 8 c.timestamp.toNat) ++ sealed c.entropy))

end Wizard.Spec.Reservoir

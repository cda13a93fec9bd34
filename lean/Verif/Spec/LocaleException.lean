import Verif.Spec.Catalog
/-! Where the messages of exceptions are to be found in a catalog. -/
namespace Wizard.Spec.LocaleException
open Wizard Wizard.Spec.Catalog

/-- The kinds of exceptions, in the order of their severities (exception.h). -/
def kinds : List String := ["Option", "Random", "Hash", "MAC", "Entropy", "Configure", "Cipher", "Keymap", "Authenticate", "Keyring", "Parse", "User", "SplayTree", "Hashmap", "Log", "String",
  "File", "Blob", "ResourceLimit"]

/-- The levels, with the severities they begin at. -/
def levels : List (Nat × String) := [(300, "Warning"), (400, "Error"), (700, "FatalError")]

/-- The severity of the kind with number `i` (from 0) at a level. -/
def severityOf (i : Nat) (level : Nat × String) : Nat := level.1 + 5 * (i + 1)

/-- The tag of a message: `Exception/Kind/Level/tag`. -/
def fullTag (kind : String) (level : Nat × String) (tag : List Byte) : List Byte := txt "Exception/" ++ txt kind ++ txt "/" ++ txt level.2 ++ txt "/" ++ tag

end Wizard.Spec.LocaleException

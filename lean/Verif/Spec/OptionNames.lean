import Verif.Spec.Option
import Verif.Model.Packet
/-! The words of the options and the values they stand for, from the declarations of the types. -/
namespace Wizard.Spec.Opt
open Wizard

/-- The tables of enumerated types, each with the words for its values in the order of the declaration, the first of which is 0: authenticate.h:32-37, cipher.h:39-47 and 29-37, mime-private.h:24-39,
entropy.h:28-35, hash.h:27-44, resource_.h:32-40; the levels of compression are digits. -/
def enumerations : List (List OptionInfo × List String) :=
  [(authenticateOptions, ["Undefined", "Secret", "Public"]),
   (cipherOptions, ["Undefined", "None", "AES", "Chacha", "Serpent", "Twofish"]),
   (modeOptions, ["Undefined", "CBC", "CFB", "CTR", "ECB", "OFB"]),
   (dataTypeOptions, ["Undefined", "String", "Byte", "Short", "Long"]),
   (endianOptions, ["Undefined", "LSB", "MSB"]),
   (entropyOptions, ["Undefined", "None", "Zip", "BZip", "LZMA"]),
   (entropyLevelOptions, ["0", "1", "2", "3", "4", "5", "6", "7", "8", "9"]),
   (hashOptions, ["Undefined", "None", "CRC64", "MD5", "SHA1", "SHA2", "SHA224", "SHA256", "SHA384", "SHA512", "SHA3", "SHA3-224", "SHA3-256", "SHA3-384", "SHA3-512"]),
   (resourceOptions, ["Undefined", "Area", "Disk", "File", "Map", "Memory"])]

/-- The second words for some hashes, with the first ones. -/
def otherNames : List (String × String) :=
  [("SHA2-224", "SHA224"), ("SHA2-256", "SHA256"), ("SHA2-384", "SHA384"), ("SHA2-512", "SHA512")]

/-- The events, with the numbers of their bits (log.h:35-54). -/
def eventBits : List (String × Nat) :=
  [("Trace", 0), ("Blob", 2), ("Configure", 5), ("Deprecate", 6), ("Exception", 7), ("Locale", 8), ("Resource", 10), ("Warning", 12), ("User", 13)]

end Wizard.Spec.Opt

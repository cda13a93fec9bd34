import Verif.Model.Catalog
import Verif.Model.Packet

/-! `GetLocaleExceptionMessage` (exception.c), with `WIZARDSTOOLKIT_LOCALE`. -/
namespace Wizard

/-- exception.c:519-577: the cases, with the values of exception.h:59-122. -/
def severityTags : List (Nat × String) :=
  [(305, "Option/Warning/"), (310, "Random/Warning/"), (315, "Hash/Warning/"), (320, "MAC/Warning/"), (325, "Entropy/Warning/"),
   (330, "Configure/Warning/"), (335, "Cipher/Warning/"), (340, "Keymap/Warning/"), (345, "Authenticate/Warning/"), (350, "Keyring/Warning/"),
   (355, "Parse/Warning/"), (360, "User/Warning/"), (365, "SplayTree/Warning/"), (370, "Hashmap/Warning/"), (375, "Log/Warning/"),
   (380, "String/Warning/"), (385, "File/Warning/"), (390, "Blob/Warning/"), (395, "ResourceLimit/Warning/"), (405, "Option/Error/"),
   (410, "Random/Error/"), (415, "Hash/Error/"), (420, "MAC/Error/"), (425, "Entropy/Error/"), (430, "Configure/Error/"),
   (435, "Cipher/Error/"), (440, "Keymap/Error/"), (445, "Authenticate/Error/"), (450, "Keyring/Error/"), (455, "Parse/Error/"),
   (460, "User/Error/"), (465, "SplayTree/Error/"), (480, "String/Error/"), (485, "File/Error/"), (490, "Blob/Error/"),
   (495, "ResourceLimit/Error/"), (705, "Option/FatalError/"), (710, "Random/FatalError/"), (715, "Hash/FatalError/"), (720, "MAC/FatalError/"),
   (725, "Entropy/FatalError/"), (730, "Configure/FatalError/"), (735, "Cipher/FatalError/"), (740, "Keymap/FatalError/"), (745, "Authenticate/FatalError/"),
   (750, "Keyring/FatalError/"), (755, "Parse/FatalError/"), (760, "User/FatalError/"), (765, "SplayTree/FatalError/"), (770, "Hashmap/FatalError/"),
   (775, "Log/FatalError/"), (780, "String/FatalError/"), (785, "File/FatalError/"), (790, "Blob/FatalError/"), (795, "ResourceLimit/FatalError/")]

/-- exception.c:517-579 `ExceptionSeverityToTag`. -/
def severityToTag (severity : Nat) : List Byte :=
  match severityTags.find? (fun e => e.1 = severity) with
  | some e => ascText e.2
  | none => []

/-- exception.c:581-603 `GetLocaleExceptionMessage`: `GetLocaleMessage` (locale.c:739-759) returns its argument itself if there is no message for it, and then the tag is returned (597-598). -/
def getLocaleExceptionMessage (cache : LocCache) (severity : Nat) (tag : List Byte) : List Byte :=
  let message := inMessage (ascText "Exception/" ++ severityToTag severity ++ tag)
  match locLookup cache (locCopy (message ++ ascText "/")) with
  | some text => text
  | none => tag

end Wizard

import Verif.Model.CipherInfo
import Verif.Spec.Packet
/-! What `cipher-info` is to show. -/
namespace Wizard.Spec.CipherInfo
open Wizard Wizard.Spec.Packet

/-- A file that `encipher` has written: its name when it was written, its settings, and its content. -/
structure Enciphered where
  env : PacketEnv
  name : List Byte
  settings : Settings
  body : List Byte

/-- The file can be read. -/
structure Enciphered.OK (e : Enciphered) (hex : List Byte → List Byte) : Prop where
  usual : Usual e.env
  hex : e.env.hex = hex
  recordable : Recordable e.settings
  name : Name e.name

/-- The text of the file. -/
def Enciphered.text (e : Enciphered) : List Byte := cipherPacket e.env e.settings e.name ++ e.body

/-- The arguments are names, each of a file that `encipher` has written or of none. -/
def Holds (files : List Byte → Option (List Byte)) (args : List (List Byte × Option Enciphered)) : Prop :=
  ∀ a ∈ args, a.1.head? ≠ some 45 ∧ files a.1 = a.2.map Enciphered.text

/-- What is to be shown: of every file its own settings. -/
def report (show' : List Byte → Settings → List Byte) (args : List (List Byte × Option Enciphered)) : List Byte :=
  args.flatMap fun a => match a.2 with
    | none => []
    | some e => show' a.1 e.settings

/-- A file with the settings that are given, which may be less than `encipher` writes. -/
def rdfOf (fs : List (List Byte × List Byte)) (name : List Byte) : List Byte :=
  ascText "<rdf:RDF xmlns:rdf=\"http://www.w3.org/1999/02/22-rdf-syntax-ns#\"\n" ++
    ascText "         xmlns:cipher=\"https://urban-warrior.org/WizardsToolkit/cipher/1.0/\">\n" ++
    (ascText "  <cipher:Content rdf:about=\"" ++ name ++ ascText "\">\n") ++ fs.flatMap packetLine ++
    ascText "  </cipher:Content>\n" ++ ascText "</rdf:RDF>\n"

/-- The file with these settings. -/
def fileOf (hex : List Byte → List Byte) (fs : List (List Byte × List Byte)) (name body : List Byte) : List Byte :=
  ascText "<?cipherpacket digest=\"" ++ hex (rdfOf fs name) ++ ascText "\" bytes=\"" ++ decText (rdfOf fs name).length ++ ascText "\"?>\n" ++
    (rdfOf fs name ++ (ascText "<?cipherpacket?>" ++ ([12, 10] ++ body)))

/-- A file that says only that its cipher is AES, a nonce and an id. -/
def sparse (nonce id : List Byte) : List (List Byte × List Byte) := [(ascText "type", optionToMnemonic cipherOptions 2), (ascText "nonce", nonce), (ascText "id", id)]

end Wizard.Spec.CipherInfo

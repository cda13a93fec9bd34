import Verif.Model.KeyringCommand
import Verif.Model.Packet

/-! The program `cipher-info` (utilities/cipher-info.c), which shows the settings that are recorded in enciphered files.  The arguments are those behind the
program's name, after `ExpandFilenames` (see Model/Expand.lean).  A file can be read if there is a file of that name; closing it succeeds. -/
namespace Wizard

/-- What the program runs with: what `GetContentInfo` runs with, bounds of loops, its version, how `FormatWizardSize` shows a size, and the names that
`SetLogEventMask` and `ParseWizardOption` know. -/
structure InfoProgram where
  packet : PacketEnv
  fuel : Nat
  version : List Byte
  size : Nat → List Byte
  events : List Byte → Bool
  lists : List Byte → Bool

/-- How an option is left: with the next argument; with the one behind it; by `exit`; or with an exception. -/
inductive InfoStep where
  | next
  | second
  | exit
  | failed
  deriving DecidableEq

/-- cipher-info.c:173-193 -/
def infoDebug (p : InfoProgram) (option : List Byte) (rest : List (List Byte)) : InfoStep :=
  if keyIs option "-debug" then
    match rest with
    | [] => .failed
    | a :: _ => if p.events a then .second else .failed
  else .failed

/-- cipher-info.c:194-202 -/
def infoHelp (option : List Byte) : InfoStep :=
  if keyIs (option.drop 1) "help" || keyIs (option.drop 1) "-help" then .exit else .failed

/-- cipher-info.c:203-243 -/
def infoList (p : InfoProgram) (option : List Byte) (rest : List (List Byte)) : InfoStep :=
  if keyIs option "-list" then
    match rest with
    | [] => .failed
    | a :: _ => if keyIs a "configure" || p.lists a then .exit else .failed
  else if keyIs (option.drop 1) "log" then
    match rest with
    | [] => .failed
    | a :: _ => if a.contains (asc '%') then .second else .failed
  else .failed

/-- cipher-info.c:171-263: an argument that starts with `-`. -/
def infoOption (p : InfoProgram) (option : List Byte) (rest : List (List Byte)) : InfoStep :=
  if option[1]? = some (asc 'd') then infoDebug p option rest
  else if option[1]? = some (asc 'h') then infoHelp option
  else if option[1]? = some (asc 'l') then infoList p option rest
  else if option[1]? = some (asc 'v') then (if keyIs option "-version" then .exit else .failed)
  else .failed

/-- content.c:625-674 `PrintCipherProperties`: what is written of the settings.  The lines of the properties, dates, the random generator and the protocol, which
are not among the modelled settings, are left out.  A NULL nonce or id, which `%s` leaves undefined, is written like an empty one. -/
def infoText (p : InfoProgram) (name : List Byte) (s : Settings) : List Byte :=
  ascText "Filename: " ++ name ++ ascText "\n" ++
    ascText "  Cipher:\n" ++ (ascText "    type: " ++ optionToMnemonic cipherOptions s.cipher ++ ascText "\n") ++
    (ascText "    mode: " ++ optionToMnemonic modeOptions s.mode ++ ascText "\n") ++
    (ascText "    nonce: " ++ s.nonce ++ ascText "\n") ++
    ascText "  Authenticate:\n" ++ (ascText "    method: " ++ optionToMnemonic authenticateOptions s.authenticate ++ ascText "\n") ++
    ascText "  Key:\n" ++ (ascText "    hash: " ++ optionToMnemonic hashOptions s.keyHash ++ ascText "\n") ++
    (ascText "    length: " ++ decText s.keyLength.toNat ++ ascText "\n") ++
    (ascText "    id: " ++ s.id ++ ascText "\n") ++
    ascText "  Entropy Generator:\n" ++ (ascText "    type: " ++ optionToMnemonic entropyOptions s.entropy ++ ascText "\n") ++
    (ascText "    level: " ++ decText s.level.toNat ++ ascText "\n") ++
    ascText "  Keyed-Hashed Message Authentication Code:\n" ++ (ascText "    hash: " ++ optionToMnemonic hashOptions s.hmac ++ ascText "\n") ++
    (ascText "  Chunksize: " ++ p.size s.chunksize ++ ascText "B\n") ++
    (ascText "  Version: " ++ s.version ++ ascText "\n")

/-- How the program ends: the command returns a status; `exit(0)` is called; it never ends; or it has written outside its memory. -/
inductive InfoEnd where
  | returned (status : Bool)
  | exited
  | forever
  | overrun
  deriving DecidableEq

/-- cipher-info.c:166-280: the loop over the arguments: how it ends, and what is written.  The one `content_info`, here `s`, is kept from file to file (162, 269-276);
the status is that of the last file that could be opened (272-274). -/
def infoLoop (p : InfoProgram) (files : Files) : List (List Byte) → Settings → Bool → List Byte → Res (InfoEnd × List Byte)
  | [], _, status, out => .ok (.returned status, out)
  | option :: rest, s, status, out =>
    if option.head? = some (asc '-') then
      match infoOption p option rest with
      | .failed => .ok (.returned false, out)
      | .exit => .ok (.exited, out)
      | .next => infoLoop p files rest s status out
      | .second =>
        match rest with
        | [] => .ok (.returned false, out)
        | _ :: rest => infoLoop p files rest s status out
    else
      match files option with
      | none => infoLoop p files rest s status out
      | some file =>
        match getContentInfo p.packet p.fuel s file with
        | .ub => .ub
        | .fatal => .fatal
        | .ok .refused => infoLoop p files rest s false out
        | .ok .forever => .ok (.forever, out)
        | .ok .overrun => .ok (.overrun, out)
        | .ok (.settings s _ _) => infoLoop p files rest s true (out ++ infoText p option s)

/-- content.c:69-97 `AcquireContentInfo` -/
def infoStart (p : InfoProgram) : Settings := (commandStart p.version).settings

/-- cipher-info.c:119-286 `CipherInfoCommand`; without arguments the usage is shown (159-160). -/
def cipherInfoCommand (p : InfoProgram) (files : Files) (args : List (List Byte)) : Res (InfoEnd × List Byte) :=
  if args = [] then .ok (.exited, []) else infoLoop p files args (infoStart p) true []

/-- cipher-info.c:347-358, 371: the exit status of the program, if there is one iteration; `severity` is that of the gravest exception (0 if there is none; errors are 400
and above). -/
def infoExit (regard : Bool) (severity : Nat) (returned : Bool) : Nat :=
  if (if (returned = false ∨ severity ≠ 0) ∧ severity < 400 ∧ regard = false then true else returned) = false then 1 else 0

end Wizard

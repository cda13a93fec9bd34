import Verif.Model.KeyringPrint
import Verif.Model.EncipherCommand

/-! The program `keyring` (utilities/keyring.c).  The arguments are those after `ExpandFilenames`.  A key ring can be read if
there is a file of that name; files can be written; the exception log is not modelled. -/
namespace Wizard

/-- What the program runs with: bounds of loops, the digests of the header, what the system calls do, the clock and the time of
each file, the names that `SetLogEventMask` and `ParseWizardOption` know, and the path of the default key ring. -/
structure RingProgram where
  fuel : Nat
  turns : Nat
  magick : StringInfo
  filetype : StringInfo
  io : IOEnv
  heap : Nat → Byte
  clock : BitVec 64 → List Byte
  mtime : List Byte → BitVec 64
  now : BitVec 64
  events : List Byte → Bool
  lists : List Byte → Bool
  home : List Byte

/-- The files. -/
abbrev Files := List Byte → Option (List Byte)

/-- How an argument is left: with argument `i` (which may have moved on by one) and the ones behind it; by `exit`; or with an
exception. -/
inductive RingStep where
  | go (current : List Byte) (rest : List (List Byte)) (id : Option (List Byte))
  | exit
  | failed
  deriving DecidableEq

/-- keyring.c:398-418 -/
def ringDebug (p : RingProgram) (option : List Byte) (rest : List (List Byte)) (id : Option (List Byte)) : RingStep :=
  if keyIs option "-debug" then
    match rest with
    | [] => .failed
    | a :: rest => if p.events a then .go a rest id else .failed
  else .failed

/-- keyring.c:419-427 -/
def ringHelp (option : List Byte) : RingStep :=
  if keyIs (option.drop 1) "help" || keyIs (option.drop 1) "-help" then .exit else .failed

/-- keyring.c:428-469 -/
def ringList (p : RingProgram) (option : List Byte) (rest : List (List Byte)) (id : Option (List Byte)) : RingStep :=
  if keyIs option "-list" then
    match rest with
    | [] => .failed
    | a :: _ => if keyIs a "configure" || p.lists a then .exit else .failed
  else if keyIs (option.drop 1) "log" then
    if option.head? = some (asc '+') then .go option rest id
    else match rest with
      | [] => .failed
      | a :: rest => if a.contains (asc '%') then .go a rest id else .failed
  else .failed

/-- keyring.c:470-482 -/
def ringVersion (option : List Byte) : RingStep := if keyIs option "-version" then .exit else .failed

/-- keyring.c:394-489: an argument of the list. -/
def listArgument (p : RingProgram) (option : List Byte) (rest : List (List Byte)) : RingStep :=
  if isWizardOption option then
    if option[1]? = some (asc 'd') then ringDebug p option rest none
    else if option[1]? = some (asc 'h') then ringHelp option
    else if option[1]? = some (asc 'l') then ringList p option rest none
    else if option[1]? = some (asc 'v') then ringVersion option
    else .failed
  else .go option rest none

/-- keyring.c:198-214: `-export`. -/
def ringExport (option : List Byte) (rest : List (List Byte)) (id : Option (List Byte)) : RingStep :=
  if keyIs (option.drop 1) "export" then
    if option.head? = some (asc '+') then .go option rest id
    else match rest with
      | [] => .failed
      | a :: rest => .go a rest (some (hexStringToStringInfo a))
  else .failed

/-- keyring.c:173-285: an argument of the export. -/
def exportArgument (p : RingProgram) (option : List Byte) (rest : List (List Byte)) (id : Option (List Byte)) : RingStep :=
  if isWizardOption option then
    if option[1]? = some (asc 'd') then ringDebug p option rest id
    else if option[1]? = some (asc 'e') then ringExport option rest id
    else if option[1]? = some (asc 'h') then ringHelp option
    else if option[1]? = some (asc 'l') then ringList p option rest id
    else if option[1]? = some (asc 'v') then ringVersion option
    else .failed
  else .go option rest id

/-- keyring.c:108-128 `AcquireKeyringInfo` and `SetKeyringId`: the object of an id.  Key and nonce are NULL until
`ExportKeyringKey` has set them. -/
def ringObject (p : RingProgram) (id : List Byte) : KeyringInfo :=
  ⟨⟨id.length, id ++ List.replicate maxCipherBlocksize 0⟩, ⟨0, []⟩, ⟨0, []⟩, 1, 1, p.now⟩

/-- A file is replaced. -/
def withFile (files : Files) (path : List Byte) (content : Option (List Byte)) : Files := fun q => if q = path then content else files q

/-- keyring.c:286-308: the key is exported from the default key ring (`keyring` is NULL on every path) into the last argument.
`SetKeyringId` of NULL fails an assertion (string.c:337). -/
def exportOne (p : RingProgram) (filename : List Byte) (id : Option (List Byte)) (status : Bool) (files : Files) : Res (Bool × Files) :=
  match id with
  | none => .ub
  | some id => do
    let r ← exportKeyring p.fuel p.turns p.magick p.filetype (files p.home) p.io (ringObject p id)
    if r.1 = false then .ok (status, files)
    else do
      let w ← importKeyring p.fuel p.turns p.magick p.filetype (files filename) p.io p.io r.2
      .ok (w.1, withFile files filename w.2)

/-- keyring.c:171-309: the arguments from `i` on, the last of which is the file name: the status (`none`: `exit` was called) and
the files. -/
def exportArguments (p : RingProgram) (filename : List Byte) : Nat → List (List Byte) → Bool → Files → Res (Option Bool × Files)
  | 0, _, _, _ => .fatal
  | n + 1, option :: next :: more, status, files =>
    match exportArgument p option (next :: more) none with
    | .failed => .ok (some false, files)
    | .exit => .ok (none, files)
    | .go _ rest id => do
      let r ← exportOne p filename id status files
      exportArguments p filename n rest r.1 r.2
  | _ + 1, _, status, files => .ok (some status, files)

/-- keyring.c:490, 493: the properties of a key ring. -/
def printRing (p : RingProgram) (files : Files) (path : List Byte) : Res (Bool × List Byte) :=
  printKeyringProperties p.fuel p.turns p.magick p.filetype ⟨path, p.heap, p.clock, p.mtime path, p.now⟩ (files path) p.io

/-- keyring.c:392-491: the arguments from `i` on, the last of which is the output: the status (`none`: `exit` was called), whether
the output is closed, and what was written. -/
def listArguments (p : RingProgram) (files : Files) : Nat → List (List Byte) → Bool → Res (Option Bool × Bool × List Byte)
  | 0, _, _ => .fatal
  | n + 1, option :: next :: more, _ =>
    match listArgument p option (next :: more) with
    | .failed => .ok (some false, false, [])
    | .exit => .ok (none, false, [])
    | .go path rest _ => do
      let r ← printRing p files path
      let m ← listArguments p files n rest r.1
      .ok (m.1, m.2.1, r.2 ++ m.2.2)
  | _ + 1, _, status => .ok (some status, true, [])

/-- keyring.c:387-391 -/
def rdfStart : List Byte :=
  ascText "<?xml version=\"1.0\"?>\n" ++ ascText "<rdf:RDF xmlns:rdf=\"http://www.w3.org/1999/02/22-rdf-syntax-ns#\"\n" ++
  ascText "         xmlns:keyring=\"https://urban-warrior.org/WizardsToolkit/keyring/1.0/\">\n"

/-- keyring.c:494 -/
def rdfEnd : List Byte := ascText "</rdf:RDF>\n"

/-- keyring.c:317-502 `KeyringCommand`: what it returns (`none`: `exit` was called) and the files afterwards.  `ExportKeyring` has
given up the argument vector when it returns (lines 130, 137, 313), and line 380 gives it up again, which is undefined.  The
output is opened, and so emptied, before the key rings are read. -/
def keyringCommand (p : RingProgram) (argv : List (List Byte)) (files : Files) : Res (Option Bool × Files) :=
  if argv.length = 2 ∧ (keyIs ((argv.getD 1 []).drop 1) "version" ∨ keyIs ((argv.getD 1 []).drop 1) "-version") then .ok (some true, files)
  else match argv with
    | [] => .ok (none, files)
    | _ :: [] => .ok (none, files)
    | _ :: first :: more => do
      let args := first :: more
      let last := args.getLastD []
      if args.dropLast.any (fun a => keyIs (a.drop 1) "export") then do
        let r ← exportArguments p last args.length args false files
        match r.1 with
        | none => .ok (none, r.2)
        | some _ => .ub
      else do
        let files := withFile files last (some [])
        let r ← listArguments p files args.length args true
        match r.1 with
        | none => .ok (none, withFile files last (some (rdfStart ++ r.2.2)))
        | some status =>
          if r.2.1 = false then .ok (some status, withFile files last (some (rdfStart ++ r.2.2)))
          else if argv.length = 2 then do
            let d ← printRing p files p.home
            .ok (some d.1, withFile files last (some (rdfStart ++ d.2 ++ rdfEnd)))
          else .ok (some status, withFile files last (some (rdfStart ++ r.2.2 ++ rdfEnd)))

end Wizard

import Verif.Model.Xml
/-!
Model of temporary files: /repo/wizard/resource.c.

The file system is the list of the paths of its files. `fold` is `tolower` of the locale: the splay tree of temporary files is ordered by `LocaleCompare`
(splay-tree.c:410-419), so that it has at most one of the names that differ in the case of letters only; it is the list of its keys (C19). Random bytes,
what `mkstemp` chooses and errors of the system are given by the environment. One thread; allocation succeeds; signals find the tree unlocked.
-/
namespace Wizard

/-- What the library knows about temporary files, and the files there are. -/
structure TmpState where
  files : List (List Byte)
  temps : List (List Byte)
  used : Nat

/-- `unlink`. -/
def unlinkFile (name : List Byte) (files : List (List Byte)) : List (List Byte) := files.filter (· != name)

/-- What `GetPathTemplate` looks at: the first that is there of `WIZARD_TMPDIR`, `TMPDIR` and `P_tmpdir` (208-220), which paths are directories (229-230),
and the process id in decimal. -/
structure TmpEnv where
  defaultDir : Option (List Byte)
  isDir : List Byte → Bool
  pid : List Byte

/-- resource.c:202-203: the name of a temporary file before random letters are put into it. -/
def tmpBase (env : TmpEnv) : List Byte := ascText "wizard-" ++ env.pid ++ List.replicate 12 (asc 'X')

/-- resource.c:188-248 `GetPathTemplate`: the path (cut to `WizardPathExtent`-1 bytes) and what is returned. -/
def getPathTemplate (env : TmpEnv) (path : List Byte) : List Byte × Bool :=
  match (if path ≠ [] then some path else env.defaultDir) with
  | none => ((tmpBase env).take 4095, true)
  | some dir =>
    if 4096 - 25 < dir.length then ((tmpBase env).take 4095, false)
    else if env.isDir dir = false then ((tmpBase env).take 4095, false)
    else if dir.getLast? = some (asc '/') then ((dir ++ tmpBase env).take 4095, true)
    else ((dir ++ asc '/' :: tmpBase env).take 4095, true)

/-- resource.c:270-272 -/
def portableNames : List Byte := ascText "ABCDEFGHIJKLMNOPQRSTUVWXYZabcdefghijklmnopqrstuvwxyz0123456789_-"

/-- resource.c:305-306 and 327-328 -/
def portable (c : Byte) : Byte := portableNames.getD (c.toNat % 64) 0

/-- resource.c:301-307 and 323-329: letters at 12 bytes before the end. -/
def fillName (name : List Byte) (letters : List Byte) : List Byte :=
  name.take (name.length - 12) ++ letters ++ name.drop (name.length - 12 + letters.length)

/-- What happens in a try (291-335): 6 random bytes; the letters `mkstemp` chooses, unless it fails; 12 random bytes; whether `open` fails for another
reason than that the file exists. -/
structure TmpTry where
  key6 : List Byte
  made : Option (List Byte)
  key12 : List Byte
  openFails : Bool

/-- resource.c:291-335: the tries; the path of the file that was created. `mkstemp` and `open` with `O_EXCL` create files that do not exist. -/
def tmpTries (template : List Byte) (files : List (List Byte)) : List TmpTry → Option (List Byte)
  | [] => none
  | t :: ts =>
    let name := fillName template (t.key6.map portable)
    let made := t.made.bind fun six =>
      let name := name.take (name.length - 6) ++ six
      if name ∈ files then none else some name
    match made with
    | some name => some name
    | none =>
      let name := fillName name (t.key12.map portable)
      if t.openFails then none
      else if name ∈ files then tmpTries template files ts
      else some name

/-- splay-tree.c:152-218 `AddValueToSplayTree`: a key that compares equal is replaced, and `DestroyTemporaryResources` (resource.c:181-186) removes its file. -/
def addTemp (fold : Byte → Byte) (name : List Byte) (s : TmpState) : TmpState :=
  match s.temps.find? (fun k => k.map fold == name.map fold) with
  | some k => { s with files := unlinkFile k s.files, temps := name :: s.temps.erase k }
  | none => { s with temps := name :: s.temps }

/-- resource.c:250-359 `AcquireUniqueFileResource`: the path of the file, if the call does not return -1, and the state afterwards. `limit` is that of file
resources, `none` if it is `WizardResourceInfinity` (466-475). -/
def acquireUnique (fold : Byte → Byte) (env : TmpEnv) (limit : Option Nat) (path : List Byte) (tries : List TmpTry) (s : TmpState) : Option (List Byte) × TmpState :=
  match tmpTries (getPathTemplate env path).1 s.files tries with
  | none => (none, s)
  | some name =>
    let s := { s with files := name :: s.files }
    if limit.all (fun l => decide (s.used + 1 < l)) = true then (some name, addTemp fold name { s with used := s.used + 1 })
    else (none, { s with files := unlinkFile path s.files })

/-- resource.c:843-867 `RelinquishUniqueFileResource`: what it returns, and the state afterwards. Removing the key from the tree removes the file (181-186). -/
def relinquishUnique (fold : Byte → Byte) (path : List Byte) (trash : Bool) (s : TmpState) : Bool × TmpState :=
  let s := (match s.temps.find? (fun k => k.map fold == path.map fold) with
    | some k => { s with files := unlinkFile k s.files, temps := s.temps.erase k }
    | none => s)
  if trash = false then (true, s)
  else (decide (path ∈ s.files), { s with files := unlinkFile path s.files })

/-- resource.c:983-992 `ResourceComponentTerminus`: the tree is destroyed, and the files of all its keys are removed. -/
def tmpTerminus (s : TmpState) : TmpState := { s with files := s.temps.foldl (fun fs k => unlinkFile k fs) s.files, temps := [] }

/-- resource.c:511-530 `AsynchronousResourceComponentTerminus` (wizard.c:154-189: when a signal arrives). -/
def tmpAsyncTerminus (s : TmpState) : TmpState := { s with files := s.temps.foldl (fun fs k => unlinkFile k fs) s.files }

end Wizard

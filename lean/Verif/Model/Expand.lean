import Verif.Model.Path
import Verif.Model.Glob
import Verif.Model.Option
/-! How the programs expand patterns on the command line (utilities/utility.c `ExpandFilenames` and `ListFiles`).  Texts are without
the NUL.  Memory never runs out, `getcwd` succeeds, and the files do not change while the command line is read. -/
namespace Wizard

/-- What the expansion asks the system for. -/
structure ExpandEnv where
  /-- the letter case `LocaleCompare` ignores -/
  fold : Byte → Byte
  /-- `stat` succeeds -/
  found : List Byte → Bool
  /-- wizard/utility.c:779-797 `IsPathAcessible`: a regular file -/
  regular : List Byte → Bool
  /-- utilities/utility.c:326-348 `IsDirectory(path) > 0`: a directory that may be searched -/
  directory : List Byte → Bool
  /-- `opendir` and the names `readdir` gives, in its order, up to the end or to an error (utility.c:404-413) -/
  names : List Byte → Option (List (List Byte))
  /-- the working directory -/
  cwd : List Byte
  /-- `HOME`, or else `USERPROFILE` -/
  home : Option (List Byte)
  /-- `getpwnam(name)->pw_dir` -/
  passwd : List Byte → Option (List Byte)
  /-- the uninitialised memory of `token` in `ParseWizardOption` -/
  token : List Byte
  /-- the uninitialised memory of `filename` and `path` (simplified: the same for every argument) -/
  memory : List Byte

/-- What `CopyWizardString` and `ConcatenateWizardString` leave of a text in a buffer of `WizardPathExtent` bytes. -/
def cutPath (s : List Byte) : List Byte := s.take (pathExtent - 1)

/-- wizard/token.c:507-524: the bytes that make a path a pattern. -/
def globByte (c : Byte) : Bool :=
  c == asc '*' || c == asc '?' || c == asc '{' || c == asc '}' || c == asc '[' || c == asc ']'

/-- wizard/token.c:497-526 `IsGlob`. -/
def isGlob (env : ExpandEnv) (path : List Byte) : Bool :=
  if env.regular path then false else path.any globByte

/-- utilities/utility.c:84-147 `ExpandFilename`. -/
def expandFilename (env : ExpandEnv) : List Byte → List Byte
  | [] => []
  | c :: rest =>
    if c ≠ asc '~' then c :: rest
    else if rest.head? = some (asc '/') ∨ rest = [] then
      match env.home with
      | some home => cutPath (cutPath home ++ rest)
      | none => cutPath (asc '.' :: rest)
    else
      match env.passwd (rest.takeWhile (· != asc '/')) with
      | none => c :: rest
      | some dir => match rest.dropWhile (· != asc '/') with
        | [] => cutPath dir
        | _ :: r => cutPath (cutPath dir ++ asc '/' :: r)

/-- utilities/utility.c:389-398 `FileCompare`: whether one name may stand before another. -/
def fileCompare (env : ExpandEnv) (x y : List Byte) : Bool :=
  match localeCompare env.fold (some x) (some y) with
  | .ok r => decide (r ≤ 0)
  | _ => false

/-- utilities/utility.c:465-470: whether a name is listed.  A directory is looked for in the working directory, not in the one that
is listed. -/
def listedName (env : ExpandEnv) (pattern name : List Byte) : Res Bool :=
  if env.directory name then .ok true else globExpression name pattern false

/-- utilities/utility.c:496-499: how a name is listed. -/
def listedAs (env : ExpandEnv) (name : List Byte) : List Byte :=
  if env.directory name then cutPath (name ++ [asc '/']) else name

/-- utilities/utility.c:460-502: the names that are listed. -/
def listEntries (env : ExpandEnv) (pattern : List Byte) : List (List Byte) → Res (List (List Byte))
  | [] => .ok []
  | name :: rest =>
    if name.head? = some (asc '.') then listEntries env pattern rest
    else do
      let hit ← listedName env pattern name
      let tail ← listEntries env pattern rest
      .ok (if hit then listedAs env name :: tail else tail)

/-- utilities/utility.c:415-513 `ListFiles`.  Which of two names that differ only in letter case comes first is left open by `qsort`;
here it is the one `readdir` gives first. -/
def listFiles (env : ExpandEnv) (directory pattern : List Byte) : Res (Option (List (List Byte))) :=
  match env.names directory with
  | none => .ok none
  | some names => do
    let files ← listEntries env pattern names
    .ok (some (files.mergeSort (fileCompare env)))

/-- utilities/utility.c:260-278: the names that go to the argument vector. -/
def transferFiles (env : ExpandEnv) (path : List Byte) (files : List (List Byte)) : List (List Byte) :=
  (files.map (fun file => cutPath (path ++ (if path = [] then [] else [asc '/']) ++ file))).filter env.regular

/-- utilities/utility.c:231-279: what stands for one argument. -/
def expandArgument (env : ExpandEnv) (option : List Byte) : Res (List (List Byte)) :=
  if option.head? = some (asc '"') ∨ option.head? = some (asc '\'') then .ok [option]
  else do
    let tail ← getPathComponent env.found option .tail env.memory
    if isGlob env (textOf tail) = false then .ok [option]
    else do
      let head ← getPathComponent env.found option .head env.memory
      let path := expandFilename env (textOf head)
      let list ← listFiles env (if path = [] then env.cwd else path) (textOf tail)
      match list with
      | none => .ok [option]
      | some files => if files.all env.directory then .ok [option] else .ok (transferFiles env path files)

/-- utilities/utility.c:211-280: the loop over the arguments. -/
def expandLoop (env : ExpandEnv) : Nat → List (List Byte) → Res (List (List Byte))
  | 0, _ => .fatal
  | _ + 1, [] => .ok []
  | fuel + 1, option :: rest => do
    let parameters ← parseOption env.fold commandOptions false env.token option
    let n := match parameters with
      | some v => v.toInt.toNat
      | none => 0
    if 0 < n then do
      let more ← expandLoop env fuel (rest.drop n)
      .ok (option :: rest.take n ++ more)
    else do
      let files ← expandArgument env option
      let more ← expandLoop env fuel rest
      .ok (files ++ more)

/-- utilities/utility.c:180-301 `ExpandFilenames`: the arguments afterwards. -/
def expandFilenames (env : ExpandEnv) (args : List (List Byte)) : Res (List (List Byte)) :=
  expandLoop env (args.length + 1) args

end Wizard

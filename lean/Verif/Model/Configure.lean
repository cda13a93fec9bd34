import Verif.Model.Xml
/-!
Model of the configuration: /repo/wizard/configure.c, and the lists of /repo/wizard/mime.c and /repo/wizard/locale.c.

Linked lists are lists (C15 to C18): entries are told apart by their pointers, and removing by value and inserting at 0 move an entry to the front. `fold` is
`tolower` of the locale, which `strcasecmp` and `LocaleCompare` use (C06); `glob` is `GlobExpression` (C10). Allocation succeeds. Files are given by what
`NewXMLTree` makes of them (C110).
-/
namespace Wizard

/-- configure.h `ConfigureInfo`, and what the lists read of `MimeInfo` and `LocaleInfo`: `name` is the name, the type and the tag. -/
structure CfgEntry where
  name : Option (List Byte)
  path : List Byte := []
  value : Option (List Byte) := none
  stealth : Bool := false
  deriving DecidableEq

/-! ### Looking up -/

/-- configure.c:353-358: the search; `strcasecmp` with NULL crashes. -/
def cfgFind (fold : Byte → Byte) (name : List Byte) : List CfgEntry → Res (Option CfgEntry)
  | [] => .ok none
  | e :: es =>
    match e.name with
    | none => .ub
    | some n => if name.map fold = n.map fold then .ok (some e) else cfgFind fold name es

/-- configure.c:333-367 `GetConfigureInfo`: the entry, whether there is a warning, and the cache afterwards. -/
def getConfigureInfo (fold : Byte → Byte) (name : Option (List Byte)) (cache : List CfgEntry) : Res (Option CfgEntry × Bool × List CfgEntry) :=
  match name with
  | none => .ok (cache.head?, false, cache)
  | some name =>
    if name.map fold = (ascText "*").map fold then .ok (cache.head?, false, cache)
    else do
      let p ← cfgFind fold name cache
      match p with
      | none => .ok (none, true, cache)
      | some e => .ok (some e, false, e :: cache.erase e)

/-- Calls of `GetConfigureInfo` one after the other: the cache afterwards. -/
def cfgLookups (fold : Byte → Byte) : List (Option (List Byte)) → List CfgEntry → Res (List CfgEntry)
  | [], cache => .ok cache
  | n :: ns, cache => do
    let r ← getConfigureInfo fold n cache
    cfgLookups fold ns r.2.2

/-! ### Listing -/

/-- configure.c:452-458 and 545-551, mime.c:473-479 and 565-571, locale.c:611-617 and 702-708: the entries that are listed. token.c:269-281: an empty
pattern and `*` match at once, otherwise the name is looked at (NULL: a crash). -/
def cfgSelect (glob : List Byte → List Byte → Bool) (pattern : List Byte) : List CfgEntry → Res (List CfgEntry)
  | [] => .ok []
  | e :: es => do
    let m ← (if e.stealth then .ok false
      else if pattern = [] ∨ pattern = ascText "*" then .ok true
      else match e.name with
        | none => .ub
        | some n => .ok (glob n pattern))
    let r ← cfgSelect glob pattern es
    .ok (if m then e :: r else r)

/-- `strcasecmp(x,y) <= 0` (`LocaleCompare(x,y) <= 0`). -/
def caseLe (fold : Byte → Byte) : List Byte → List Byte → Bool
  | [], _ => true
  | _ :: _, [] => false
  | a :: as, b :: bs => if fold a = fold b then caseLe fold as bs else decide ((fold a).toNat < (fold b).toNat)

/-- configure.c:514-557 `GetConfigureList` (with the comparison of 499-508); the list is NULL if there is no configuration. `ConstantString(NULL)` is
empty. `qsort` is that of the library. -/
def getConfigureList (glob : List Byte → List Byte → Bool) (qsort : List (List Byte) → List (List Byte)) (pattern : List Byte) (cache : List CfgEntry) : Res (Option (List (List Byte))) :=
  if cache = [] then .ok none
  else do
    let r ← cfgSelect glob pattern cache
    .ok (some (qsort (r.map fun e => e.name.getD [])))

/-- configure.c:403-414 (mime.c:424-435, locale.c:562-573): `ConfigureInfoCompare(x,y) <= 0`. -/
def cfgInfoLe (fold : Byte → Byte) (x y : CfgEntry) : Bool :=
  if x.path.map fold = y.path.map fold then caseLe fold (x.name.getD []) (y.name.getD []) else caseLe fold x.path y.path

/-- configure.c:420-464 `GetConfigureInfoList`, mime.c:441-485 `GetMimeInfoList` and locale.c:579-623 `GetLocaleInfoList`. Sorting entries without names
calls `strcasecmp` with NULL (a simplification: only if such an entry is compared with one of the same path). -/
def getConfigureInfoList (glob : List Byte → List Byte → Bool) (qsort : List CfgEntry → List CfgEntry) (pattern : List Byte) (cache : List CfgEntry) : Res (Option (List CfgEntry)) :=
  if cache = [] then .ok none
  else do
    let r ← cfgSelect glob pattern cache
    if 1 < r.length ∧ r.any (fun e => e.name.isNone) then .ub else .ok (some (qsort r))

/-- locale.c:674-714 `GetLocaleList`, for the entries in the order of their tags: the iterator is not reset at 701, and `GetLocaleInfo_` at 693 has taken the
first entry. -/
def getLocaleList (glob : List Byte → List Byte → Bool) (qsort : List (List Byte) → List (List Byte)) (pattern : List Byte) (cache : List CfgEntry) : Res (Option (List (List Byte))) :=
  if cache = [] then .ok none
  else do
    let r ← cfgSelect glob pattern (cache.drop 1)
    .ok (some (qsort (r.map fun e => e.name.getD [])))

/-- The bytes of an address in memory, up to the first that is zero (little-endian; addresses of a process have a zero byte). -/
def slotText (a : BitVec 64) : List Byte := ((List.range 8).map fun i => (a >>> (8 * i)).setWidth 8).takeWhile (· != 0)

/-- mime.c:521-530: `MimeCompare(x,y) <= 0`: the slots of the list, not the strings they point to, are compared. -/
def mimeSlotLe (fold : Byte → Byte) (x y : BitVec 64 × List Byte) : Bool := caseLe fold (slotText x.1) (slotText y.1)

/-- mime.c:536-577 `GetMimeList`; `addr` are the addresses `ConstantString` allocates at, one after the other. -/
def getMimeList (glob : List Byte → List Byte → Bool) (qsort : List (BitVec 64 × List Byte) → List (BitVec 64 × List Byte)) (addr : List (BitVec 64)) (pattern : List Byte) (cache : List CfgEntry) :
    Res (Option (List (List Byte))) :=
  if cache = [] then .ok none
  else do
    let r ← cfgSelect glob pattern cache
    .ok (some ((qsort (addr.zip (r.map fun e => e.name.getD []))).map (·.2)))

/-! ### Where files are looked for -/

/-- `CopyWizardString`, `ConcatenateWizardString` and `FormatLocaleString` into a buffer of `WizardPathExtent` (4096) bytes. -/
def pathCut (s : List Byte) : List Byte := s.take 4095

/-- configure.c:714-717: a separator at the end. -/
def withSlash (path : List Byte) : List Byte :=
  if path ≠ [] ∧ path.getLast? ≠ some (asc '/') then pathCut (path ++ [asc '/']) else path

/-- configure.c:708-720: the directories of `WIZARD_CONFIGURE_PATH`. -/
def cfgDirs (s : List Byte) : List (List Byte) :=
  withSlash ((pathCut s).takeWhile (· != asc ':')) ::
    (match h : s.dropWhile (· != asc ':') with
     | [] => []
     | _ :: r =>
       have : r.length < s.length := by
         have := (List.dropWhile_suffix (· != asc ':') (l := s)).length_le
         rw [h] at this; simp at this; omega
       cfgDirs r)
termination_by s.length

/-- The variables of the environment that are used: `WIZARD_CONFIGURE_PATH`, the first that is set of `XDG_CONFIG_HOME`, `LOCALAPPDATA`, `APPDATA` and
`USERPROFILE` (configure.c:828-834), and `HOME`. -/
structure CfgEnv where
  configurePath : Option (List Byte) := none
  xdgConfigHome : Option (List Byte) := none
  home : Option (List Byte) := none

/-- configure.c:675-883 `GetConfigurePaths` on POSIX systems; `installed` are the directories of 724-823, which depend on how the library was built. -/
def getConfigurePaths (env : CfgEnv) (installed : List (List Byte)) (filename : List Byte) : List (List Byte) :=
  (match env.configurePath with | none => [] | some s => cfgDirs s) ++ installed ++
  (match env.xdgConfigHome with | none => [] | some h => [pathCut (h ++ ascText "/WizardsToolkit/" ++ filename)]) ++
  (match env.home with | none => [] | some h => [pathCut (h ++ ascText "/.config/WizardsToolkit/")])

/-- configure.c:585-647 `GetConfigureOptions`: the files that were found, and their contents. `fs` says what can be read. -/
def getConfigureOptions {α : Type} (fs : List Byte → Option α) (env : CfgEnv) (installed : List (List Byte)) (filename : List Byte) : List (List Byte × α) :=
  (getConfigurePaths env installed filename).filterMap fun d =>
    let path := pathCut (d ++ filename)
    (fs path).map fun x => (path, x)

/-! ### Loading -/

/-- What `NewXMLTree` makes of a file: the `file` attributes of its `<include>` elements, and its entries. -/
structure CfgDoc where
  includes : List (Option (List Byte))
  entries : List CfgEntry

/-- The directory of a path (`GetPathComponent(filename,HeadPath,path)`, C57): what is before the last separator. -/
def cfgHead (path : List Byte) : List Byte := ((path.reverse.dropWhile (· != asc '/')).drop 1).reverse

/-- configure.c:1113-1117: the path of an included file. -/
def cfgInclude (filename attr : List Byte) : List Byte :=
  let path := cfgHead filename
  let path := if path ≠ [] then pathCut (path ++ [asc '/']) else path
  pathCut (path ++ attr)

/-- mime.c:837-844: the path of an included file. -/
def mimeInclude (filename attr : List Byte) : List Byte :=
  let path := cfgHead filename
  let path := if path ≠ [] then pathCut (path ++ [asc '/']) else path
  if attr.head? = some (asc '/') then pathCut attr else pathCut (path ++ attr)

mutual
/-- configure.c:1066-1160 `LoadConfigureCache` (mime.c:790-971 `LoadMimeCache`) of a file whose text is `doc`; `n` is 201 less the depth. -/
def loadCfg (resolve : List Byte → List Byte → List Byte) (fs : List Byte → Option CfgDoc) (n : Nat) (filename : List Byte) (doc : CfgDoc) (cache : List CfgEntry) : List CfgEntry :=
  loadIncludes resolve fs n filename doc.includes cache ++ doc.entries.map fun e => { e with path := filename }
termination_by (n, doc.includes.length + 1)

/-- configure.c:1095-1125: the `<include>` elements; files that cannot be read or parsed add nothing. -/
def loadIncludes (resolve : List Byte → List Byte → List Byte) (fs : List Byte → Option CfgDoc) (n : Nat) (filename : List Byte) (includes : List (Option (List Byte))) (cache : List CfgEntry) : List CfgEntry :=
  match includes with
  | [] => cache
  | none :: is => loadIncludes resolve fs n filename is cache
  | some a :: is =>
    match n with
    | 0 => loadIncludes resolve fs 0 filename is cache
    | m + 1 =>
      let path := resolve filename a
      match fs path with
      | none => loadIncludes resolve fs (m + 1) filename is cache
      | some d => loadIncludes resolve fs (m + 1) filename is (loadCfg resolve fs m path d cache)
termination_by (n, includes.length)
end

/-- configure.c:122-191 `AcquireConfigureCache`: the built-in entries (76-80) and those of the files that were found. -/
def acquireConfigureCache (fs : List Byte → Option CfgDoc) (env : CfgEnv) (installed : List (List Byte)) : List CfgEntry :=
  (getConfigureOptions fs env installed (ascText "configure.xml")).foldl (fun cache f => loadCfg cfgInclude fs 201 f.1 f.2 cache)
    [⟨some (ascText "NAME"), ascText "[built-in]", some (ascText "ImageMagick"), false⟩]

end Wizard

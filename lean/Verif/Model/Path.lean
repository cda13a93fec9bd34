import Verif.Model.StringOps
import Verif.Model.StringInfo
import Verif.Model.Option
/-! The path functions of wizard/utility.c on a system whose directory separator is `/` (studio.h:242).  A path is given by its bytes
without the NUL; a component is written into memory that the caller provides. -/
namespace Wizard

/-- utility.h:24-36. -/
inductive PathType where
  | undefined | filesystem | root | head | tail | base | extension | canonical | subnode
  deriving DecidableEq, Repr

/-- studio.h:242 `IsBasenameSeparator`. -/
def isSeparator (c : Byte) : Bool := c == asc '/'

/-- The loops `for ( ; p > component; p--) if (...) break;`: the position where they end. -/
def backTo (stop : Byte → Bool) (mem : List Byte) : Nat → Res Nat
  | 0 => .ok 0
  | p + 1 => do
    let c ← rd mem (p + 1)
    if stop c then .ok (p + 1) else backTo stop mem p

/-- utility.c:451-452: `for (q=component; *q != '\0'; q++) *q=(*++p);` with `p` at `k`: `n` bytes are read behind `k`, each before it
is overwritten. -/
def shiftPath (mem : List Byte) (k : Nat) : Res (List Byte) := do
  let n ← strlenMem mem
  let b ← rdN mem (k + 1) n
  wrN mem 0 b

/-- utility.c:438-454: the filesystem before a colon; the second part of the result is its text.  `found` says which paths `stat` knows
(`IsDirectory` is negative exactly when `stat` fails on a path that is not empty, utility.c:872-876; `IsPathAcessible` is then false). -/
def splitFilesystem (found : List Byte → Bool) (path mem : List Byte) : Res (List Byte × List Byte) := do
  match ← strchrMem (asc ':') mem with
  | none => .ok (mem, [])
  | some k =>
    if found path then .ok (mem, [])
    else do
      let r ← copyWizardString (List.replicate wizardPathExtent 0) mem (k + 1)
      let f := textOf r.1
      if f ≠ [] ∧ found f = false then .ok (mem, [])
      else do
        let mem ← shiftPath mem k
        .ok (mem, f)

/-- utility.c:467-472: the subnode between `[` at `q` and `]` at `p`. -/
def cutSubnode (mem : List Byte) (p q : Nat) : Res (List Byte × List Byte) := do
  let e ← rd mem q
  if e = asc '[' then do
    let r ← copyWizardString (List.replicate wizardPathExtent 0) (mem.drop (q + 1)) wizardPathExtent
    let sub ← wr r.1 (p - q - 1) 0
    let mem ← wr mem q 0
    .ok (mem, textOf sub)
  else .ok (mem, [])

/-- utility.c:455-473: the subnode at the end of a path. -/
def splitSubnode (mem : List Byte) : Res (List Byte × List Byte) := do
  let n ← strlenMem mem
  let p := n - 1
  let c ← rd mem p
  let open_ ← strchrMem (asc '[') mem
  if c = asc ']' ∧ open_ ≠ none then do
    let q ← backTo (· == asc '[') mem (p - 1)
    cutSubnode mem p q
  else .ok (mem, [])

/-- utility.c:474-478: the last separator, or the start. -/
def lastSeparator (mem : List Byte) : Res Nat := do
  let n ← strlenMem mem
  backTo isSeparator mem (n - 1)

/-- utility.c:486-498.  For an empty text the pointer is before the buffer when it is read. -/
def rootPath (mem : List Byte) : Res (List Byte) := do
  let n ← strlenMem mem
  if n = 0 then .ub
  else do
    let p ← backTo (fun c => isSeparator c || c == asc '.') mem (n - 1)
    let c ← rd mem p
    if c = asc '.' then wr mem p 0 else .ok mem

/-- utility.c:513-514, 525-526: the name behind the separator.  Every byte is read before it is overwritten. -/
def nameOnly (mem : List Byte) (p : Nat) : Res (List Byte) := do
  let c ← rd mem p
  if isSeparator c then do
    let r ← copyWizardString mem (mem.drop (p + 1)) wizardPathExtent
    .ok r.1
  else .ok mem

/-- utility.c:504-510. -/
def tailPath (mem : List Byte) (p : Nat) : Res (List Byte) := do
  let c ← rd mem p
  if isSeparator c then do
    let n ← strlenMem (mem.drop (p + 1))
    let b ← rdN mem (p + 1) (n + 1)
    wrN mem 0 b
  else .ok mem

/-- utility.c:511-522. -/
def basePath (mem : List Byte) (p : Nat) : Res (List Byte) := do
  let mem ← nameOnly mem p
  let n ← strlenMem mem
  let q ← backTo (· == asc '.') mem (n - 1)
  if q = 0 then .ok mem else wr mem q 0

/-- utility.c:535-537. -/
def cutQuery (mem : List Byte) : Res (List Byte) := do
  match ← strchrMem (asc '?') mem with
  | none => .ok mem
  | some k => wr mem k 0

/-- utility.c:523-539.  The first byte is overwritten before the byte at `q` is looked at. -/
def extensionPath (mem : List Byte) (p : Nat) : Res (List Byte) := do
  let mem ← nameOnly mem p
  let n ← strlenMem mem
  let q ← backTo (· == asc '.') mem (n - 1)
  let mem ← wr mem 0 0
  let c ← rd mem q
  if c = asc '.' then do
    let r ← copyWizardString mem (mem.drop (q + 1)) wizardPathExtent
    cutQuery r.1
  else cutQuery mem

/-- utility.c:483 and 542: a text from another buffer. -/
def putText (mem s : List Byte) : Res (List Byte) := do
  let r ← copyWizardString mem (s ++ [0]) wizardPathExtent
  .ok r.1

/-- utility.c:479-548. -/
def selectPath (type : PathType) (mem fs sub : List Byte) (p : Nat) : Res (List Byte) :=
  match type with
  | .filesystem => putText mem fs
  | .root => rootPath mem
  | .head => wr mem p 0
  | .tail => tailPath mem p
  | .base => basePath mem p
  | .extension => extensionPath mem p
  | .subnode => putText mem sub
  | .canonical => .ok mem
  | .undefined => .ok mem

/-- utility.c:415-549 `GetPathComponent`: the memory of the component afterwards.  If the path lies in that memory, `path` is its text. -/
def getPathComponent (found : List Byte → Bool) (path : List Byte) (type : PathType) (mem : List Byte) : Res (List Byte) :=
  if path = [] then wr mem 0 0
  else do
    let r ← copyWizardString mem (path ++ [0]) wizardPathExtent
    let f ← splitFilesystem found path r.1
    let s ← splitSubnode f.1
    let p ← lastSeparator s.1
    selectPath type s.1 f.2 s.2 p

/-- utility.c:378-385 `ChopPathComponents`: the text of the path afterwards. -/
def chopPathComponents (found : List Byte → Bool) : Nat → List Byte → Res (List Byte)
  | 0, mem => .ok mem
  | n + 1, mem => do
    let mem ← getPathComponent found (textOf mem) .head mem
    chopPathComponents found n mem

/-- utility.c:94-108 `AppendFileExtension`: the memory of the file name afterwards; `junk` is what is in `root`. -/
def appendFileExtension (found : List Byte → Bool) (junk ext filename : List Byte) : Res (List Byte) := do
  let c ← rd filename 0
  if ext = [] ∨ c = 0 then .ok filename
  else do
    let root ← getPathComponent found (textOf filename) .root junk
    let r ← copyWizardString filename root wizardPathExtent
    let r ← concatenateWizardString r.1 [asc '.', 0] wizardPathExtent
    let r ← concatenateWizardString r.1 (ext ++ [0]) wizardPathExtent
    .ok r.1

/-- utility.c:594-596: the number of components. -/
def countComponents : List Byte → Nat
  | [] => 1
  | c :: s => (if isSeparator c then 1 else 0) + countComponents s

/-- utility.c:602-613: one component after the other; `p` is the rest of the path, with its NUL.  The memory of a component has
`q-p+WizardPathExtent` bytes. -/
def collectComponents : Nat → List Byte → Res (List (List Byte))
  | 0, _ => .ok []
  | n + 1, p => do
    let m ← strlenMem p
    let q := ((p.take m).takeWhile (fun c => !isSeparator c)).length
    let r ← copyWizardString (List.replicate (q + wizardPathExtent) 0) p (q + 1)
    let rest ← collectComponents n (p.drop (q + 1))
    .ok (textOf r.1 :: rest)

/-- utility.c:576-616 `GetPathComponents`. -/
def getPathComponents (path : List Byte) : Res (List (List Byte)) := collectComponents (countComponents path) (path ++ [0])

end Wizard

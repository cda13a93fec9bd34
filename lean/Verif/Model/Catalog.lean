import Verif.Model.Token
import Verif.Model.Xml
/-!
Model of the message catalogs of /repo/wizard/locale.c: `LoadLocaleCache`, `ChopLocaleComponents` and `GetLocaleMessage`.

Strings are the bytes before their NUL. `CopyWizardString` and `ConcatenateWizardString` into the buffers of `WizardLocaleExtent` bytes are the
functions C05 proves them to be. `LocaleCompare` and `LocaleNCompare` fold as `strcasecmp` does in the "C" locale and are zero exactly if the folded
strings (or their first n bytes) are equal (C06). The splay tree of messages is the list of the pairs added to it: looking a tag up finds the
value added last whose tag is the same to `LocaleCompare` (C19). Allocation succeeds. The element `<include>` loads other files; what it does with the
name of a file (locale.c 1240-1266) is the parameter `incl`.
-/
namespace Wizard

/-- locale_.h:28. -/
def wizardLocaleExtent : Nat := 256

/-- `LocaleCompare(a,b) == 0`. -/
def lcEq (a b : List Byte) : Bool := a.map cLocaleLower == b.map cLocaleLower

/-- `LocaleNCompare(a,b,n) == 0`. -/
def lcEqN (a b : List Byte) (n : Nat) : Bool := (a.take n).map cLocaleLower == (b.take n).map cLocaleLower

/-- `CopyWizardString` into a buffer of `WizardLocaleExtent` bytes. -/
def locCopy (s : List Byte) : List Byte := s.take (wizardLocaleExtent - 1)

/-- `ConcatenateWizardString` into a buffer of `WizardLocaleExtent` bytes. -/
def locCat (a b : List Byte) : List Byte := (a ++ b).take (wizardLocaleExtent - 1)

/-- The part of a path before its last `/` that is not its first byte. -/
def cutLast (s : List Byte) : Option (List Byte) :=
  match s.reverse.dropWhile (· != asc '/') with
  | _ :: b :: r => some (b :: r).reverse
  | _ => none

/-- locale.c:1116-1123: the loop that cuts at each `/` and empties the path if there are too few. -/
def chopLoop : Nat → List Byte → List Byte
  | 0, s => s
  | n + 1, s =>
    match cutLast s with
    | none => []
    | some t => chopLoop n t

/-- locale.c:1103-1124 `ChopLocaleComponents`. -/
def chopLocale (s : List Byte) (n : Nat) : List Byte :=
  if s = [] then []
  else chopLoop n (if s.getLast? = some (asc '/') then s.dropLast else s)

/-- The messages: tags and texts, in the order they were added. -/
abbrev LocCache := List (List Byte × List Byte)

/-- The variables of `LoadLocaleCache` that outlive an element. -/
structure LocState where
  q : List Byte
  tag : List Byte
  cache : LocCache

section
variable (number : List Byte → Nat) (extent : Nat)

/-- `GetNextToken(q,&q,extent,token)` with the buffer of locale.c:1183-1184. -/
def locToken (q : List Byte) : Res (List Byte × List Byte) := getNextToken cLocaleLower number extent extent q

/-- locale.c:1199-1204 and 1212-1217: skip tokens until the text begins with `stop`. The fuel bounds the turns. -/
def locSkip (stop : List Byte) : Nat → List Byte → Res (List Byte)
  | 0, _ => .fatal
  | fuel + 1, q =>
    if lcEqN q stop 2 = false ∧ q ≠ [] then do
      let (q, _) ← locToken number extent q
      locSkip stop fuel (q.dropWhile isSpace)
    else .ok q

/-- locale.c:1225-1268: the attributes of `<include`. -/
def locInclude (incl : List Byte → LocCache → Res LocCache) (locale : List Byte) : Nat → List Byte → List Byte → LocCache → Res (List Byte × LocCache)
  | 0, _, _, _ => .fatal
  | fuel + 1, token, q, cache =>
    if peek token ≠ asc '/' ∧ peek (token.drop 1) ≠ asc '>' ∧ q ≠ [] then do
      let keyword := locCopy token
      let (q, token) ← locToken number extent q
      if peek token ≠ asc '=' then locInclude incl locale fuel token q cache
      else do
        let (q, token) ← locToken number extent q
        if lcEq keyword (ascText "locale") then
          (if lcEq locale token = false then .ok (q, cache) else locInclude incl locale fuel token q cache)
        else if lcEq keyword (ascText "file") then do
          let cache ← incl token cache
          locInclude incl locale fuel token q cache
        else locInclude incl locale fuel token q cache
    else .ok (q, cache)

/-- locale.c:1276-1283: the attributes of `<locale`. -/
def locAttrs : Nat → List Byte → List Byte → Res (List Byte)
  | 0, _, _ => .fatal
  | fuel + 1, token, q =>
    if peek token ≠ asc '>' ∧ q ≠ [] then do
      let (q, token) ← locToken number extent q
      if peek token ≠ asc '=' then locAttrs fuel token q
      else do
        let (q, token) ← locToken number extent q
        locAttrs fuel token q
    else .ok q

/-- locale.c:1301-1313: the attributes of `<message`; the name is appended to the tag. -/
def locMessage : Nat → List Byte → List Byte → List Byte → Res (List Byte × List Byte)
  | 0, _, _, _ => .fatal
  | fuel + 1, token, q, tag =>
    if peek token ≠ asc '>' ∧ q ≠ [] then do
      let keyword := locCopy token
      let (q, token) ← locToken number extent q
      if peek token ≠ asc '=' then locMessage fuel token q tag
      else do
        let (q, token) ← locToken number extent q
        if lcEq keyword (ascText "name") then locMessage fuel token q (locCat (locCat tag token) (ascText "/"))
        else locMessage fuel token q tag
    else .ok (q, tag)

/-- A text without the white space at its end. -/
def dropEndSpace (s : List Byte) : List Byte := (s.reverse.dropWhile isSpace).reverse

/-- locale.c:1314-1320, 1336: the text of a message up to the next `<`, trimmed, and where reading goes on: behind the trimmed text, or at the `<`
if there is none. -/
def locText (q : List Byte) : List Byte × List Byte :=
  let p := (q.takeWhile (· != asc '<')).dropWhile isSpace
  let body := dropEndSpace p
  (body.take (wizardLocaleExtent - 1), p.drop body.length ++ q.dropWhile (· != asc '<'))

/-- locale.c:1185-1368: the loop. The fuel bounds its turns. -/
def loadLoop (incl : List Byte → LocCache → Res LocCache) (locale : List Byte) : Nat → LocState → Res LocCache
  | 0, _ => .fatal
  | fuel + 1, st =>
    if st.q = [] then .ok st.cache
    else do
      let (q, token) ← locToken number extent st.q
      if token = [] then .ok st.cache
      else
        let keyword := locCopy token
        if lcEqN keyword (ascText "<!DOCTYPE") 9 then do
          let q ← locSkip number extent (ascText "]>") (q.length + 1) q
          loadLoop incl locale fuel { st with q := q }
        else if lcEqN keyword (ascText "<!--") 4 then do
          let q ← locSkip number extent (ascText "->") (q.length + 1) q
          loadLoop incl locale fuel { st with q := q }
        else if lcEq keyword (ascText "<include") then do
          let (q, cache) ← locInclude number extent incl locale (q.length + 1) token q st.cache
          loadLoop incl locale fuel { st with q := q, cache := cache }
        else if lcEq keyword (ascText "<locale") then do
          let q ← locAttrs number extent (q.length + 1) token q
          loadLoop incl locale fuel { st with q := q }
        else if lcEq keyword (ascText "</locale>") then
          loadLoop incl locale fuel { st with q := q, tag := locCat (chopLocale st.tag 1) (ascText "/") }
        else if lcEq keyword (ascText "<localemap>") then loadLoop incl locale fuel { st with q := q }
        else if lcEq keyword (ascText "</localemap>") then loadLoop incl locale fuel { st with q := q }
        else if lcEq keyword (ascText "<message") then do
          let (q, tag) ← locMessage number extent (q.length + 1) token q st.tag
          let t := locText q
          loadLoop incl locale fuel
            { st with q := t.2, tag := locCat (locCat tag t.1) (ascText "\n"), cache := st.cache ++ [(tag, t.1)] }
        else if lcEq keyword (ascText "</message>") then
          loadLoop incl locale fuel { st with q := q, tag := locCat (chopLocale st.tag 2) (ascText "/") }
        else if peek keyword = asc '<' then
          (if peek (keyword.drop 1) = asc '?' then loadLoop incl locale fuel { st with q := q }
           else if peek (keyword.drop 1) = asc '/' then
             let tag := chopLocale st.tag 1
             loadLoop incl locale fuel { st with q := q, tag := if tag ≠ [] then locCat tag (ascText "/") else tag }
           -- (for a token of one byte the code takes bytes an earlier token left in the buffer, the model takes none)
           else
             let name := locCopy (token.dropLast.drop 1)
             loadLoop incl locale fuel { st with q := q, tag := locCat (locCat st.tag name) (ascText "/") })
        else do
          -- locale.c:1365-1367: looks ahead, to no effect
          let _ ← locToken number extent q
          loadLoop incl locale fuel { st with q := q }

end

/-- locale.c:1142-1372 `LoadLocaleCache` of one text, given what `<include>` does. -/
def loadLocaleCache (number : List Byte → Nat) (incl : List Byte → LocCache → Res LocCache) (locale xml : List Byte) (cache : LocCache) : Res LocCache :=
  loadLoop number (xml.length + 4096) incl locale (xml.length + 1) ⟨xml, [], cache⟩

/-- locale.c:523: the message found for a tag. -/
def locLookup (cache : LocCache) (tag : List Byte) : Option (List Byte) :=
  (cache.reverse.find? (fun e => lcEq e.1 tag)).map (·.2)

/-- locale.c:739-759 `GetLocaleMessage`, for a tag that is not NULL (the tag `*` followed by `/` is no wild card, so 516 does not apply). -/
def getLocaleMessage (cache : LocCache) (tag : List Byte) : List Byte :=
  if tag = [] then tag
  else (locLookup cache (locCopy (tag ++ ascText "/"))).getD tag

end Wizard

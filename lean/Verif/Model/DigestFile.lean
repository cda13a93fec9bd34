import Verif.Model.Option
import Verif.Model.Xml
/-!
Model of the `digest` utility (/repo/utilities/digest.c): the file it writes, and what it does with such a file when told to authenticate.

A file that is read is the list of its bytes from the current one (`c`) on; at its end the list is empty and `c` is `EOF`. Character classes and the case of
letters are those of the "C" locale. What the files contain and which digests they have is given by the environment. Simplifications: the file that is read has
no bytes 0; allocation and writing succeed; what is behind the text of a key that is just `rdf:about` is empty; one digest file; the arguments are files.
-/
namespace Wizard

/-- `isgraph`, `isalnum` in the "C" locale. -/
def isGraphC (c : Byte) : Bool := decide (33 ≤ c.toNat) && decide (c.toNat ≤ 126)
/-- `isalnum` in the "C" locale. -/
def isAlnumC (c : Byte) : Bool := isAlphaC c || (decide (asc '0' ≤ c) && decide (c ≤ asc '9'))

/-- `while (isspace(c)) c=ReadBlobByte(blob)`. -/
def digestSkip (p : List Byte) : List Byte := p.dropWhile isSpace

/-- What is outside the utility: the content of files, the hexadecimal digest of a content for each hash, uninitialised memory, and the texts of dates and
lengths. -/
structure DigestEnv where
  files : List Byte → Option (List Byte)
  hex : BitVec 64 → List Byte → List Byte
  junk : List Byte
  heap : Nat → Byte
  now : List Byte → List Byte
  modified : List Byte → List Byte
  length : Nat → List Byte

/-- digest.c:139-148: what is known about the file that is described. -/
structure DigestState where
  path : List Byte
  digest : List Byte
  hash : BitVec 64
  timestamp : List Byte
  create : List Byte
  modify : List Byte
  deriving DecidableEq

/-- What authenticating says: that the digest of a file differs from the recorded one (435-471, the message has all this in it), or that a file cannot be opened
(414-417). -/
inductive DigestEvent where
  | changed (path create modify : List Byte) (hash : BitVec 64) (timestamp recorded actual : List Byte)
  | missing (path : List Byte)
  deriving DecidableEq

/-- How it ends: it is done, it never ends, or it has written outside `key`. -/
inductive DigestEnd where
  | done
  | forever
  | overrun
  deriving DecidableEq

/-- `StripString` of a text (C12: it always succeeds). -/
def stripText (s : List Byte) : List Byte :=
  match stripString (s ++ [0]) with
  | .ok m => m.takeWhile (· != 0)
  | _ => []

/-- `LocaleCompare(key,text) == 0` -/
def keyIs (key : List Byte) (text : String) : Bool := key.map cLocaleLower == (ascText text).map cLocaleLower

/-- `LocaleNCompare(key,text,strlen(text)) == 0` -/
def keyBegins (key : List Byte) (text : String) : Bool := (key.take (ascText text).length).map cLocaleLower == (ascText text).map cLocaleLower

/-- digest.c:337-481: what a key and a value do. -/
def digestInterpret (env : DigestEnv) (key value : List Byte) (s : DigestState) : DigestState × List DigestEvent :=
  if keyIs key "digest:create-date" then ({ s with create := stripText value }, [])
  else if keyIs key "digest:modify-date" then ({ s with modify := stripText value }, [])
  else if keyIs key "digest:timestamp" then ({ s with timestamp := stripText value }, [])
  else if keyBegins key "digest:" then
    match parseOption cLocaleLower hashOptions false env.junk (key.drop 7) with
    | .ok (some hash) => ({ s with hash := hash, digest := stripText value }, [])
    | _ => (s, [])
  else if keyBegins key "rdf:about" then
    ({ s with path := stripText (key.drop 10), digest := ascText "unknown", timestamp := ascText "timestamp", create := ascText "unknown", modify := ascText "unknown" }, [])
  else if keyIs key "/digest:Content" || keyIs key "/rdf:Description" then
    match env.files s.path with
    | none => (s, [.missing s.path])
    | some content =>
      if s.digest = env.hex s.hash content then (s, [])
      else (s, [.changed s.path s.create s.modify s.hash s.timestamp s.digest (env.hex s.hash content)])
  else (s, [])

/-- digest.c:306-331: a value, and what is behind it; `p` is what is behind the `>`. -/
def digestValue : List Byte → List Byte × List Byte
  | [] => ([], [])
  | c :: r => if c = asc '<' then ([], c :: r) else (c :: r.takeWhile (fun x => !isSpace x && x != asc '<'), r.dropWhile (fun x => !isSpace x && x != asc '<'))

/-- digest.c:286-333: a key and a value, and what is behind them. -/
def digestPair (p : List Byte) : List Byte × List Byte × List Byte :=
  let key := p.takeWhile (fun x => !isSpace x && x != asc '>')
  match digestSkip (p.dropWhile (fun x => !isSpace x && x != asc '>')) with
  | [] => (key, [], [])
  | c :: q => if c = asc '>' then (key, digestValue q) else (key, [], c :: q)

theorem dropWhile_le (f : Byte → Bool) (l : List Byte) : (l.dropWhile f).length ≤ l.length := (List.dropWhile_suffix f).length_le

theorem digestPair_lt {c : Byte} {r : List Byte} (h : (!isSpace c && c != asc '>') = true) : (digestSkip (digestPair (c :: r)).2.2).length < (c :: r).length := by
  refine Nat.lt_of_le_of_lt (dropWhile_le _ _) ?_
  unfold digestPair
  rw [List.dropWhile_cons, if_pos h]
  have h1 := dropWhile_le (fun x => !isSpace x && x != asc '>') r
  have h2 := dropWhile_le isSpace (r.dropWhile (fun x => !isSpace x && x != asc '>'))
  simp only []
  cases hs : digestSkip (r.dropWhile (fun x => !isSpace x && x != asc '>')) with
  | nil => simp
  | cons d q =>
    have h3 : (d :: q).length ≤ r.length := by rw [← hs]; unfold digestSkip; omega
    simp only []
    split
    · cases q with
      | nil => simp [digestValue]
      | cons e t =>
        by_cases he : e = asc '<'
        · simp only [digestValue, if_pos he, List.length_cons] at h3 ⊢; omega
        · have := dropWhile_le (fun x => !isSpace x && x != asc '<') t
          simp only [digestValue, if_neg he, List.length_cons] at h3 ⊢; omega
    · simp at h3 ⊢; omega

/-- digest.c:270-489: the loops over the file. The loop inside goes on while `c` is a graphic character but not `>` (274); then the file is closed, and the loop
outside ends if `c` is `>` or `EOF` (270). -/
def digestScan (env : DigestEnv) (s : DigestState) (p : List Byte) : List DigestEvent × DigestEnd :=
  match p with
  | [] => ([], .done)
  | c :: r =>
    if c = asc '>' then ([], .done)
    else if isGraphC c = false then ([], .forever)
    else if isAlnumC c = false ∧ c ≠ asc '/' then digestScan env s (digestSkip r)
    else if h : (!isSpace c && c != asc '>') = true then
      if 4096 ≤ (digestPair (c :: r)).1.length then ([], .overrun)
      else
        let (s', ev) := digestInterpret env (digestPair (c :: r)).1 (digestPair (c :: r)).2.1 s
        let (evs, e) := digestScan env s' (digestSkip (digestPair (c :: r)).2.2)
        (ev ++ evs, e)
    else ([], .forever)
termination_by p.length
decreasing_by
  · have := dropWhile_le isSpace r
    simp only [digestSkip, List.length_cons]
    omega
  · exact digestPair_lt h

/-- digest.c:264-269 -/
def digestStart : DigestState := ⟨ascText "unknown", ascText "unknown", 7, ascText "unknown", ascText "unknown", ascText "unknown"⟩

/-- digest.c:260-500: a digest file is authenticated. -/
def digestAuthenticate (env : DigestEnv) (file : List Byte) : List DigestEvent × DigestEnd := digestScan env digestStart file

/-- digest.c:756-758: the name of a hash in the file. -/
def digestHashName (hash : BitVec 64) : List Byte := (optionToMnemonic hashOptions hash).map cLocaleLower

/-- digest.c:588-592 -/
def digestHeader : List Byte :=
  ascText "<?xml version=\"1.0\"?>\n" ++ ascText "<rdf:RDF xmlns:rdf=\"http://www.w3.org/1999/02/22-rdf-syntax-ns#\"\n" ++
    ascText "         xmlns:digest=\"https://urban-warrior.org/WizardsToolkit/digest/1.0/\">\n"

/-- digest.c:733-770: what is written about a file; `xml` is its path as it is written. -/
def digestEntry (env : DigestEnv) (hash : BitVec 64) (path xml content : List Byte) : List Byte :=
  ascText "  <digest:Content rdf:about=\"" ++ xml ++ ascText "\">\n" ++
    (ascText "    <digest:timestamp>" ++ env.now path ++ ascText "</digest:timestamp>\n") ++
    (ascText "    <digest:modify-date>" ++ env.modified path ++ ascText "</digest:modify-date>\n") ++
    (ascText "    <digest:create-date>" ++ env.modified path ++ ascText "</digest:create-date>\n") ++
    (ascText "    <digest:extent>" ++ env.length content.length ++ ascText "</digest:extent>\n") ++
    (ascText "    <digest:" ++ digestHashName hash ++ ascText ">" ++ env.hex hash content ++ ascText "</digest:" ++ digestHashName hash ++ ascText ">\n") ++
    ascText "  </digest:Content>\n"

/-- digest.c:593-781: what is written about files; those that cannot be opened are left out (715-716). -/
def digestEntries (env : DigestEnv) (hash : BitVec 64) : List (List Byte) → Res (List Byte)
  | [] => .ok []
  | path :: paths =>
    match env.files path with
    | none => digestEntries env hash paths
    | some content => do
      let xml ← canonicalXMLContent env.heap path false
      let rest ← digestEntries env hash paths
      .ok (digestEntry env hash path xml content ++ rest)

/-- digest.c:510-791 `DigestCommand`: the file that is written. -/
def digestCommand (env : DigestEnv) (hash : BitVec 64) (paths : List (List Byte)) : Res (List Byte) := do
  let entries ← digestEntries env hash paths
  .ok (digestHeader ++ entries ++ ascText "</rdf:RDF>\n")

/-- digest.c:174, 501-507 and 852-876: `AuthenticateDigest` returns False whatever it finds; `WizardMain` takes that for success unless there is an exception that
is an error or warnings count (`-regard-warnings`). A file that cannot be opened is an error (blob.c:1247-1253). What the program returns to the system. -/
def digestExit (events : List DigestEvent) (regardWarnings : Bool) : Nat :=
  let error := events.any fun e => match e with | .missing _ => true | .changed .. => false
  if error = false ∧ regardWarnings = false then 0 else 1

/-- digest.c:423-432 and 721-731: the content of a file is read in pieces and hashed; `reads` is what the calls of `ReadBlobChunk` deliver, 8192 bytes at most each,
and `room` is the size of the memory they read into: `MaxCipherBlocksize` (128) bytes more than the length of `content`, which is set to that of the piece
(string.c:1865-1881). What is hashed, or `none` if more is read than there is room for. -/
def digestRead : Nat → List (List Byte) → List Byte → Option (List Byte)
  | _, [], got => some got
  | room, piece :: reads, got =>
    if piece = [] then some got
    else if room < piece.length then none
    else digestRead (piece.length + 128) reads (got ++ piece)

end Wizard

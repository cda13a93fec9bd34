import Verif.Model.DigestFile
import Verif.Model.XmlParse
/-!
Model of the packet in which `encipher` records its settings before the enciphered content (/repo/utilities/encipher.c), and of how `decipher` reads it
(/repo/utilities/content.c).

A file that is read is the list of its bytes from the current one (`c`) on; at its end the list is empty and `c` is `EOF`. Character classes and the case of
letters are those of the "C" locale. Simplifications: allocation succeeds below 2^63 bytes; `ReadBlob` delivers all bytes there are; `double`s hold integers below
2^53 exactly; dates are texts, which are written but not read (C129, C130), and the protocol is 1.0.
-/
namespace Wizard

/-- utilities/content.h:28-98 `ContentInfo`: the settings that are recorded. -/
structure Settings where
  cipher : BitVec 64
  mode : BitVec 64
  nonce : List Byte
  authenticate : BitVec 64
  id : List Byte
  keyHash : BitVec 64
  keyLength : BitVec 32
  entropy : BitVec 64
  level : BitVec 32
  hmac : BitVec 64
  chunksize : Nat
  version : List Byte
  deriving DecidableEq

/-- What is outside: the hexadecimal SHA-256 of a text, uninitialised memory, the XML reader's memory, and the texts of dates. -/
structure PacketEnv where
  hex : List Byte → List Byte
  heap : Nat → Byte
  junk : List Byte
  xml : XmlEnv
  modify : List Byte
  create : List Byte
  timestamp : List Byte

/-- A digit. -/
def decDigit (n : Nat) : Byte := BitVec.ofNat 8 (48 + n)

/-- `%u`, and `%.20g` of an integer. -/
def decText (n : Nat) : List Byte := if n < 10 then [decDigit n] else decText (n / 10) ++ [decDigit (n % 10)]
termination_by n

/-- A formatted text in `message`: it is cut at `WizardPathExtent`. -/
def inMessage (s : List Byte) : List Byte := s.take (wizardPathExtent - 1)

/-- encipher.c:710-769: what is recorded. -/
def packetFields (env : PacketEnv) (s : Settings) : List (List Byte × List Byte) :=
  [(ascText "type", optionToMnemonic cipherOptions s.cipher),
   (ascText "mode", optionToMnemonic modeOptions s.mode),
   (ascText "nonce", s.nonce),
   (ascText "authenticate", optionToMnemonic authenticateOptions s.authenticate),
   (ascText "id", s.id),
   (ascText "key-hash", optionToMnemonic hashOptions s.keyHash),
   (ascText "key-length", decText s.keyLength.toNat),
   (ascText "entropy", optionToMnemonic entropyOptions s.entropy),
   (ascText "level", decText s.level.toNat),
   (ascText "hmac", optionToMnemonic hashOptions s.hmac),
   (ascText "chunksize", decText s.chunksize),
   (ascText "modify-date", env.modify),
   (ascText "create-date", env.create),
   (ascText "timestamp", env.timestamp),
   (ascText "protocol", ascText "1.0"),
   (ascText "version", s.version)]

/-- encipher.c:710-769: a line. -/
def packetLine (field : List Byte × List Byte) : List Byte :=
  inMessage (ascText "    <cipher:" ++ field.1 ++ ascText ">" ++ field.2 ++ ascText "</cipher:" ++ field.1 ++ ascText ">\n")

/-- encipher.c:703-771: the settings, and the name of the file. -/
def packetRdf (env : PacketEnv) (s : Settings) (name : List Byte) : List Byte :=
  ascText "<rdf:RDF xmlns:rdf=\"http://www.w3.org/1999/02/22-rdf-syntax-ns#\"\n" ++
    ascText "         xmlns:cipher=\"https://urban-warrior.org/WizardsToolkit/cipher/1.0/\">\n" ++
    (ascText "  <cipher:Content rdf:about=\"" ++ name ++ ascText "\">\n") ++ (packetFields env s).flatMap packetLine ++
    ascText "  </cipher:Content>\n" ++ ascText "</rdf:RDF>\n"

/-- encipher.c:775-792: the packet. -/
def cipherPacket (env : PacketEnv) (s : Settings) (name : List Byte) : List Byte :=
  inMessage (ascText "<?cipherpacket digest=\"" ++ env.hex (packetRdf env s name) ++ ascText "\" bytes=\"" ++ decText ((packetRdf env s name).length % 2 ^ 32) ++
      ascText "\"?>\n") ++
    packetRdf env s name ++ ascText "<?cipherpacket?>" ++ [12, 10]

/-- What is found at the start of a packet. -/
structure PacketHead where
  bytes : Nat
  digest : Option (List Byte)
  deriving DecidableEq

/-- A text in memory ends at its first NUL. -/
def cText (s : List Byte) : List Byte := s.takeWhile (· != 0)

/-- content.c:303-329: what a key and a value do. -/
def packetInterpret (key value : List Byte) (h : PacketHead) : PacketHead :=
  if keyIs (cText key) "bytes" then { h with bytes := (BitVec.ofInt 64 (strtolC 10 (stripText (cText value))).1).toNat }
  else if keyIs (cText key) "digest" then { h with digest := some (stripText (cText value)) }
  else h

/-- content.c:272-297: a value, and what is behind it; `p` is what is behind the `=`. -/
def packetValue : List Byte → List Byte × List Byte
  | [] => ([], [])
  | c :: r => if c = asc '?' then ([], c :: r) else (c :: r.takeWhile (fun x => !isSpace x && x != asc '?'), r.dropWhile (fun x => !isSpace x && x != asc '?'))

/-- content.c:252-299: a key and a value, and what is behind them. -/
def packetPair (p : List Byte) : List Byte × List Byte × List Byte :=
  let key := p.takeWhile (fun x => !isSpace x && x != asc '=')
  match digestSkip (p.dropWhile (fun x => !isSpace x && x != asc '=')) with
  | [] => (key, [], [])
  | c :: q => if c = asc '=' then (key, packetValue q) else (key, [], c :: q)

theorem packetPair_lt {c : Byte} {r : List Byte} (h : (!isSpace c && c != asc '=') = true) : (digestSkip (packetPair (c :: r)).2.2).length < (c :: r).length := by
  refine Nat.lt_of_le_of_lt (dropWhile_le _ _) ?_
  unfold packetPair
  rw [List.dropWhile_cons, if_pos h]
  have h1 := dropWhile_le (fun x => !isSpace x && x != asc '=') r
  have h2 := dropWhile_le isSpace (r.dropWhile (fun x => !isSpace x && x != asc '='))
  simp only []
  cases hs : digestSkip (r.dropWhile (fun x => !isSpace x && x != asc '=')) with
  | nil => simp
  | cons d q =>
    have h3 : (d :: q).length ≤ r.length := by rw [← hs]; unfold digestSkip; omega
    simp only []
    split
    · cases q with
      | nil => simp [packetValue]
      | cons e t =>
        by_cases he : e = asc '?'
        · simp only [packetValue, if_pos he, List.length_cons] at h3 ⊢; omega
        · have := dropWhile_le (fun x => !isSpace x && x != asc '?') t
          simp only [packetValue, if_neg he, List.length_cons] at h3 ⊢; omega
    · simp at h3 ⊢; omega

/-- How the start of a packet is left: with what is behind its `>` (or nothing at the end of the file); never; or having written outside `key`. -/
inductive PacketScan where
  | head (h : PacketHead) (rest : List Byte)
  | forever
  | overrun
  deriving DecidableEq

/-- content.c:236-335: the loops over the start of the packet. The loop inside goes on while `c` is a graphic character but not `>` (240); the loop outside ends if `c`
is `>` or `EOF` (236). A key of `WizardPathExtent` characters or more is cut, but its NUL is written behind `key` (259-263). -/
def packetScan (h : PacketHead) (p : List Byte) : PacketScan :=
  match p with
  | [] => .head h []
  | c :: r =>
    if c = asc '>' then .head h r
    else if isGraphC c = false then .forever
    else if isAlnumC c = false then packetScan h (digestSkip r)
    else if _hk : (!isSpace c && c != asc '=') = true then
      if wizardPathExtent ≤ (packetPair (c :: r)).1.length then .overrun
      else packetScan (packetInterpret (packetPair (c :: r)).1 (packetPair (c :: r)).2.1 h) (digestSkip (packetPair (c :: r)).2.2)
    else .forever
termination_by p.length
decreasing_by
  · have := dropWhile_le isSpace r
    simp only [digestSkip, List.length_cons]
    omega
  · exact packetPair_lt _hk

/-- content.c:394-581: the settings there are. -/
inductive PacketField where
  | authenticate | chunksize | entropy | hmac | id | keyHash | keyLength | level | mode | nonce | type | version | other
  deriving DecidableEq

/-- content.c:393-581: which setting a tag is, behind its prefix. `session` is an old name (541). Dates and hashes of random numbers are others. -/
def packetField (tag : List Byte) : PacketField :=
  if tag = ascText "authenticate" then .authenticate
  else if tag = ascText "chunksize" then .chunksize
  else if tag = ascText "entropy" then .entropy
  else if tag = ascText "hmac" then .hmac
  else if tag = ascText "id" ∨ tag = ascText "session" then .id
  else if tag = ascText "key-hash" then .keyHash
  else if tag = ascText "key-length" then .keyLength
  else if tag = ascText "level" then .level
  else if tag = ascText "mode" then .mode
  else if tag = ascText "nonce" then .nonce
  else if tag = ascText "type" then .type
  else if tag = ascText "version" then .version
  else .other

/-- `ParseWizardOption`, as it is used in content.c: -1 and an exception if it is not an option. -/
def packetOption (env : PacketEnv) (table : List OptionInfo) (content : List Byte) : Res (BitVec 64 × Bool) := do
  match ← parseOption cLocaleLower table false env.junk content with
  | some v => .ok (v, false)
  | none => .ok (-1, true)

/-- content.c:394-581: what a setting does; and whether an exception is thrown. Numbers that are not written as digits (signs, fractions, exponents) are
not modelled: they are read as what their digits at the start, if any, say. -/
def packetSet (env : PacketEnv) (field : PacketField) (content : List Byte) (s : Settings) : Res (Settings × Bool) :=
  match field with
  | .authenticate => do let v ← packetOption env authenticateOptions content; .ok ({ s with authenticate := v.1 }, v.2)
  | .chunksize => .ok ({ s with chunksize := (strtolC 10 content).1.toNat % 2 ^ 32 }, false)
  | .entropy => do let v ← packetOption env entropyOptions content; .ok ({ s with entropy := v.1 }, v.2)
  | .hmac => do let v ← packetOption env hashOptions content; .ok ({ s with hmac := v.1 }, v.2)
  | .id => .ok ({ s with id := content }, false)
  | .keyHash => do let v ← packetOption env hashOptions content; .ok ({ s with keyHash := v.1 }, v.2)
  | .keyLength => .ok ({ s with keyLength := BitVec.ofNat 32 (strtolC 10 content).1.toNat }, false)
  | .level => do let v ← packetOption env entropyLevelOptions content; .ok ({ s with level := v.1.setWidth 32 }, v.2)
  | .mode => do let v ← packetOption env modeOptions content; .ok ({ s with mode := v.1 }, v.2)
  | .nonce => .ok ({ s with nonce := content }, false)
  | .type => do let v ← packetOption env cipherOptions content; .ok ({ s with cipher := v.1 }, v.2)
  | .version => .ok ({ s with version := content }, false)
  | .other => .ok (s, false)

/-- xml-tree.c:927-941 `GetXMLTreeChild` with a tag (see C54, C90): the children of the first child with this tag. -/
def kidNamed (tag : List Byte) : XmlKids → Option XmlKids
  | .nil => none
  | .cons t _ _ _ k r => if t = tag then some k else kidNamed tag r

/-- xml-tree.c:1152-1159 `GetXMLTreeSibling` in a loop visits the first child of each tag (see C82): the tags and contents. -/
def kidFirsts (seen : List (List Byte)) : XmlKids → List (List Byte × List Byte)
  | .nil => []
  | .cons t _ c _ _ r => if t ∈ seen then kidFirsts seen r else (t, c) :: kidFirsts (t :: seen) r

/-- content.c:386-583: the loop over the settings: the settings, and whether an exception is thrown; `none` if it never ends, because the `continue` (392) stays at a
node whose tag has another prefix. -/
def packetNodes (env : PacketEnv) : List (List Byte × List Byte) → Settings → Bool → Res (Option (Settings × Bool))
  | [], s, x => .ok (some (s, x))
  | (tag, content) :: nodes, s, x =>
    if tag.take 7 ≠ ascText "cipher:" then .ok none
    else do
      let v ← packetSet env (packetField (tag.drop 7)) content s
      packetNodes env nodes v.1 (x || v.2)

/-- content.c:588-595: the end of the packet; `c` is the byte read before the settings (345), `p` is what is behind the settings. White space, which is passed over
(591-592), is no `>`. -/
def packetTrailer (c : Option Byte) (p : List Byte) : List Byte :=
  match c with
  | none => p.drop 2
  | some c => if c = asc '>' then p.drop 2 else ((p.dropWhile (· != asc '>')).drop 1).drop 2

/-- What `GetContentInfo` does: it returns True with the settings (and whether there were exceptions) at the content; it returns False; it never returns; or it
writes outside its memory. -/
inductive PacketOut where
  | settings (s : Settings) (complaint : Bool) (rest : List Byte)
  | refused
  | forever
  | overrun
  deriving DecidableEq

/-- content.c:346-355: the text of the settings: what is read of it, and behind that whatever is in memory. -/
def packetText (env : PacketEnv) (bytes : Nat) (p : List Byte) : List Byte :=
  p.take bytes ++ (List.range (bytes - (p.take bytes).length)).map env.heap

/-- content.c:190-597 `GetContentInfo`; `s` are the settings before. -/
def getContentInfo (env : PacketEnv) (fuel : Nat) (s : Settings) (file : List Byte) : Res PacketOut :=
  match packetScan ⟨0, none⟩ file with
  | .forever => .ok .forever
  | .overrun => .ok .overrun
  | .head h rest =>
    match h.digest with
    | none => .ok .refused
    | some digest =>
      if h.bytes = 0 then .ok .refused
      else if 2 ^ 63 ≤ h.bytes then .fatal
      else if env.hex (packetText env h.bytes (rest.drop 1)) ≠ digest then .ok .refused
      else do
        match ← newXMLTree env.xml fuel (cText (packetText env h.bytes (rest.drop 1))) with
        | none => .ok .refused
        | some (r, _) =>
          match r.tree.bind fun n => (kidNamed (ascText "cipher:Content") n.kids).orElse fun _ => kidNamed (ascText "rdf:Description") n.kids with
          | none => .ok .refused
          | some kids => do
            match ← packetNodes env (kidFirsts [] kids) s false with
            | none => .ok .forever
            | some (s, x) => .ok (.settings s x (packetTrailer rest.head? ((rest.drop 1).drop h.bytes)))

end Wizard

import Verif.Model.Keyring
import Verif.Model.Hex
import Verif.Model.Packet

/-! keyring.c:537-726 `PrintKeyringProperties`: the list of the keys of a key ring.  The text of a time (`FormatWizardTime`,
modelled in `Model/Timestamp`) is a parameter; what is written to the blob arrives; the lock file is not modelled, memory
suffices. -/
namespace Wizard

/-- What the list is made with: the path of the file, the memory and the clock. -/
structure PrintEnv where
  path : List Byte
  heap : Nat → Byte
  clock : BitVec 64 → List Byte
  mtime : BitVec 64
  now : BitVec 64

/-- keyring.c:580-597: what is said of the key ring. -/
def ringText (env : PrintEnv) (canonical : List Byte) : List Byte :=
  ascText "  <keyring:Keyring rdf:about=\"" ++ canonical ++ ascText "\">\n" ++
  ascText "    <keyring:modify-date>" ++ inMessage (env.clock env.mtime) ++ ascText "</keyring:modify-date>\n" ++
  ascText "    <keyring:create-date>" ++ inMessage (env.clock env.mtime) ++ ascText "</keyring:create-date>\n" ++
  ascText "    <keyring:timestamp>" ++ inMessage (env.clock env.now) ++ ascText "</keyring:timestamp>\n" ++
  ascText "  </keyring:Keyring>\n"

/-- keyring.c:683-706: what is said of a key. -/
def keyText (env : PrintEnv) (canonical : List Byte) (id nonce : StringInfo) (major minor : BitVec 16) (timestamp : BitVec 64) :
    List Byte :=
  ascText "  <keyring:Key rdf:about=\"" ++ stringInfoToHexString id.bytes ++ ascText "\">\n" ++
  ascText "    <keyring:memberOf rdf:resource=\"" ++ canonical ++ ascText "\"/>\n" ++
  ascText "    <keyring:nonce>" ++ stringInfoToHexString nonce.bytes ++ ascText "</keyring:nonce>\n" ++
  ascText "    <keyring:timestamp>" ++ inMessage (env.clock timestamp) ++ ascText "</keyring:timestamp>\n" ++
  ascText "    <keyring:protocol>" ++ inMessage (decText major.toNat ++ ascText "." ++ decText minor.toNat) ++
  ascText "</keyring:protocol>\n" ++
  ascText "  </keyring:Key>\n"

/-- keyring.c:641-721: one record after its signature: what is written, and the file afterwards.  A corrupt record ends in the
failed assertion of `GetFilePath` (as for `expectBytes`); what was written of it by then (line 708) is not told. -/
def printRecord (fuel : Nat) (env : PrintEnv) (canonical : List Byte) (major minor : BitVec 16) (f : FileIO) :
    Res (List Byte × BitVec 16 × BitVec 16 × FileIO) := do
  let a ← readFile32 fuel f 0
  let b ← readFile16 fuel a.2.2 major
  let c ← readFile16 fuel b.2.2 minor
  let d ← readTimestamp fuel c.2.2 b.2.1 c.2.1 a.2.1
  let e ← readFile32 fuel d.2.2 0
  if (a.1 && b.1 && c.1 && d.1 && e.1) = false then .ub
  else do
    let id ← acquireStringInfo e.2.1.toNat
    let g ← readFileChunk fuel e.2.2 id.datum id.length
    let h ← readFile32 fuel g.2.2 0
    if (g.1 && h.1) = false then .ub
    else do
      let key ← acquireStringInfo h.2.1.toNat
      let l ← readFileChunk fuel h.2.2 key.datum key.length
      let m ← readFile32 fuel l.2.2 0
      if (l.1 && m.1) = false then .ub
      else do
        let nonce ← acquireStringInfo m.2.1.toNat
        let n ← readFileChunk fuel m.2.2 nonce.datum nonce.length
        let text := keyText env canonical ⟨id.length, g.2.1⟩ ⟨nonce.length, n.2.1⟩ b.2.1 c.2.1 d.2.1
        if n.1 = false then .ub else .ok (text, b.2.1, c.2.1, n.2.2)

/-- keyring.c:632-722: the records.  The first number bounds the system calls of a read, the second the records. -/
def printLoop (fuel : Nat) (env : PrintEnv) (canonical : List Byte) : Nat → BitVec 16 → BitVec 16 → FileIO → Res (List Byte)
  | 0, _, _, _ => .fatal
  | turns + 1, major, minor, f => do
    let s ← readFile32 fuel f 0
    if s.1 = false then .ok []
    else if s.2.1 ≠ wizardSignature then .ub
    else do
      let r ← printRecord fuel env canonical major minor s.2.2
      let more ← printLoop fuel env canonical turns r.2.1 r.2.2.1 r.2.2.2
      .ok (r.1 ++ more)

/-- keyring.c:537-726 `PrintKeyringProperties`: status and what is written.  `file` is `none` if the file cannot be opened
(line 578: the status is true). -/
def printKeyringProperties (fuel turns : Nat) (magick filetype : StringInfo) (env : PrintEnv) (file : Option (List Byte)) (e : IOEnv) :
    Res (Bool × List Byte) :=
  match file with
  | none => .ok (true, [])
  | some content => do
    let canonical ← canonicalXMLContent env.heap env.path false
    let f ← expectBytes fuel (openFile content e) magick
    let f ← expectBytes fuel f filetype
    let keys ← printLoop fuel env canonical turns 0 0 f
    .ok (true, ringText env canonical ++ keys)

end Wizard

import Verif.Model.File

/-! keyring.c: the key ring file.  The two digests of the header (magick.c:88-108) are parameters; the lock file, the path and
the exception log are not modelled; memory suffices. -/
namespace Wizard

/-- keyring.c:65-84 `struct _KeyringInfo`. -/
structure KeyringInfo where
  id : StringInfo
  key : StringInfo
  nonce : StringInfo
  major : BitVec 16
  minor : BitVec 16
  timestamp : BitVec 64
  deriving DecidableEq, Repr

/-- method-attribute.h:104 -/
def wizardSignature : BitVec 64 := 0xabacadab

/-- What the system calls on a file will do from its opening on. -/
structure IOEnv where
  eintr : Bool
  sched : List IOEvent
  deriving DecidableEq, Repr

/-- file.c:338, 343: the file is open, the offset at its start. -/
def openFile (content : List Byte) (e : IOEnv) : FileIO := ⟨content, 0, e.eintr, false, e.sched⟩

/-- keyring.c:229-237, 243-251: the next bytes of the file are `s`, or the file is corrupt.  On the corrupt path
`DestroyFileInfo` returns NULL and `GetFilePath` is called with it: its assertion fails (file.c:508). -/
def expectBytes (fuel : Nat) (f : FileIO) (s : StringInfo) : Res FileIO := do
  let t ← cloneStringInfo s
  let r ← readFileChunk fuel f t.datum t.length
  let c ← compareStringInfo ⟨t.length, r.2.1⟩ s
  if r.1 = false ∨ c ≠ 0 then .ub else .ok r.2.2

/-- keyring.c:269-273: the time stamp; a record of protocol 1.0 has it in place of the unused length. -/
def readTimestamp (fuel : Nat) (f : FileIO) (major minor : BitVec 16) (length : BitVec 64) : Res (Bool × BitVec 64 × FileIO) :=
  if major = 1 ∧ minor = 0 then .ok (true, length, f) else readFile64 fuel f 0

/-- keyring.c:266-327: one record after its signature: whether it has the id of the object, and the object afterwards.  The
failed assertion as above on a corrupt record. -/
def exportRecord (fuel : Nat) (f : FileIO) (k : KeyringInfo) : Res (Bool × KeyringInfo × FileIO) := do
  let a ← readFile32 fuel f 0
  let b ← readFile16 fuel a.2.2 k.major
  let c ← readFile16 fuel b.2.2 k.minor
  let d ← readTimestamp fuel c.2.2 b.2.1 c.2.1 a.2.1
  let e ← readFile32 fuel d.2.2 0
  if (a.1 && b.1 && c.1 && d.1 && e.1) = false then .ub
  else do
    let id ← acquireStringInfo e.2.1.toNat
    let g ← readFileChunk fuel e.2.2 id.datum id.length
    let h ← readFile32 fuel g.2.2 0
    if (g.1 && h.1) = false then .ub
    else do
      let key ← acquireStringInfo h.2.1.toNat
      let l ← readFileChunk fuel h.2.2 key.datum key.length
      let m ← readFile32 fuel l.2.2 0
      if (l.1 && m.1) = false then .ub
      else do
        let nonce ← acquireStringInfo m.2.1.toNat
        let n ← readFileChunk fuel m.2.2 nonce.datum nonce.length
        let o ← compareStringInfo k.id ⟨id.length, g.2.1⟩
        if o = 0 then do
          let key ← cloneStringInfo ⟨key.length, l.2.1⟩
          let nonce ← cloneStringInfo ⟨nonce.length, n.2.1⟩
          .ok (true, ⟨k.id, key, nonce, b.2.1, c.2.1, d.2.1⟩, n.2.2)
        else if n.1 = false then .ub
        else .ok (false, ⟨k.id, k.key, k.nonce, b.2.1, c.2.1, d.2.1⟩, n.2.2)

/-- keyring.c:256-330: the records.  The first argument bounds their number. -/
def exportLoop (fuel : Nat) : Nat → FileIO → KeyringInfo → Res (Bool × KeyringInfo)
  | 0, _, _ => .fatal
  | turns + 1, f, k => do
    let s ← readFile32 fuel f 0
    if s.1 = false then .ok (false, k)
    else if s.2.1 ≠ wizardSignature then .ub
    else do
      let r ← exportRecord fuel s.2.2 k
      if r.1 then .ok (true, r.2.1) else exportLoop fuel turns r.2.2 r.2.1

/-- keyring.c:195-331 `ExportKeyringKey`: status and the object afterwards.  `file` is `none` if there is no file. -/
def exportKeyring (fuel turns : Nat) (magick filetype : StringInfo) (file : Option (List Byte)) (e : IOEnv) (k : KeyringInfo) :
    Res (Bool × KeyringInfo) :=
  match file with
  | none => .ok (false, k)
  | some content => do
    let f ← expectBytes fuel (openFile content e) magick
    let f ← expectBytes fuel f filetype
    exportLoop fuel turns f k

/-- keyring.c:467-500: the writes of `ImportKeyringKey`. -/
def importWrites (fuel : Nat) (f : FileIO) (magick filetype : StringInfo) (k : KeyringInfo) : Res (Bool × FileIO) := do
  let m ← rdN magick.datum 0 magick.length
  let a ← writeFileChunk fuel f m
  let t ← rdN filetype.datum 0 filetype.length
  let b ← writeFileChunk fuel a.2 t
  let f := { b.2 with pos := b.2.content.length }
  let c ← writeFile32 fuel f wizardSignature
  let d ← writeFile32 fuel c.2 0
  let e ← writeFile16 fuel d.2 k.major
  let g ← writeFile16 fuel e.2 k.minor
  let h ← writeFile64 fuel g.2 k.timestamp
  let i ← writeFile32 fuel h.2 (BitVec.ofNat 64 k.id.length)
  let id ← rdN k.id.datum 0 k.id.length
  let j ← writeFileChunk fuel i.2 id
  let l ← writeFile32 fuel j.2 (BitVec.ofNat 64 k.key.length)
  let key ← rdN k.key.datum 0 k.key.length
  let n ← writeFileChunk fuel l.2 key
  let o ← writeFile32 fuel n.2 (BitVec.ofNat 64 k.nonce.length)
  let nonce ← rdN k.nonce.datum 0 k.nonce.length
  let p ← writeFileChunk fuel o.2 nonce
  .ok (a.1 && b.1 && c.1 && d.1 && e.1 && g.1 && h.1 && i.1 && j.1 && l.1 && n.1 && o.1 && p.1, p.2)

/-- keyring.c:418-507 `ImportKeyringKey`: status and the file afterwards.  `e1` is what the system calls of the search do, `e2`
those of the writes.  The status is true even if a write failed (line 501-506 only logs it). -/
def importKeyring (fuel turns : Nat) (magick filetype : StringInfo) (file : Option (List Byte)) (e1 e2 : IOEnv) (k : KeyringInfo) :
    Res (Bool × Option (List Byte)) := do
  let r ← exportKeyring fuel turns magick filetype file e1 k
  if r.1 then .ok (false, file)
  else do
    let w ← importWrites fuel (openFile (file.getD []) e2) magick filetype k
    .ok (true, some w.2.content)

end Wizard

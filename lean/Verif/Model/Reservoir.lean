import Verif.Model.Keyring
import Verif.Model.CRC64

/-! random.c: the entropy reservoir on disk.  The two digests of the header (magick.c:88-108) are parameters; the lock file, the
path and the exception log are not modelled; memory suffices. -/
namespace Wizard

/-- random.c:97-104: the fields of `struct _RandomInfo` that the reservoir file changes. -/
structure ReservoirInfo where
  major : BitVec 16
  minor : BitVec 16
  timestamp : BitVec 64
  deriving DecidableEq, Repr

/-- string.c:1210-1227 `GetStringInfoCRC`, with crc64.c:247-254 `GetCRC64CyclicRedundancyCheck`.  `junk` is the table before it is
made. -/
def getStringInfoCrc (junk : List (BitVec 64)) (s : StringInfo) : Res (BitVec 64) := do
  let c ← updateCrc64 (initializeCrc64 (acquireCrc64 junk)) s
  let c ← finalizeCrc64 c
  .ok c.crc

/-- random.c:719-726: the time stamp of the object; there is none in protocol 1.0.  `junk` is the variable before it is read. -/
def readStamp (fuel : Nat) (junk : BitVec 64) (f : FileIO) (r : ReservoirInfo) : Res (Bool × ReservoirInfo × FileIO) :=
  if r.major ≠ 1 ∨ r.minor ≠ 0 then do
    let d ← readFile64 fuel f junk
    .ok (d.1, { r with timestamp := d.2.1 }, d.2.2)
  else .ok (true, r, f)

/-- random.c:736-752: entropy and checksum, `length` being read. -/
def readEntropy (fuel : Nat) (table : List (BitVec 64)) (f : FileIO) (length : BitVec 64) : Res (Option StringInfo) := do
  let s ← acquireStringInfo length.toNat
  let g ← readFileChunk fuel f s.datum s.length
  let h ← readFile64 fuel g.2.2 0
  let c ← getStringInfoCrc table ⟨s.length, g.2.1⟩
  if (g.1 && h.1) = false ∨ h.2.1 ≠ c then .ok none else .ok (some ⟨s.length, g.2.1⟩)

/-- random.c:653-753 `GetEntropyFromReservoir`: the entropy, NULL if there is none, and the object afterwards.  `file` is `none` if
there is no file.  On the corrupt paths of lines 690-697 and 705-714 (`expectBytes`) and 728-735 `DestroyFileInfo` returns NULL and
`GetFilePath` is called with it: its assertion fails (file.c:508). -/
def getReservoir (fuel : Nat) (junk : BitVec 64) (table : List (BitVec 64)) (magick filetype : StringInfo) (file : Option (List Byte))
    (e : IOEnv) (r : ReservoirInfo) : Res (Option StringInfo × ReservoirInfo) :=
  match file with
  | none => .ok (none, r)
  | some content => do
    let f ← expectBytes fuel (openFile content e) magick
    let f ← expectBytes fuel f filetype
    let a ← readFile16 fuel f r.major
    let b ← readFile16 fuel a.2.2 r.minor
    let d ← readStamp fuel junk b.2.2 { r with major := a.2.1, minor := b.2.1 }
    let l ← readFile32 fuel d.2.2 junk
    if (a.1 && b.1 && d.1 && l.1) = false then .ub
    else do
      let x ← readEntropy fuel table l.2.2 l.2.1
      .ok (x, d.2.1)

/-- random.c:995-1012: the writes. -/
def saveWrites (fuel : Nat) (table : List (BitVec 64)) (f : FileIO) (magick filetype : StringInfo) (r : ReservoirInfo)
    (digest : StringInfo) : Res (Bool × FileIO) := do
  let m ← rdN magick.datum 0 magick.length
  let a ← writeFileChunk fuel f m
  let t ← rdN filetype.datum 0 filetype.length
  let b ← writeFileChunk fuel a.2 t
  let c ← writeFile16 fuel b.2 r.major
  let d ← writeFile16 fuel c.2 r.minor
  let g ← writeFile64 fuel d.2 r.timestamp
  let h ← writeFile32 fuel g.2 (BitVec.ofNat 64 digest.length)
  let s ← rdN digest.datum 0 digest.length
  let i ← writeFileChunk fuel h.2 s
  let x ← getStringInfoCrc table digest
  let j ← writeFile64 fuel i.2 x
  .ok (a.1 && b.1 && c.1 && d.1 && g.1 && h.1 && i.1 && j.1, j.2)

/-- random.c:967-1020 `SaveEntropyToReservoir`: status and the file afterwards; `digest` is that of the HMAC object.  The file is
opened for writing without being cut (file.c:343).  The status is true even if a write failed (lines 1013-1019 only log it). -/
def saveEntropy (fuel : Nat) (table : List (BitVec 64)) (magick filetype : StringInfo) (file : Option (List Byte)) (e : IOEnv)
    (r : ReservoirInfo) (digest : StringInfo) : Res (Bool × Option (List Byte)) := do
  let w ← saveWrites fuel table (openFile (file.getD []) e) magick filetype r digest
  .ok (true, some w.2.content)

end Wizard

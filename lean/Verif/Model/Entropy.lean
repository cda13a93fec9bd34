import Verif.Model.StringInfo
/-! entropy.c, zip.c, bzip.c and lzma.c: compression.  The libraries zlib, libbz2 and liblzma are parameters; what their calls do with the
buffers, and what they return, is modelled after their documentation. -/
namespace Wizard

/-- How a compressed stream ends. -/
inductive StreamEnd where
  /-- it is complete -/
  | done
  /-- more input is needed -/
  | more
  /-- it is damaged -/
  | bad
  deriving DecidableEq

/-- A compression library: the stream of a message, what a stream holds and how it ends, the levels it takes and (zlib) the bound it gives
on the size of a stream. -/
structure CompressLib where
  compress : Nat → List Byte → List Byte
  decode : List Byte → List Byte × StreamEnd
  levelOK : Nat → Bool
  bound : Nat → Nat

/-- What a call of a library returns. -/
inductive CoderStatus where
  | ok | streamEnd | bufError | error
  deriving DecidableEq

/-- An `unsigned int`. -/
def uInt (n : Nat) : Nat := n % 4294967296

/-- `deflate(&stream,Z_FINISH)` and `BZ2_bzCompress(&stream,BZ_FINISH)`: all output, if there is room for it. -/
def compressFinish (lib : CompressLib) (level : Nat) (input : List Byte) (room : Nat) : CoderStatus × List Byte :=
  let s := lib.compress level input
  if s.length ≤ room then (.streamEnd, s) else (.ok, s.take room)

/-- `inflate(&stream,Z_FINISH)` and `BZ2_bzDecompress`: all output, if the stream is complete and there is room for it. -/
def decodeFinish (lib : CompressLib) (input : List Byte) (room : Nat) : CoderStatus × List Byte :=
  let d := lib.decode input
  if d.1.length ≤ room then
    match d.2 with
    | .done => (.streamEnd, d.1)
    | .more => (.bufError, d.1)
    | .bad => (.error, d.1)
  else (.bufError, d.1.take room)

/-- A message is what a `StringInfo` holds; the libraries get the first `avail` bytes. -/
def availIn (message : StringInfo) (avail : Nat) : Res (List Byte) := rdN message.datum 0 avail

/-- zip.c:210-259 `IncreaseZIP`: the status and `chaos`. -/
def increaseZip (lib : CompressLib) (junk : Nat → Byte) (level : Nat) (chaos message : StringInfo) : Res (Bool × StringInfo) :=
  if lib.levelOK level = false then .ok (false, chaos)
  else do
    let input ← availIn message (uInt message.length)
    let chaos ← setStringInfoLength chaos (lib.bound message.length) junk
    let r := compressFinish lib level input (uInt chaos.length)
    let d ← wrN chaos.datum 0 r.2
    if r.1 ≠ .streamEnd then .ok (false, { chaos with datum := d })
    else do
      let chaos ← setStringInfoLength { chaos with datum := d } r.2.length junk
      .ok (true, chaos)

/-- zip.c:291-339 `RestoreZIP`. -/
def restoreZip (lib : CompressLib) (junk : Nat → Byte) (length : Nat) (chaos message : StringInfo) : Res (Bool × StringInfo) := do
  let input ← availIn message (uInt message.length)
  let chaos ← setStringInfoLength chaos length junk
  let r := decodeFinish lib input (uInt chaos.length)
  let d ← wrN chaos.datum 0 r.2
  if r.1 ≠ .streamEnd then .ok (false, { chaos with datum := d })
  else do
    let chaos ← setStringInfoLength { chaos with datum := d } r.2.length junk
    .ok (true, chaos)

/-- bzip.c:217-265 `IncreaseBZIP`. -/
def increaseBzip (lib : CompressLib) (junk : Nat → Byte) (level : Nat) (chaos message : StringInfo) : Res (Bool × StringInfo) :=
  if lib.levelOK level = false then .ok (false, chaos)
  else do
    let input ← availIn message (uInt message.length)
    let chaos ← setStringInfoLength chaos (message.length + message.length / 100 + 600) junk
    let r := compressFinish lib level input (uInt chaos.length)
    let d ← wrN chaos.datum 0 r.2
    if r.1 ≠ .streamEnd then .ok (false, { chaos with datum := d })
    else do
      let chaos ← setStringInfoLength { chaos with datum := d } (uInt r.2.length) junk
      .ok (true, chaos)

/-- bzip.c:297-344 `RestoreBZIP`. -/
def restoreBzip (lib : CompressLib) (junk : Nat → Byte) (length : Nat) (chaos message : StringInfo) : Res (Bool × StringInfo) := do
  let input ← availIn message (uInt message.length)
  let chaos ← setStringInfoLength chaos length junk
  let r := decodeFinish lib input (uInt chaos.length)
  let d ← wrN chaos.datum 0 r.2
  if r.1 ≠ .streamEnd then .ok (false, { chaos with datum := d })
  else do
    let chaos ← setStringInfoLength { chaos with datum := d } (uInt r.2.length) junk
    .ok (true, chaos)

/-- lzma.c:213-273 `IncreaseLZMA`: `lzma_code(&stream,LZMA_RUN)` takes all input and returns `LZMA_OK`; `LZMA_FINISH` writes the rest of the
stream and returns `LZMA_STREAM_END` if there is room, or else `LZMA_OK`, which is taken for success (264). -/
def increaseLzma (lib : CompressLib) (junk : Nat → Byte) (level : Nat) (chaos message : StringInfo) : Res (Bool × StringInfo) := do
  let input ← availIn message message.length
  let chaos ← setStringInfoLength chaos (message.length + message.length / 3 + 128) junk
  if lib.levelOK level = false then .ok (false, chaos)
  else do
    let r := compressFinish lib level input chaos.length
    let d ← wrN chaos.datum 0 r.2
    if r.1 ≠ .streamEnd ∧ r.1 ≠ .ok then .ok (false, { chaos with datum := d })
    else do
      let chaos ← setStringInfoLength { chaos with datum := d } r.2.length junk
      .ok (true, chaos)

/-- lzma.c:350 `lzma_code(&stream,LZMA_RUN)` of a decoder. -/
def lzmaRun (lib : CompressLib) (input : List Byte) (room : Nat) : CoderStatus × List Byte :=
  let d := lib.decode input
  if d.1.length ≤ room then
    match d.2 with
    | .done => (.streamEnd, d.1)
    | .more => (.ok, d.1)
    | .bad => (.error, d.1)
  else (.ok, d.1.take room)

/-- lzma.c:358 `lzma_code(&stream,LZMA_FINISH)` after it: nothing more can be read or written.  After the end it returns `LZMA_STREAM_END`, after
an error an error; the first call that makes no progress returns `LZMA_OK`, the second `LZMA_BUF_ERROR` (lzma/base.h). -/
def lzmaFinish (run : CoderStatus) (progress : Bool) : CoderStatus :=
  match run with
  | .ok => if progress then .ok else .bufError
  | s => s

/-- lzma.c:311-368 `RestoreLZMA`.  The errors of liblzma are positive: 351 never sees one. -/
def restoreLzma (lib : CompressLib) (junk : Nat → Byte) (length : Nat) (chaos message : StringInfo) : Res (Bool × StringInfo) := do
  let input ← availIn message message.length
  let chaos ← setStringInfoLength chaos length junk
  let r := lzmaRun lib input chaos.length
  let d ← wrN chaos.datum 0 r.2
  let s := lzmaFinish r.1 (!input.isEmpty)
  if s ≠ .streamEnd ∧ s ≠ .ok then .ok (false, { chaos with datum := d })
  else do
    let chaos ← setStringInfoLength { chaos with datum := d } r.2.length junk
    .ok (true, chaos)

/-- entropy.h:28-35 `EntropyType`. -/
inductive EntropyType where
  | undefined | none | zip | bzip | lzma
  deriving DecidableEq

/-- The libraries. -/
structure CompressLibs where
  zlib : CompressLib
  bz2 : CompressLib
  xz : CompressLib

/-- entropy.c:283-330 `IncreaseEntropy`. -/
def increaseEntropy (libs : CompressLibs) (junk : Nat → Byte) (type : EntropyType) (level : Nat) (chaos message : StringInfo) : Res (Bool × StringInfo) :=
  match type with
  | .bzip => increaseBzip libs.bz2 junk level chaos message
  | .lzma => increaseLzma libs.xz junk level chaos message
  | .zip => increaseZip libs.zlib junk level chaos message
  | _ => .fatal

/-- entropy.c:362-409 `RestoreEntropy`. -/
def restoreEntropy (libs : CompressLibs) (junk : Nat → Byte) (type : EntropyType) (length : Nat) (chaos message : StringInfo) : Res (Bool × StringInfo) :=
  match type with
  | .bzip => restoreBzip libs.bz2 junk length chaos message
  | .lzma => restoreLzma libs.xz junk length chaos message
  | .zip => restoreZip libs.zlib junk length chaos message
  | _ => .fatal

end Wizard

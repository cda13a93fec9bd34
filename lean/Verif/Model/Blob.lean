import Verif.Model.Memory
/-! The streams of wizard/blob.c that read and write regular files: through `FILE` pointers, and large files through a map.  The stdio
calls are modelled on a file that nobody else changes and on which system calls succeed.  Compressed streams and pipes are left out. -/
namespace Wizard

/-- A `FILE` pointer: the bytes of the file, the position and the end-of-file indicator. -/
structure Stdio where
  content : List Byte
  pos : Nat
  eof : Bool
  deriving DecidableEq, Repr

/-- `getc`: none is `EOF`. -/
def Stdio.getc (f : Stdio) : Option Byte × Stdio :=
  match f.content[f.pos]? with
  | some b => (some b, { f with pos := f.pos + 1 })
  | none => (none, { f with eof := true })

/-- `fread(q,1,n,file)`: the bytes read.  The indicator is set when the end is met. -/
def Stdio.fread (f : Stdio) (n : Nat) : List Byte × Stdio :=
  let b := (f.content.drop f.pos).take n
  (b, { f with pos := f.pos + b.length, eof := f.eof || decide (b.length < n) })

/-- `fwrite(p,1,n,file)`; a gap before the position is filled with NULs. -/
def Stdio.fwrite (f : Stdio) (b : List Byte) : Stdio :=
  { f with content := (f.content.take f.pos ++ List.replicate (f.pos - f.content.length) 0) ++ b ++ f.content.drop (f.pos + b.length), pos := f.pos + b.length }

/-- `fseek`: clears the indicator; returns 0. -/
def Stdio.fseek (f : Stdio) (pos : Nat) : Stdio := { f with pos := pos, eof := false }

/-- blob.c:100-157 `_BlobInfo`: the fields used by the two kinds of streams.  `file` is a `FileStream`; `map` a `BlobStream`, whose data
were mapped for reading by `OpenBlob`; `live` says whether they still are. -/
inductive Blob where
  | file (f : Stdio)
  | map (data : List Byte) (live : Bool) (length extent quantum offset : Nat) (eof : Bool)
  deriving DecidableEq, Repr

/-- blob.h:27-29. -/
def maxBufferExtent : Nat := 8192

/-- blob.c:62 `WizardMaxBlobExtent`. -/
def maxBlobExtent : Nat := 65536

/-- blob.c:1129-1205 and 191-204 (`AttachBlob`): open a regular file that is not compressed, for reading.  `mapped` says whether the map
resource is granted and `mmap` succeeds.  The three bytes of the magic are read and the position is set back (1148-1151). -/
def openRead (content : List Byte) (mapped : Bool) : Blob :=
  let f : Stdio := ⟨content, 0, false⟩
  let r := f.fread 3
  let f := r.2.fseek (r.2.pos - r.1.length)
  if content.length > maxBufferExtent ∧ mapped then .map content true content.length content.length maxBlobExtent 0 false else .file f

/-- blob.c:1231-1242: open a file for writing; it becomes empty. -/
def openWrite : Blob := .file ⟨[], 0, false⟩

/-- blob.c:1322-1356: `n` calls of `getc`, until one gives `EOF`. -/
def getcs : Nat → Stdio → List Byte × Stdio
  | 0, f => ([], f)
  | n + 1, f =>
    match f.getc with
    | (none, f) => ([], f)
    | (some b, f) => let r := getcs n f; (b :: r.1, r.2)

/-- blob.c:1415-1432 and 1470-1481: the bytes at the offset. -/
def readMap (data : List Byte) (live : Bool) (length extent quantum offset : Nat) (eof : Bool) (n : Nat) : Res (List Byte × Blob) :=
  if offset ≥ length then .ok ([], .map data live length extent quantum offset true)
  else if live = false then .ub
  else do
    let count := min n (length - offset)
    let b ← rdN data offset count
    .ok (b, .map data live length extent quantum (offset + count) (eof || decide (count ≠ n)))

/-- blob.c:1286-1435 `ReadBlob`: the bytes stored at `data`, as many as it returns.  Lengths are below 2^63. -/
def readBlob (b : Blob) (n : Nat) : Res (List Byte × Blob) :=
  if n = 0 then .ok ([], b)
  else match b with
    | .file f => if n ≤ 4 then let r := getcs n f; .ok (r.1, .file r.2) else let r := f.fread n; .ok (r.1, .file r.2)
    | .map data live length extent quantum offset eof => readMap data live length extent quantum offset eof n

/-- blob.c:1484-1501 `ReadBlobByte`, with 1460-1482 `ReadBlobStream`: none is `EOF`. -/
def readBlobByte (b : Blob) : Res (Option Byte × Blob) := do
  let r ← match b with
    | .file _ => readBlob b 1
    | .map data live length extent quantum offset eof => readMap data live length extent quantum offset eof 1
  match r.1 with
  | [c] => .ok (some c, r.2)
  | _ => .ok (none, r.2)

/-- blob.c:1548-1559: read until all is there or nothing comes; `eintr` says whether `errno` is `EINTR`, which reading at the end of a
file does not change.  The first argument bounds the number of turns. -/
def chunkLoop (eintr : Bool) : Nat → Blob → Nat → List Byte → Res (List Byte × Blob)
  | 0, _, _, _ => .fatal
  | fuel + 1, b, n, got =>
    if got.length < n then do
      let r ← readBlob b (n - got.length)
      if r.1.length = 0 then
        if eintr then chunkLoop eintr fuel r.2 n got else .ok (got, r.2)
      else chunkLoop eintr fuel r.2 n (got ++ r.1)
    else .ok (got, b)

/-- blob.c:1533-1561 `ReadBlobChunk`. -/
def readBlobChunk (eintr : Bool) (fuel : Nat) (b : Blob) (n : Nat) : Res (List Byte × Blob) :=
  match b with
  | .map .. => readBlob b n
  | .file _ => chunkLoop eintr fuel b n []

/-- A call that reads. -/
inductive BlobReq where
  | read (n : Nat)
  | byte
  | chunk (n : Nat)
  deriving DecidableEq, Repr

/-- One call: the bytes it delivers. -/
def blobReq (eintr : Bool) (fuel : Nat) (b : Blob) : BlobReq → Res (List Byte × Blob)
  | .read n => readBlob b n
  | .byte => do
    let r ← readBlobByte b
    .ok (r.1.toList, r.2)
  | .chunk n => readBlobChunk eintr fuel b n

/-- A client that reads in pieces: what each call delivers. -/
def blobReads (eintr : Bool) (fuel : Nat) : Blob → List BlobReq → Res (List (List Byte) × Blob)
  | b, [] => .ok ([], b)
  | b, r :: rs => do
    let x ← blobReq eintr fuel b r
    let y ← blobReads eintr fuel x.2 rs
    .ok (x.1 :: y.1, y.2)

/-- blob.c:471-511 `EOFBlob`. -/
def eofBlob : Blob → Bool
  | .file f => f.eof
  | .map _ _ _ _ _ _ eof => eof

/-- blob.c:1776-1814 `TellBlob`. -/
def tellBlob : Blob → Nat
  | .file f => f.pos
  | .map _ _ _ _ _ offset _ => offset

/-- blob.c:800-858 `GetBlobSize`. -/
def getBlobSize : Blob → Nat
  | .file f => f.content.length
  | .map _ _ _ extent _ _ _ => extent

/-- blob.c:1604-1629 and 1638-1675 `SetBlobExtent`: the status and the blob.  `fseek` returns 0 and not the position, and that is what
`offset` is. -/
def setBlobExtent (b : Blob) (extent : Nat) : Bool × Blob :=
  match b with
  | .file f =>
    let f := f.fseek f.content.length
    if 0 ≥ extent then (true, .file f)
    else
      let f := (f.fseek (extent - 1)).fwrite [0]
      (true, .file (f.fseek 0))
  | .map data _ length extent quantum offset eof => (false, .map data false length extent quantum offset eof)

/-- blob.c:1909-1947: the calls of `putc` and of `fwrite` write the same. -/
def putcs : List Byte → Stdio → Stdio
  | [], f => f
  | b :: l, f => putcs l (f.fwrite [b])

/-- blob.c:1882-2033 `WriteBlob`: the number of bytes written and the blob.  A map made for reading cannot be written. -/
def writeBlob (b : Blob) (data : List Byte) : Res (Nat × Blob) :=
  if data = [] then .ok (0, b)
  else match b with
    | .file f => .ok (data.length, .file (if data.length ≤ 4 then putcs data f else f.fwrite data))
    | .map _ _ _ extent _ offset _ => if offset + data.length ≥ extent then .ok (0, b) else .ub

/-- blob.c:2061-2089 `WriteBlobStream`, as used by `WriteBlobByte` and `WriteBlobString`. -/
def writeBlobStream (b : Blob) (data : List Byte) : Res (Nat × Blob) :=
  match b with
  | .file _ => writeBlob b data
  | .map d live length extent quantum offset eof =>
    if offset + data.length ≥ extent then
      let quantum := quantum * 2 % sizeMax
      let r := setBlobExtent (.map d live length extent quantum offset eof) (extent + quantum + data.length)
      .ok (0, r.2)
    else if data = [] then .ok (0, b)
    else .ub

/-- A call that writes. -/
inductive BlobPut where
  | write (data : List Byte)
  | byte (b : Byte)
  | string (s : List Byte)
  deriving DecidableEq, Repr

/-- One call: `WriteBlob`, `WriteBlobByte` (blob.c:2091-2097) or `WriteBlobString` (2183-2194). -/
def blobPut (b : Blob) : BlobPut → Res (Nat × Blob)
  | .write data => writeBlob b data
  | .byte c => writeBlobStream b [c]
  | .string s => writeBlobStream b s

/-- A client that writes in pieces: what the calls return. -/
def blobPuts : Blob → List BlobPut → Res (List Nat × Blob)
  | b, [] => .ok ([], b)
  | b, w :: ws => do
    let x ← blobPut b w
    let y ← blobPuts x.2 ws
    .ok (x.1 :: y.1, y.2)

end Wizard

import Verif.Model.Blob
/-! Streams of wizard/blob.c on files whose system calls can fail: what is still in the buffer of a `FILE`, what `CloseBlob` says, and
what reading a damaged file looks like.  Model/Blob.lean has the same streams on files whose system calls succeed. -/
namespace Wizard

/-- What one call of `write` does: it takes some of the bytes, at least one, or it fails, with `errno` `EINTR` or another. -/
inductive Sys where
  | took (k : Nat)
  | failed (eintr : Bool)
  deriving DecidableEq, Repr

/-- A `FILE` opened for writing: what has reached the file, what the next calls of `write` will do (when the list is used up they take
all), the bytes in the buffer, the error indicator, and whether `errno` is `EINTR`. -/
structure OutFile where
  disk : List Byte
  calls : List Sys
  buf : List Byte
  err : Bool
  eintr : Bool
  deriving DecidableEq, Repr

/-- `fflush`: write what is in the buffer.  ISO C leaves open what becomes of bytes that could not be written: `keep` says whether the
library keeps them for the next attempt (glibc) or drops them (musl). -/
def flushCalls (keep : Bool) (disk : List Byte) (err eintr : Bool) : List Sys → List Byte → Bool × OutFile
  | calls, [] => (true, ⟨disk, calls, [], err, eintr⟩)
  | [], buf => (true, ⟨disk ++ buf, [], [], err, eintr⟩)
  | .took k :: calls, buf => flushCalls keep (disk ++ buf.take (k + 1)) err eintr calls (buf.drop (k + 1))
  | .failed e :: calls, buf => (false, ⟨disk, calls, if keep then buf else [], true, e⟩)

/-- `fflush(file)`: whether it returns 0. -/
def OutFile.fflush (keep : Bool) (o : OutFile) : Bool × OutFile := flushCalls keep o.disk o.err o.eintr o.calls o.buf

/-- `putc(c,file)` with a buffer of `cap` bytes: false is `EOF`. -/
def OutFile.putc (keep : Bool) (cap : Nat) (o : OutFile) (c : Byte) : Bool × OutFile :=
  if o.buf.length < cap then (true, { o with buf := o.buf ++ [c] })
  else
    let r := o.fflush keep
    if r.1 then (true, { r.2 with buf := r.2.buf ++ [c] }) else r

/-- `fwrite(p,1,n,file)`, as ISO C defines it: as many calls of `fputc`, until one fails; the number of bytes taken. -/
def OutFile.fwrite (keep : Bool) (cap : Nat) : OutFile → List Byte → Nat × OutFile
  | o, [] => (0, o)
  | o, c :: cs =>
    let r := o.putc keep cap c
    if r.1 then let t := OutFile.fwrite keep cap r.2 cs; (t.1 + 1, t.2) else (0, r.2)

/-- blob.c:1882-1949 `WriteBlob` on a `FileStream` or `PipeStream`; the calls of `putc` for up to four bytes (1917-1944) stop at the first
`EOF` as `fwrite` does.  `WriteBlobByte` and `WriteBlobString` (2061-2072, 2091-2097, 2183-2194) call it. -/
def writeOut (keep : Bool) (cap : Nat) (o : OutFile) (b : List Byte) : Nat × OutFile :=
  if b.length = 0 then (0, o) else o.fwrite keep cap b

/-- blob.c:2143-2155 the loop of `WriteBlobChunk` from `i` on.  The first argument bounds the number of turns. -/
def writeChunkLoop (keep : Bool) (cap : Nat) : Nat → OutFile → List Byte → Nat → Res (Nat × OutFile)
  | 0, _, _, _ => .fatal
  | fuel + 1, o, b, i =>
    if i < b.length then
      let r := writeOut keep cap o (b.drop i)
      if r.1 = 0 then
        if r.2.eintr then writeChunkLoop keep cap fuel r.2 b i else .ok (i, r.2)
      else writeChunkLoop keep cap fuel r.2 b (i + r.1)
    else .ok (i, o)

/-- blob.c:2129-2156 `WriteBlobChunk`.  Every turn takes a byte or meets a failing call, so the turns allowed are enough. -/
def writeChunk (keep : Bool) (cap : Nat) (o : OutFile) (b : List Byte) : Res (Nat × OutFile) :=
  writeChunkLoop keep cap (b.length + o.calls.length + 1) o b 0

/-- A call of a client that writes. -/
inductive WriteReq where
  | write (b : List Byte)
  | chunk (b : List Byte)
  | sync
  deriving DecidableEq, Repr

/-- One call: the number it returns; `SyncBlob` (blob.c:1714-1752) returns 0, or -1, which is 1 here. -/
def writeReq (keep : Bool) (cap : Nat) (o : OutFile) : WriteReq → Res (Nat × OutFile)
  | .write b => .ok (writeOut keep cap o b)
  | .chunk b => writeChunk keep cap o b
  | .sync => let r := o.fflush keep; .ok (if r.1 then 0 else 1, r.2)

/-- A client that writes: what each call returns. -/
def writeReqs (keep : Bool) (cap : Nat) : OutFile → List WriteReq → Res (List Nat × OutFile)
  | o, [] => .ok ([], o)
  | o, r :: rs => do
    let x ← writeReq keep cap o r
    let y ← writeReqs keep cap x.2 rs
    .ok (x.1 :: y.1, y.2)

/-- blob.c:1233-1242 a file opened for writing; 1051-1058 and 1067-1081, 1098-1108, 1116-1126 others.  What the calls will do is given. -/
def openOut (calls : List Sys) : OutFile := ⟨[], calls, [], false, false⟩

/-- `fclose(file)`: flush, then close; both must succeed. -/
def OutFile.fclose (keep closes : Bool) (o : OutFile) : Bool × OutFile :=
  let r := o.fflush keep
  (r.1 && closes, r.2)

/-- blob.c:236-345 `CloseBlob` of a `FileStream`; `exempt` streams (standard output, descriptors, named pipes) are not closed.  `status` is
the status of the blob, which nothing but this function sets.  True is `WizardTrue`. -/
def closeOut (keep exempt closes : Bool) (status : Int) (o : OutFile) : Bool × OutFile :=
  let s := o.fflush keep
  let status : Int := if s.1 then status else -1
  if exempt then (decide (status = 0), s.2)
  else
    let f := s.2.fclose keep closes
    let status : Int := if f.1 then 0 else -1
    (decide (status = 0), f.2)

/-- A `FILE` opened for reading a file that cannot be read from `bad` on: each attempt there fails with `EIO`. -/
structure InFile where
  content : List Byte
  bad : Nat
  pos : Nat
  eof : Bool
  err : Bool
  deriving DecidableEq, Repr

/-- `getc`: `EOF` at the end of the file or where reading fails. -/
def InFile.getc (f : InFile) : Option Byte × InFile :=
  match f.content[f.pos]? with
  | some b => if f.bad ≤ f.pos then (none, { f with err := true }) else (some b, { f with pos := f.pos + 1 })
  | none => (none, { f with eof := true })

/-- `fread(q,1,n,file)`, as ISO C defines it: calls of `fgetc`, until one fails.  Also the calls of `getc` for up to four bytes
(blob.c:1322-1353). -/
def InFile.fread : Nat → InFile → List Byte × InFile
  | 0, f => ([], f)
  | n + 1, f =>
    match f.getc with
    | (none, f) => ([], f)
    | (some b, f) => let r := InFile.fread n f; (b :: r.1, r.2)

/-- blob.c:1548-1560 the loop of `ReadBlobChunk`; `errno` is not `EINTR`: a failing read sets it to `EIO`, and C94 has what it does to
other reads.  The first argument bounds the number of turns. -/
def readChunkLoop : Nat → InFile → Nat → List Byte → Res (List Byte × InFile)
  | 0, _, _, _ => .fatal
  | fuel + 1, f, n, got =>
    if got.length < n then
      let r := f.fread (n - got.length)
      if r.1.length = 0 then .ok (got, r.2) else readChunkLoop fuel r.2 n (got ++ r.1)
    else .ok (got, f)

/-- blob.c:1286-1358 `ReadBlob`, 1484-1501 `ReadBlobByte` and 1533-1561 `ReadBlobChunk` on a `FileStream`: the bytes delivered. -/
def readReq (f : InFile) : BlobReq → Res (List Byte × InFile)
  | .read n => .ok (f.fread n)
  | .byte => .ok (f.fread 1)
  | .chunk n => readChunkLoop (n + 1) f n []

/-- A client that reads. -/
def readReqs : InFile → List BlobReq → Res (List (List Byte) × InFile)
  | f, [] => .ok ([], f)
  | f, r :: rs => do
    let x ← readReq f r
    let y ← readReqs x.2 rs
    .ok (x.1 :: y.1, y.2)

/-- blob.c:1129-1151: a file is opened and its first three bytes are read; `fseek` clears the end-of-file indicator, not the error. -/
def openIn (content : List Byte) (bad : Nat) : InFile :=
  let f : InFile := ⟨content, bad, 0, false, false⟩
  let r := f.fread 3
  { r.2 with pos := r.2.pos - r.1.length, eof := false }

/-- blob.c:236-345 `CloseBlob` of a stream opened for reading: `fflush` and `fclose` find nothing to write, and the error indicator is
looked at only when the status says that there was an error (262).  `closes` says whether `fclose` returns 0. -/
def closeIn (closes : Bool) (status : Int) (f : InFile) : Bool × Bool :=
  let told := decide (status ≠ 0) && f.err
  let status : Int := if closes then 0 else -1
  (decide (status = 0), told)

end Wizard

import Verif.Model.Basic
/-!
Model of `FileToBlob` (/repo/wizard/blob.c), which also is `FileToString` and `FileToStringInfo` (/repo/wizard/string.c).

The operating system is a list of what the calls of `read` do, one after the other; behind its end every call reports the end of the file. Allocation succeeds.
Closing the file may report an exception, but never changes what is returned (left out).
-/
namespace Wizard

/-- What a call of `read` does. -/
inductive FileRead where
  /-- It reads these bytes. -/
  | data (bytes : List Byte)
  /-- It returns -1 and sets `errno` to `EINTR`. -/
  | interrupted
  /-- It returns -1 and sets `errno` to something else. -/
  | failed
  /-- It returns 0; `errno` is not changed. -/
  | ended

/-- What `FileToBlob` does: it returns a blob (and its length), or NULL with an exception, or it never returns, or it writes outside the blob. -/
inductive BlobOut where
  | blob (bytes : List Byte)
  | null
  | forever
  | overrun
  deriving DecidableEq

/-- blob.h:27-29 -/
def wizardMaxBufferExtent : Nat := 8192

/-- blob.c:599-617: the loop over a stream, from the call of `read` on: `got` is what was read (`i` bytes), `size` is the size of the blob and `intr` says
whether `errno` is `EINTR`. Behind the loop (627-629) `blob[*length]` is inside the blob. -/
def blobStream (quantum extent : Nat) : List FileRead → List Byte → Nat → Bool → BlobOut
  | [], got, _, intr =>
    if intr then
      if sizeMax - 1 - got.length < quantum + 1 then .null
      else if extent ≤ got.length then .blob (got.take extent)
      else .forever
    else .blob (got.take extent)
  | .data bytes :: rs, got, size, intr =>
    if bytes = [] ∧ intr = false then .blob (got.take extent)
    else if size < got.length + bytes.length then .overrun
    else if sizeMax - 1 - got.length < quantum + 1 then .null
    else if extent ≤ got.length + bytes.length then .blob ((got ++ bytes).take extent)
    else blobStream quantum extent rs (got ++ bytes) (got.length + quantum + 1) intr
  | .interrupted :: rs, got, _, _ =>
    if sizeMax - 1 - got.length < quantum + 1 then .null
    else if extent ≤ got.length then .blob (got.take extent)
    else blobStream quantum extent rs got (got.length + quantum + 1) true
  | .failed :: _, got, _, _ => .blob (got.take extent)
  | .ended :: rs, got, _, intr =>
    if intr then
      if sizeMax - 1 - got.length < quantum + 1 then .null
      else if extent ≤ got.length then .blob (got.take extent)
      else blobStream quantum extent rs got (got.length + quantum + 1) intr
    else .blob (got.take extent)

/-- blob.c:667-687: the loop over a file whose size is known. -/
def blobRead (length : Nat) : List FileRead → List Byte → Bool → BlobOut
  | [], got, intr => if length ≤ got.length then .blob got else if intr then .forever else .null
  | .data bytes :: rs, got, intr =>
    if length ≤ got.length then .blob got
    else if bytes = [] then (if intr then blobRead length rs got intr else .null)
    else if length < got.length + bytes.length then .overrun
    else blobRead length rs (got ++ bytes) intr
  | .interrupted :: rs, got, _ => if length ≤ got.length then .blob got else blobRead length rs got true
  | .failed :: _, got, _ => if length ≤ got.length then .blob got else .null
  | .ended :: rs, got, intr => if length ≤ got.length then .blob got else if intr then blobRead length rs got intr else .null

/-- What the file is like. -/
structure FileKind where
  /-- The file cannot be opened. -/
  missing : Bool := false
  /-- It is the standard input, or `lseek` fails or returns what `ssize_t` cannot hold (582-583). -/
  stream : Bool
  /-- `st_size`; 0 if it is not known. -/
  size : Nat
  /-- What `mmap` makes available, if it succeeds. -/
  map : Option (List Byte) := none

/-- blob.c:546-693 `FileToBlob`; `intr` says whether `errno` is `EINTR` when `read` is first called. -/
def fileToBlob (kind : FileKind) (extent : Nat) (reads : List FileRead) (intr : Bool) : BlobOut :=
  if kind.missing then .null
  else if kind.stream then
    let quantum := if 0 < kind.size then min kind.size wizardMaxBufferExtent else wizardMaxBufferExtent
    blobStream quantum extent reads [] quantum intr
  else
    let length := min kind.size extent
    match kind.map with
    | some bytes => .blob (bytes.take length)
    | none => blobRead length reads [] intr

end Wizard

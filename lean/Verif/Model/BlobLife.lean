import Verif.Model.Blob
/-! wizard/blob.c: what `OpenBlob` acquires and what `CloseBlob`, `SetBlobExtent` and `DestroyBlob` release: memory, semaphores, `FILE`
pointers, compressed streams, commands, maps and shares of the map resource.  The bytes are in Model/Blob.lean. -/
namespace Wizard

/-- What a blob can hold. -/
inductive Handle where
  | memory
  | semaphore
  | stream
  | packed
  | command
  | map (length : Nat)
  | share (length : Nat)
  deriving DecidableEq, Repr

/-- Something is acquired or released. -/
inductive LifeEvent where
  | got (h : Handle)
  | gave (h : Handle)
  deriving DecidableEq, Repr

/-- blob.c:72-81 `StreamType`; zip and bzip streams are treated alike everywhere here. -/
inductive BlobType where
  | undefined
  | file
  | pipe
  | packed
  | blob
  deriving DecidableEq, Repr

/-- blob.c:100-157 `_BlobInfo`: the fields that say what is to be released.  `file` says whether the pointer is not NULL. -/
structure LifeBlob where
  type : BlobType
  exempt : Bool
  mapped : Bool
  file : Bool
  length : Nat
  deriving DecidableEq, Repr

/-- What a name stands for (blob.c:1049-1243), and which of the calls succeed: `-`; `fd:n`; `|command`; a named pipe; a file to read, with
its size and whether its first bytes are those of a compressed file, which matters if the caller asks for decompression; a file to write,
compressed if its extension says so. -/
inductive BlobSource where
  | standard
  | descriptor (opens : Bool)
  | command (opens : Bool)
  | fifo (opens : Bool)
  | reads (opens : Bool) (size : Nat) (packed unpacks granted maps : Bool)
  | writes (packed opens : Bool)
  deriving DecidableEq, Repr

/-- blob.c:1244-1254: without a stream the memory is released, but not what `GetBlobInfo` acquired (756). -/
def openFailed (ev : List LifeEvent) : Res (Option LifeBlob × List LifeEvent) := .ok (none, ev ++ [.gave .memory])

/-- blob.c:1181-1203 map the file, if it is large; `CloseBlob` and `UnmapBlob` use the length stored by `AttachBlob` (191-204). -/
def openMap (size : Nat) (granted maps : Bool) (ev : List LifeEvent) : Res (Option LifeBlob × List LifeEvent) :=
  if size > maxBufferExtent ∧ granted then
    if maps then .ok (some ⟨.blob, false, true, false, size⟩, ev ++ [.got (.share size), .got (.map size), .gave .stream])
    else .ok (some ⟨.file, false, false, true, 0⟩, ev ++ [.got (.share size), .gave (.share size)])
  else .ok (some ⟨.file, false, false, true, 0⟩, ev)

/-- blob.c:1014-1255 `OpenBlob`.  When a compressed file cannot be opened for decompression, the type stays `FileStream`, the pointer is
NULL, and `GetBlobSize` (826) calls `fileno` with it. -/
def openLife (src : BlobSource) : Res (Option LifeBlob × List LifeEvent) :=
  let ev : List LifeEvent := [.got .memory, .got .semaphore]
  match src with
  | .standard => .ok (some ⟨.file, true, false, true, 0⟩, ev)
  | .descriptor opens => if opens then .ok (some ⟨.file, true, false, true, 0⟩, ev ++ [.got .stream]) else openFailed ev
  | .command opens => if opens then .ok (some ⟨.pipe, true, false, true, 0⟩, ev ++ [.got .command]) else openFailed ev
  | .fifo opens => if opens then .ok (some ⟨.file, true, false, true, 0⟩, ev ++ [.got .stream]) else openFailed ev
  | .reads opens size packed unpacks granted maps =>
    if opens = false then openFailed ev
    else if packed then
      if unpacks then .ok (some ⟨.packed, false, false, false, 0⟩, ev ++ [.got .stream, .gave .stream, .got .packed]) else .ub
    else openMap size granted maps (ev ++ [.got .stream])
  | .writes packed opens =>
    if opens = false then openFailed ev
    else if packed then .ok (some ⟨.packed, false, false, false, 0⟩, ev ++ [.got .packed])
    else .ok (some ⟨.file, false, false, true, 0⟩, ev ++ [.got .stream])

/-- blob.c:422-446 `DetachBlob`. -/
def detachLife (b : LifeBlob) : LifeBlob × List LifeEvent :=
  (⟨.undefined, false, false, false, 0⟩, if b.mapped then [.gave (.map b.length), .gave (.share b.length)] else [])

/-- blob.c:299-341 what `CloseBlob` closes. -/
def closedStream (b : LifeBlob) : List LifeEvent :=
  match b.type with
  | .undefined => []
  | .file => if b.file then [.gave .stream] else []
  | .pipe => [.gave .command]
  | .packed => [.gave .packed]
  | .blob => []

/-- blob.c:236-345 `CloseBlob`. -/
def closeLife (b : LifeBlob) : LifeBlob × List LifeEvent :=
  if b.type = .undefined then (b, [])
  else if b.exempt then ({ b with type := .undefined }, [])
  else
    let d := detachLife b
    (d.1, closedStream b ++ d.2)

/-- blob.c:1590-1689 `SetBlobExtent`: a map is undone first; there is no file pointer beside a map, so that is all. -/
def extendLife (b : LifeBlob) : LifeBlob × List LifeEvent :=
  if b.type = .blob ∧ b.mapped then (b, [.gave (.map b.length), .gave (.share b.length)]) else (b, [])

/-- blob.c:369-398 `DestroyBlob`; there is one reference. -/
def destroyLife (b : LifeBlob) : List LifeEvent :=
  let c := closeLife b
  c.2 ++ (if c.1.mapped then [.gave (.map c.1.length), .gave (.share c.1.length)] else []) ++ [.gave .semaphore, .gave .memory]

/-- What a client does with a blob: calls that read and write hold nothing. -/
inductive LifeOp where
  | use
  | extend
  | close
  deriving DecidableEq, Repr

/-- One call. -/
def lifeStep (b : LifeBlob) : LifeOp → LifeBlob × List LifeEvent
  | .use => (b, [])
  | .extend => extendLife b
  | .close => closeLife b

/-- Some calls, then `DestroyBlob`. -/
def lifeRun : LifeBlob → List LifeOp → List LifeEvent
  | b, [] => destroyLife b
  | b, o :: os => (lifeStep b o).2 ++ lifeRun (lifeStep b o).1 os

/-- From `OpenBlob` to `DestroyBlob`; nothing more can be done when `OpenBlob` returns NULL. -/
def blobLife (src : BlobSource) (ops : List LifeOp) : Res (List LifeEvent) := do
  let r ← openLife src
  match r.1 with
  | none => .ok r.2
  | some b => .ok (r.2 ++ lifeRun b ops)

end Wizard

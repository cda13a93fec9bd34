import Verif.Model.Resource
/-! memory.c: array allocation and virtual memory, over an underlying allocator that is a parameter (`malloc` may fail at will). -/
namespace Wizard

/-- memory.c:662-667 and alike: the size of an array, computed in `size_t`; `none` is the refusal. -/
def quantumExtent (count quantum : Nat) : Option Nat :=
  let size := count * quantum % 2 ^ 64
  if count = 0 ∨ quantum ≠ size / count then none else some size

/-- memory.c:657-669 `AcquireQuantumMemory` over an allocator `alloc`; 0 is NULL. -/
def acquireQuantum (alloc : Nat → Nat) (count quantum : Nat) : Nat :=
  match quantumExtent count quantum with
  | none => 0
  | some size => alloc (if size = 0 then 1 else size)

/-- memory.c:1236-1250 `ResizeQuantumMemory` over a `realloc`; the second result tells whether the old block has been released. -/
def resizeQuantum (realloc : Nat → Nat → Nat) (p count quantum : Nat) : Nat × Bool :=
  match quantumExtent count quantum with
  | none => (0, true)
  | some size => (realloc p (if size = 0 then 1 else size), true)

/-- memory.c:246-247 `AlignedExtent` for a power of two, in `size_t`: round up. -/
def alignedExtent (size alignment : Nat) : Nat := (size + (alignment - 1)) % 2 ^ 64 / alignment * alignment

/-- memory-private.h:24-28 `CACHE_LINE_SIZE` (not on PowerPC). -/
def cacheLine : Nat := 64

/-- memory.c:243-292 `AcquireAlignedMemory` where `posix_memalign` exists: `memalign alignment extent` is its result, 0 if it
fails; `page` is the page size. -/
def acquireAligned (memalign : Nat → Nat → Nat) (page count quantum : Nat) : Nat :=
  match quantumExtent count quantum with
  | none => 0
  | some size =>
    let alignment := if page / 2 < size then page else cacheLine
    let extent := alignedExtent size cacheLine
    if size = 0 ∨ extent < size then 0 else memalign alignment extent

/-- memory.c:243-292 `AcquireAlignedMemory` over `AcquireWizardMemory`: the address returned and the address from the allocator
that is written in front of it. -/
def acquireAlignedPlain (alloc : Nat → Nat) (page count quantum : Nat) : Option (Nat × Nat) :=
  match quantumExtent count quantum with
  | none => none
  | some size =>
    let alignment := if page / 2 < size then page else cacheLine
    let extent := alignedExtent size cacheLine
    if size = 0 ∨ extent < size then none
    else
      let extent := ((size + alignment - 1) % 2 ^ 64 + 8) % 2 ^ 64
      if extent > size then
        let p := alloc extent
        if p = 0 then none else some (alignedExtent (p + 8) alignment, p)
      else none

/-- What the system does during `AcquireVirtualMemory`: whether each allocation, mapping and file operation succeeds. -/
structure VirtualEnv where
  aligned : Bool
  anonymous : Bool
  opens : Bool
  grows : Bool
  mapped : Bool
  plain : Bool
  deriving DecidableEq, Repr

/-- memory.c:119-125 `VirtualMemoryType`. -/
inductive VirtualType where
  | undefined | aligned | map | unaligned
  deriving DecidableEq, Repr

/-- memory.c:157-172 `struct _MemoryInfo`: `file` tells whether it has a file name, `blob` whether the pointer is not NULL. -/
structure MemoryInfo where
  file : Bool
  type : VirtualType
  length : Nat
  blob : Bool
  deriving DecidableEq, Repr

/-- memory.c:978-1014 `RelinquishVirtualMemory`. -/
def relinquishVirtual (s : ResourceInfo) (m : MemoryInfo) : Res ResourceInfo :=
  if m.blob then
    match m.type with
    | .aligned => relinquishResource s .memory m.length
    | .map => do
      let s ← relinquishResource s .map m.length
      if m.file then relinquishResource s .disk m.length else .ok s
    | _ => .ok s
  else .ok s

/-- memory.c:512-548: the attempt with a temporary file if `AcquireWizardResource(DiskResource)` was granted: whether the
file is mapped.  The name is not used after a failure. -/
def mapFile (granted : Bool) (s : ResourceInfo) (e : VirtualEnv) : Res (Bool × ResourceInfo) :=
  if granted then do
    let f ← acquireUniqueFile s e.opens
    .ok (f.1 && e.grows && e.mapped, f.2)
  else .ok (false, s)

/-- memory.c:552-560: the last attempt. -/
def virtualPlain (s : ResourceInfo) (e : VirtualEnv) (length : Nat) : Res (Option MemoryInfo × ResourceInfo) :=
  if e.plain then .ok (some ⟨false, .unaligned, length, true⟩, s)
  else do
    let s ← relinquishVirtual s ⟨false, .undefined, length, false⟩
    .ok (none, s)

/-- memory.c:551-560: after the attempts with a temporary file. -/
def virtualUnmapped (s : ResourceInfo) (e : VirtualEnv) (length : Nat) : Res (Option MemoryInfo × ResourceInfo) := do
  let s ← relinquishResource s .map length
  virtualPlain s e length

/-- memory.c:512-560: the mapping of a temporary file, after the anonymous mapping failed. -/
def virtualFile (s : ResourceInfo) (e : VirtualEnv) (length : Nat) : Res (Option MemoryInfo × ResourceInfo) := do
  let d ← acquireResource s .disk length
  let f ← mapFile d.1 d.2 e
  if f.1 then .ok (some ⟨true, .map, length, true⟩, f.2)
  else do
    let s ← relinquishResource f.2 .disk length
    virtualUnmapped s e length

/-- memory.c:500-560: what is tried when there is no aligned heap memory. -/
def virtualMap (s : ResourceInfo) (e : VirtualEnv) (length : Nat) : Res (Option MemoryInfo × ResourceInfo) := do
  let s ← relinquishResource s .memory length
  let m ← acquireResource s .map length
  if m.1 then
    if e.anonymous then .ok (some ⟨false, .map, length, true⟩, m.2) else virtualFile m.2 e length
  else virtualUnmapped m.2 e length

/-- memory.c:469-561 `AcquireVirtualMemory`: `none` is NULL.  The structure itself is always allocated (its failure is the fatal
error exit). -/
def acquireVirtual (s : ResourceInfo) (e : VirtualEnv) (count quantum : Nat) : Res (Option MemoryInfo × ResourceInfo) :=
  match quantumExtent count quantum with
  | none => .ok (none, s)
  | some length => do
    let a ← acquireResource s .memory length
    if a.1 && e.aligned then .ok (some ⟨false, .aligned, length, true⟩, a.2) else virtualMap a.2 e length

end Wizard

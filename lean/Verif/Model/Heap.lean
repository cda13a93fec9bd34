import Verif.Model.Basic
/-!
The memory pool (memory.c, `WIZARDSTOOLKIT_EMBEDDABLE_SUPPORT`): boundary tags over segments that come from the system, and one sorted
list of free blocks per size class.  Addresses and words are numbers; memory is a function from addresses to bytes, and a word is eight
bytes, the lowest first.  An access to memory the system has not given, or a word that is not aligned, is undefined behaviour.  The lock is
left out (every function but two assertions runs under it), and so is the counter `allocation`, which nothing reads.
-/
namespace Wizard.Pool
open Wizard

/-- A word in memory. -/
def word (m : Nat → Nat) (a : Nat) : Nat :=
  m a % 256 + 256 * (m (a + 1) % 256) + 65536 * (m (a + 2) % 256) + 16777216 * (m (a + 3) % 256) + 4294967296 * (m (a + 4) % 256) +
    1099511627776 * (m (a + 5) % 256) + 281474976710656 * (m (a + 6) % 256) + 72057594037927936 * (m (a + 7) % 256)

/-- Memory after a word is stored. -/
def setWord (m : Nat → Nat) (a w : Nat) : Nat → Nat := fun x =>
  if x = a then w % 256
  else if x = a + 1 then w / 256 % 256
  else if x = a + 2 then w / 65536 % 256
  else if x = a + 3 then w / 16777216 % 256
  else if x = a + 4 then w / 4294967296 % 256
  else if x = a + 5 then w / 1099511627776 % 256
  else if x = a + 6 then w / 281474976710656 % 256
  else if x = a + 7 then w / 72057594037927936 % 256
  else m x

/-- memory.c:174-188 `MemoryPool` and memory.c:208 `free_segments`: `blocks` are the heads of the lists, `segments` the array of segments
(address and length), `unused` the number of elements of the list `free_segments`.  `mapped` is not in the program: the memory the system
has given. -/
structure Heap where
  mem : Nat → Nat
  mapped : List (Nat × Nat)
  blocks : Nat → Nat
  segments : List (Nat × Nat)
  unused : Nat

/-- Before the first call: static variables are zero. -/
def start (mem : Nat → Nat) : Heap := ⟨mem, [], fun _ => 0, [], 0⟩

/-- memory.c:102-104: `BlockThreshold/32+MaxBlockExponent+1`. -/
def maxBlocks : Nat := 49

/-- memory.c:105. -/
def maxSegments : Nat := 1024

/-- memory.c:112. -/
def segmentSize : Nat := 2097152

/-- Whether the system has given the word at the address. -/
def given (h : Heap) (a : Nat) : Bool := decide (a % 8 = 0) && h.mapped.any (fun s => decide (s.1 ≤ a) && decide (a + 8 ≤ s.1 + s.2))

/-- Read a word. -/
def load (h : Heap) (a : Nat) : Res Nat := if given h a then .ok (word h.mem a) else .ub

/-- Write a word. -/
def store (h : Heap) (a w : Nat) : Res Heap := if given h a then .ok { h with mem := setWord h.mem a w } else .ub

/-- memory.c:100, 113-114 `SizeOfBlock`. -/
def sizeOf (h : Heap) (b : Nat) : Res Nat := do
  let w ← load h (b - 8)
  .ok (w / 2 * 2)

/-- memory.c:340-341. -/
def halvings (size : Nat) : Nat := if size > 1024 then halvings (size / 2) + 1 else 0
termination_by size

/-- memory.c:319-345 `AllocationPolicy`. -/
def policy (size : Nat) : Res Nat :=
  if size = 0 then .ub
  else if size % 32 ≠ 0 then .ub
  else if size ≤ 1024 then .ok (size / 32)
  else if size > 33554432 then .ok (maxBlocks - 1)
  else
    let n := 32 + halvings size
    if n > 32 ∧ n < maxBlocks - 1 then .ok n else .ub

/-- memory.c:357-363: find the place in a list; the previous and the next element. -/
def insertWalk (h : Heap) (size : Nat) : Nat → Nat → Nat → Res (Nat × Nat)
  | 0, _, _ => .fatal
  | fuel + 1, previous, next =>
    if next = 0 then .ok (previous, next)
    else do
      let s ← sizeOf h next
      if s < size then do
        let n ← load h next
        insertWalk h size fuel next n
      else .ok (previous, next)

/-- memory.c:366-369 and 382-385: make `block` what comes after `previous`. -/
def linkNext (h : Heap) (i previous block : Nat) : Res Heap :=
  if previous ≠ 0 then store h previous block else .ok { h with blocks := fun j => if j = i then block else h.blocks j }

/-- memory.c:370-371 and 386-387: make `block` what comes before `next`. -/
def linkPrevious (h : Heap) (next block : Nat) : Res Heap := if next ≠ 0 then store h (next + 8) block else .ok h

/-- memory.c:347-372 `InsertFreeBlock`. -/
def insertFree (fuel : Nat) (h : Heap) (block i : Nat) : Res Heap := do
  let size ← sizeOf h block
  let r ← insertWalk h size fuel 0 (h.blocks i)
  let h ← store h (block + 8) r.1
  let h ← store h block r.2
  let h ← linkNext h i r.1 block
  linkPrevious h r.2 block

/-- memory.c:374-388 `RemoveFreeBlock`. -/
def removeFree (h : Heap) (block i : Nat) : Res Heap := do
  let next ← load h block
  let previous ← load h (block + 8)
  let h ← linkNext h i previous next
  linkPrevious h next previous

/-- memory.c:401: the size of the block for a request. -/
def roundSize (n : Nat) : Nat := (n + 55) % sizeMax / 32 * 32

/-- memory.c:403-405: the first block of a list that is large enough, or NULL. -/
def fitWalk (h : Heap) (size : Nat) : Nat → Nat → Res Nat
  | 0, _ => .fatal
  | fuel + 1, block =>
    if block = 0 then .ok 0
    else do
      let s ← sizeOf h block
      if s < size then do
        let n ← load h block
        fitWalk h size fuel n
      else .ok block

/-- memory.c:408-411: the next class that is not empty.  The array has `maxBlocks+1` elements; the first argument is the number left. -/
def nextClass (blocks : Nat → Nat) : Nat → Nat → Res Nat
  | 0, _ => .ub
  | k + 1, i => if blocks i = 0 then nextClass blocks k (i + 1) else .ok i

/-- memory.c:403-414: find a free block; NULL if there is none. -/
def findFree (fuel : Nat) (h : Heap) (size : Nat) : Res Nat := do
  let i ← policy size
  let b ← fitWalk h size fuel (h.blocks i)
  if b = 0 then do
    let j ← nextClass h.blocks (maxBlocks + 1 - (i + 1)) (i + 1)
    if j ≥ maxBlocks then .ok 0 else .ok (h.blocks j)
  else .ok b

/-- memory.c:418-435: split a block. -/
def split (fuel : Nat) (h : Heap) (block size : Nat) : Res Heap := do
  let s ← sizeOf h block
  if s > size then do
    let next := block + size
    let blocksize := s - size
    let h ← store h (next - 8) blocksize
    let h ← store h (next + blocksize - 16) blocksize
    let i ← policy blocksize
    let h ← insertFree fuel h next i
    let w ← load h (block - 8)
    store h (block - 8) (size + w % 2)
  else .ok h

/-- memory.c:415-439: make a free block an allocated one. -/
def take (fuel : Nat) (h : Heap) (block size : Nat) : Res (Nat × Heap) := do
  let s ← sizeOf h block
  let w ← load h (block + s - 8)
  if w % 2 ≠ 0 then .ub
  else if s < size then .ub
  else do
    let i ← policy s
    let h ← removeFree h block i
    let h ← split fuel h block size
    let s ← sizeOf h block
    if s ≠ size then .ub
    else do
      let w ← load h (block + s - 8)
      let h ← store h (block + s - 8) (w / 2 * 2 + 1)
      .ok (block, h)

/-- memory.c:390-440 `AcquireBlock`. -/
def acquireBlock (fuel : Nat) (h : Heap) (n : Nat) : Res (Nat × Heap) := do
  let b ← findFree fuel h (roundSize n)
  if b = 0 then .ok (0, h) else take fuel h b (roundSize n)

/-- memory.c:815: the length of a segment for a request. -/
def segmentFor (n : Nat) : Nat := ((n + 96) % sizeMax + (segmentSize - 1)) % sizeMax / segmentSize * segmentSize

/-- memory.c:829-832: the segments are sorted by address. -/
def insertSegment : List (Nat × Nat) → Nat × Nat → List (Nat × Nat)
  | [], s => [s]
  | t :: l, s => if s.1 < t.1 then s :: t :: l else t :: insertSegment l s

/-- memory.c:834-842: the block and the marks at the end of a new segment. -/
def layOut (fuel : Nat) (h : Heap) (base blocksize : Nat) : Res Heap := do
  let size := (blocksize + (sizeMax - 96)) % sizeMax
  let block := base + 32
  let h ← store h (block - 8) (size / 2 * 2 + 1)
  let h ← store h (block + size - 16) size
  let i ← policy size
  let h ← insertFree fuel h block i
  let s ← sizeOf h block
  let last := block + s
  if last < base + blocksize then do
    let h ← store h (last - 8) 16
    let s ← sizeOf h last
    store h (last + s - 8) 1
  else .ub

/-- memory.c:795-844 `ExpandHeap`; `grant` is the address of the memory the system gives, if any. -/
def expand (fuel : Nat) (h : Heap) (n : Nat) (grant : Option Nat) : Res (Bool × Heap) :=
  if h.segments.length ≥ maxSegments then .ub
  else match grant with
    | none => .ok (false, h)
    | some base =>
      if h.unused = 0 then .ub
      else do
        let blocksize := segmentFor n
        let h ← layOut fuel { h with mapped := (base, blocksize) :: h.mapped, segments := insertSegment h.segments (base, blocksize), unused := h.unused - 1 } base blocksize
        .ok (true, h)

/-- memory.c:596-619: the pool is set up when there are no unused segments, that is at the first call. -/
def setUp (h : Heap) : Heap :=
  if h.unused = 0 then { h with blocks := fun i => if i = maxBlocks then sizeMax - 1 else 0, segments := [], unused := maxSegments } else h

/-- memory.c:621 and others: `size == 0 ? 1UL : size`. -/
def atLeastOne (n : Nat) : Nat := if n = 0 then 1 else n

/-- memory.c:586-630 `AcquireWizardMemory`. -/
def acquire (fuel : Nat) (h : Heap) (n : Nat) (grant : Option Nat) : Res (Nat × Heap) := do
  let r ← acquireBlock fuel (setUp h) (atLeastOne n)
  if r.1 = 0 then do
    let e ← expand fuel r.2 (atLeastOne n) grant
    if e.1 then acquireBlock fuel e.2 (atLeastOne n) else .ok (0, e.2)
  else .ok r

/-- memory.c:1049-1062: join with the previous block if that is free. -/
def joinPrevious (h : Heap) (memory : Nat) : Res (Nat × Heap) := do
  let w ← load h (memory - 8)
  if w % 2 = 0 then do
    let f ← load h (memory - 16)
    let previous := memory - f
    let s ← sizeOf h previous
    let i ← policy s
    let h ← removeFree h previous i
    let s ← sizeOf h previous
    let t ← sizeOf h memory
    let w ← load h (previous - 8)
    let h ← store h (previous - 8) (s + t + w % 2)
    .ok (previous, h)
  else .ok (memory, h)

/-- memory.c:1063-1075: join with the next block if that is free. -/
def joinNext (h : Heap) (memory : Nat) : Res Heap := do
  let s ← sizeOf h memory
  let t ← sizeOf h (memory + s)
  let w ← load h (memory + s + t - 8)
  if w % 2 = 0 then do
    let next := memory + s
    let i ← policy t
    let h ← removeFree h next i
    let s ← sizeOf h memory
    let t ← sizeOf h next
    let w ← load h (memory - 8)
    store h (memory - 8) (s + t + w % 2)
  else .ok h

/-- memory.c:1039-1082 `RelinquishWizardMemory`. -/
def relinquish (fuel : Nat) (h : Heap) (memory : Nat) : Res Heap :=
  if memory = 0 then .ok h
  else do
    let s ← sizeOf h memory
    if s % 32 ≠ 0 then .ub
    else do
      let w ← load h (memory + s - 8)
      if w % 2 = 0 then .ub
      else do
        let r ← joinPrevious h memory
        let h ← joinNext r.2 r.1
        let s ← sizeOf h r.1
        let h ← store h (r.1 + s - 16) s
        let w ← load h (r.1 + s - 8)
        let h ← store h (r.1 + s - 8) (w / 2 * 2)
        let i ← policy s
        insertFree fuel h r.1 i

/-- Whether the system has given these bytes. -/
def givenRange (h : Heap) (a n : Nat) : Bool := h.mapped.any (fun s => decide (s.1 ≤ a) && decide (a + n ≤ s.1 + s.2))

/-- Memory after `memcpy`. -/
def copyBytes (m : Nat → Nat) (to «from» n : Nat) : Nat → Nat := fun x => if to ≤ x ∧ x < to + n then m («from» + (x - to)) else m x

/-- memory.c:1156-1172 `ResizeBlock`, for a block that is not NULL. -/
def resizeBlock (fuel : Nat) (h : Heap) (block n : Nat) : Res (Nat × Heap) := do
  let r ← acquireBlock fuel h n
  if r.1 = 0 then .ok (0, r.2)
  else do
    let s ← sizeOf r.2 block
    let k := if n ≤ s - 8 then n else s - 8
    if givenRange r.2 block k && givenRange r.2 r.1 k then .ok (r.1, { r.2 with mem := copyBytes r.2.mem r.1 block k }) else .ub

/-- memory.c:1175-1205 `ResizeWizardMemory`. -/
def resize (fuel : Nat) (h : Heap) (memory n : Nat) (grant : Option Nat) : Res (Nat × Heap) :=
  if memory = 0 then acquire fuel h n grant
  else do
    let r ← resizeBlock fuel h memory (atLeastOne n)
    if r.1 = 0 then do
      let e ← expand fuel r.2 (atLeastOne n) grant
      if e.1 then do
        let r ← resizeBlock fuel e.2 memory (atLeastOne n)
        if r.1 = 0 then .ub
        else do
          let h ← relinquish fuel r.2 memory
          .ok (r.1, h)
      else .fatal
    else do
      let h ← relinquish fuel r.2 memory
      .ok (r.1, h)

/-- A client writes a byte. -/
def poke (h : Heap) (a v : Nat) : Heap := { h with mem := fun x => if x = a then v else h.mem x }

/-- memory.c:748-769 `DestroyWizardMemory`: the memory that is given back to the system, and the state that is left. -/
def destroy (h : Heap) : List (Nat × Nat) × Heap :=
  (h.segments, { h with mapped := h.mapped.filter (fun s => !h.segments.contains s), blocks := fun _ => 0, segments := [], unused := 0 })

end Wizard.Pool

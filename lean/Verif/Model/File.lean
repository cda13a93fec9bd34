import Verif.Model.StringInfo
/-! file.c: chunks and integers of an open file, over system calls that may transfer less than asked, be interrupted, fail,
or be the last thing the process does. -/
namespace Wizard

/-- What one call of `read` or `write` does: it transfers at most `k + 1` bytes; it is interrupted by a signal; it fails for
another reason; or the process dies when `k` bytes have been written. -/
inductive IOEvent where
  | short (k : Nat)
  | intr
  | fail
  | crash (k : Nat)
  deriving DecidableEq, Repr

/-- An open file: content, offset, whether `errno` is `EINTR` (a successful call does not change `errno`), whether the process
is dead (what it does afterwards has no effect), and what the next system calls will do; once the list is empty they
transfer all they can. -/
structure FileIO where
  content : List Byte
  pos : Nat
  eintr : Bool
  dead : Bool
  sched : List IOEvent
  deriving DecidableEq, Repr

/-- `read(2)`: the bytes transferred, none at the end of the file and on failure. -/
def sysRead (f : FileIO) (n : Nat) : List Byte × FileIO :=
  match f.sched with
  | [] => ((f.content.drop f.pos).take n, { f with pos := f.pos + min n (f.content.length - f.pos) })
  | .short k :: s => ((f.content.drop f.pos).take (min n (k + 1)),
      { f with pos := f.pos + min (min n (k + 1)) (f.content.length - f.pos), sched := s })
  | .intr :: s => ([], { f with eintr := true, sched := s })
  | .fail :: s => ([], { f with eintr := false, sched := s })
  | .crash _ :: s => ([], { f with eintr := false, dead := true, sched := s })

/-- The file after `b` has been written at the offset. -/
def FileIO.put (f : FileIO) (b : List Byte) : FileIO :=
  if f.dead then f
  else { f with content := f.content.take f.pos ++ b ++ f.content.drop (f.pos + b.length), pos := f.pos + b.length }

/-- `write(2)`: the number of bytes transferred. -/
def sysWrite (f : FileIO) (b : List Byte) : Nat × FileIO :=
  match f.sched with
  | [] => (b.length, f.put b)
  | .short k :: s => (min b.length (k + 1), { f.put (b.take (k + 1)) with sched := s })
  | .intr :: s => (0, { f with eintr := true, sched := s })
  | .fail :: s => (0, { f with eintr := false, sched := s })
  | .crash k :: s => (0, { f.put (b.take k) with eintr := false, dead := true, sched := s })

/-- file.c:618-631: the loop of `ReadFileChunk`, `i` bytes of `n` being in the buffer.  The first argument bounds the number of
turns.  Returns the status, the buffer and the file. -/
def readLoop : Nat → FileIO → Nat → Nat → List Byte → Res (Bool × List Byte × FileIO)
  | 0, _, _, _, _ => .fatal
  | fuel + 1, f, n, i, buf =>
    if i < n then
      let r := sysRead f (min (n - i) 8192)
      if r.1.length = 0 then
        if r.2.eintr then readLoop fuel r.2 n i buf else .ok (false, buf, r.2)
      else do
        let buf ← wrN buf i r.1
        readLoop fuel r.2 n (i + r.1.length) buf
    else .ok (true, buf, f)

/-- file.c:606-632 `ReadFileChunk`, for lengths below 2^63 (the loop compares them as signed numbers). -/
def readFileChunk (fuel : Nat) (f : FileIO) (buf : List Byte) (length : Nat) : Res (Bool × List Byte × FileIO) :=
  readLoop fuel f length 0 buf

/-- file.c:863-875: the loop of `WriteFileChunk`, `i` bytes being written. -/
def writeLoop : Nat → FileIO → List Byte → Nat → Res (Bool × FileIO)
  | 0, _, _, _ => .fatal
  | fuel + 1, f, data, i =>
    if i < data.length then
      let r := sysWrite f (data.drop i)
      if r.1 = 0 then
        if r.2.eintr then writeLoop fuel r.2 data i else .ok (false, r.2)
      else writeLoop fuel r.2 data (i + r.1)
    else .ok (true, f)

/-- file.c:851-876 `WriteFileChunk`. -/
def writeFileChunk (fuel : Nat) (f : FileIO) (data : List Byte) : Res (Bool × FileIO) := writeLoop fuel f data 0

/-- A `size_t` made of a byte. -/
def wide (b : Byte) : BitVec 64 := b.setWidth 64

/-- file.c:660-678 `ReadFile16Bits`: status and value; the value is `old` if the bytes could not be read. -/
def readFile16 (fuel : Nat) (f : FileIO) (old : BitVec 16) : Res (Bool × BitVec 16 × FileIO) := do
  let r ← readFileChunk fuel f (List.replicate 2 0) 2
  if r.1 then do
    let b0 ← rd r.2.1 0
    let b1 ← rd r.2.1 1
    .ok (true, (b1.setWidth 16 <<< 8) ||| b0.setWidth 16, r.2.2)
  else .ok (false, old, r.2.2)

/-- file.c:706-726 `ReadFile32Bits`. -/
def readFile32 (fuel : Nat) (f : FileIO) (old : BitVec 64) : Res (Bool × BitVec 64 × FileIO) := do
  let r ← readFileChunk fuel f (List.replicate 4 0) 4
  if r.1 then do
    let b0 ← rd r.2.1 0
    let b1 ← rd r.2.1 1
    let b2 ← rd r.2.1 2
    let b3 ← rd r.2.1 3
    .ok (true, (wide b3 <<< 24) ||| (wide b2 <<< 16) ||| (wide b1 <<< 8) ||| wide b0, r.2.2)
  else .ok (false, old, r.2.2)

/-- file.c:754-778 `ReadFile64Bits`. -/
def readFile64 (fuel : Nat) (f : FileIO) (old : BitVec 64) : Res (Bool × BitVec 64 × FileIO) := do
  let r ← readFileChunk fuel f (List.replicate 8 0) 8
  if r.1 then do
    let b0 ← rd r.2.1 0
    let b1 ← rd r.2.1 1
    let b2 ← rd r.2.1 2
    let b3 ← rd r.2.1 3
    let b4 ← rd r.2.1 4
    let b5 ← rd r.2.1 5
    let b6 ← rd r.2.1 6
    let b7 ← rd r.2.1 7
    .ok (true, (wide b7 <<< 56) ||| (wide b6 <<< 48) ||| (wide b5 <<< 40) ||| (wide b4 <<< 32) ||| (wide b3 <<< 24) |||
      (wide b2 <<< 16) ||| (wide b1 <<< 8) ||| wide b0, r.2.2)
  else .ok (false, old, r.2.2)

/-- file.c:904-915 `WriteFile16Bits`. -/
def writeFile16 (fuel : Nat) (f : FileIO) (v : BitVec 16) : Res (Bool × FileIO) :=
  writeFileChunk fuel f [v.setWidth 8, (v >>> 8).setWidth 8]

/-- file.c:943-956 `WriteFile32Bits`: the value is a `size_t`, its upper half is dropped. -/
def writeFile32 (fuel : Nat) (f : FileIO) (v : BitVec 64) : Res (Bool × FileIO) :=
  writeFileChunk fuel f [v.setWidth 8, (v >>> 8).setWidth 8, (v >>> 16).setWidth 8, (v >>> 24).setWidth 8]

/-- file.c:984-1001 `WriteFile64Bits`. -/
def writeFile64 (fuel : Nat) (f : FileIO) (v : BitVec 64) : Res (Bool × FileIO) :=
  writeFileChunk fuel f [v.setWidth 8, (v >>> 8).setWidth 8, (v >>> 16).setWidth 8, (v >>> 24).setWidth 8,
    (v >>> 32).setWidth 8, (v >>> 40).setWidth 8, (v >>> 48).setWidth 8, (v >>> 56).setWidth 8]

end Wizard

import Verif.Model.Basic
/-! Byte strings with slack (`StringInfo`, string.c). -/
namespace Wizard

/-- cipher.h:27 -/
def maxCipherBlocksize : Nat := 128

/-- method-attribute.h:106 -/
def wizardPathExtent : Nat := 4096

/-- string.c:57-73 `struct _StringInfo`: the logical length and the allocated bytes
(`datum.length` is the size of the allocation). The path, time stamp and signature are not modelled. -/
structure StringInfo where
  length : Nat
  datum : List Byte
  deriving Repr, DecidableEq

/-- The bytes a user sees: `GetStringInfoDatum` for `GetStringInfoLength` bytes. -/
def StringInfo.bytes (s : StringInfo) : List Byte := s.datum.take s.length

/-- Every byte string carries at least `MaxCipherBlocksize` bytes of slack after its length
(string.c:192-198, 1874-1878). -/
def StringInfo.WF (s : StringInfo) : Prop := s.length + maxCipherBlocksize ≤ s.datum.length

instance (s : StringInfo) : Decidable s.WF := by unfold StringInfo.WF; infer_instance

/-- string.c:179-200 `AcquireStringInfo`. A length whose allocation size would wrap is a fatal
error (line 192 admits a wrap to exactly 0 bytes, which `AcquireQuantumMemory` refuses);
exhaustion of memory is not modelled. -/
def acquireStringInfo (n : Nat) : Res StringInfo :=
  if n + maxCipherBlocksize < sizeMax then
    .ok ⟨n, List.replicate (n + maxCipherBlocksize) 0⟩
  else .fatal

/-- string.c:1792-1804 `SetStringInfo`. -/
def setStringInfo (s src : StringInfo) : Res StringInfo :=
  if s.length = 0 then .ok s
  else do
    let d ← wrN s.datum 0 (List.replicate s.length 0)
    let b ← rdN src.datum 0 (min s.length src.length)
    let d ← wrN d 0 b
    pure { s with datum := d }

/-- string.c:332-344 `CloneStringInfo`: copies the slack as well. -/
def cloneStringInfo (s : StringInfo) : Res StringInfo := do
  let c ← acquireStringInfo s.length
  if s.length = 0 then pure c
  else do
    let b ← rdN s.datum 0 (s.length + maxCipherBlocksize)
    let d ← wrN c.datum 0 b
    pure { c with datum := d }

/-- string.c:1761-1774 `ResetStringInfo`. -/
def resetStringInfo (s : StringInfo) : Res StringInfo := do
  let d ← wrN s.datum 0 (List.replicate s.length 0)
  pure { s with datum := d }

/-- string.c:1832-1839 `SetStringInfoDatum`: copies `length` bytes from a caller's buffer. -/
def setStringInfoDatum (s : StringInfo) (src : List Byte) : Res StringInfo := do
  let b ← rdN src 0 s.length
  let d ← wrN s.datum 0 b
  pure { s with datum := d }

/-- string.c:1865-1881 `SetStringInfoLength`: resizes; new bytes are uninitialised. -/
def setStringInfoLength (s : StringInfo) (n : Nat) (junk : Nat → Byte) : Res StringInfo :=
  if n + maxCipherBlocksize < sizeMax then
    .ok ⟨n, reallocMem s.datum (n + maxCipherBlocksize) junk⟩
  else .fatal

/-- string.c:1937-1953 `SplitStringInfo`: `none` is the NULL result. Returns the split-off
string and the new value of the argument. -/
def splitStringInfo (s : StringInfo) (offset : Nat) (junk : Nat → Byte) :
    Res (Option StringInfo × StringInfo) :=
  if s.length < offset then .ok (none, s)
  else do
    let sp ← acquireStringInfo offset
    let sp ← setStringInfo sp s
    let b ← rdN s.datum offset (s.length - offset + maxCipherBlocksize)
    let d ← wrN s.datum 0 b
    let s' ← setStringInfoLength { s with datum := d } (s.length - offset) junk
    pure (some sp, s')

/-- `memcmp` on equally long arrays: the difference of the first differing bytes. -/
def memcmp : List Byte → List Byte → Int
  | a :: as, b :: bs => if a = b then memcmp as bs else (a.toNat : Int) - b.toNat
  | _, _ => 0

/-- string.c:372-389 `CompareStringInfo`. -/
def compareStringInfo (t s : StringInfo) : Res Int := do
  let n := min t.length s.length
  let a ← rdN t.datum 0 n
  let b ← rdN s.datum 0 n
  let status := memcmp a b
  if status ≠ 0 then pure status
  else if t.length = s.length then pure 0
  else pure (if t.length < s.length then -1 else 1)

/-- memory-private.h:53 inner loop `for (extent=256; extent < length; extent*=2)`; the fuel is
the number of doublings and 64 always suffices below 131072. -/
def overAllocateLoop : Nat → Nat → Nat → Nat
  | 0, extent, _ => extent
  | f + 1, extent, length => if extent < length then overAllocateLoop f (extent * 2) length else extent

/-- memory-private.h:43-55 `OverAllocateMemory`. -/
def overAllocateMemory (length : Nat) : Nat :=
  if length < 131072 then overAllocateLoop 64 256 length else length

/-- string.c:704-730 `ConcatenateStringInfo`. Note line 729: `length` is already the new total. -/
def concatenateStringInfo (s src : StringInfo) (junk : Nat → Byte) : Res StringInfo :=
  if sizeMax - 1 - s.length < src.length then .fatal
  else
    let length := s.length + src.length
    if sizeMax - 1 - length < wizardPathExtent then .fatal
    else do
      let d := reallocMem s.datum (overAllocateMemory (length + wizardPathExtent)) junk
      let b ← rdN src.datum 0 src.length
      let d ← wrN d length b
      pure ⟨length, d⟩

end Wizard

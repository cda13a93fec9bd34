import Verif.Model.StringInfo
/-! `ConvertUTF16ToUTF8` of wizard/xml-tree.c.  Allocations succeed; `junk` is what uninitialised memory holds. -/
namespace Wizard

/-- xml-tree.c:1350-1351 and 1354-1356: the code unit at `i`. -/
def utf16Unit (big : Bool) (content : List Byte) (i : Nat) : Res Nat := do
  let a ← rd content i
  let b ← rd content (i + 1)
  .ok (if big then a.toNat * 256 + b.toNat else b.toNat * 256 + a.toNat)

/-- xml-tree.c:1375-1377: the number of binary digits. -/
def bitLen (c : Nat) : Nat := if c = 0 then 0 else bitLen (c / 2) + 1

/-- xml-tree.c:1380-1385: the continuation bytes. -/
def putTail (c : Nat) : Nat → List Byte → Nat → Res (List Byte × Nat)
  | 0, buf, j => .ok (buf, j)
  | bits + 1, buf, j => do
    let buf ← wr buf j (BitVec.ofNat 8 (0x80 ||| ((c >>> (6 * bits)) &&& 0x3f)))
    putTail c bits buf (j + 1)

/-- xml-tree.c:1366-1385: write one code point. -/
def putUtf8 (c : Nat) (buf : List Byte) (j : Nat) : Res (List Byte × Nat) :=
  if c < 0x80 then do
    let buf ← wr buf j (BitVec.ofNat 8 c)
    .ok (buf, j + 1)
  else do
    let bits := (bitLen c - 2) / 5
    let buf ← wr buf j (BitVec.ofNat 8 ((0xFF <<< (7 - bits)) ||| (c >>> (6 * bits))))
    putTail c bits buf (j + 1)

/-- xml-tree.c:1352-1358: the code point that begins with the code unit `c` at `i`, and the position of its last code unit (or past
the end). -/
def utf16Point (big : Bool) (content : List Byte) (length i c : Nat) : Res (Nat × Nat) :=
  if c ≥ 0xd800 ∧ c ≤ 0xdfff then
    if i + 2 < length - 1 then do
      let byte ← utf16Unit big content (i + 2)
      .ok ((((c &&& 0x3ff) <<< 10) ||| (byte &&& 0x3ff)) + 0x10000, i + 2)
    else .ok (c, i + 2)
  else .ok (c, i)

/-- xml-tree.c:1359-1365: make room. -/
def utf8Room (junk : Nat → Byte) (extent : Nat) (buf : List Byte) (j : Nat) : Nat × List Byte :=
  if j + wizardPathExtent > extent then (j + wizardPathExtent, reallocMem buf (j + wizardPathExtent) junk) else (extent, buf)

/-- xml-tree.c:1348-1386: the loop.  `length` is at least 1. -/
def utf16Loop (junk : Nat → Byte) (big : Bool) (content : List Byte) (length : Nat) : Nat → Nat → Nat → Nat → List Byte → Res (List Byte × Nat)
  | 0, _, _, _, _ => .fatal
  | fuel + 1, i, j, extent, buf =>
    if i < length - 1 then do
      let c ← utf16Unit big content i
      let p ← utf16Point big content length i c
      let room := utf8Room junk extent buf j
      let r ← putUtf8 p.1 room.2 j
      utf16Loop junk big content length fuel (p.2 + 2) r.2 room.1 r.1
    else .ok (buf, j)

/-- xml-tree.c:1387-1391: cut the buffer to the length of the text, then write the NUL behind it.  `none` is the NULL that
`ResizeQuantumMemory` returns for no bytes at all (memory.c:1243-1248). -/
def utf16Finish (junk : Nat → Byte) (buf : List Byte) (j : Nat) : Res (Option (List Byte × Nat)) :=
  if j = 0 then .ok none
  else do
    let buf ← wr (reallocMem buf j junk) j 0
    .ok (some (buf, j))

/-- xml-tree.c:1313-1392 `ConvertUTF16ToUTF8`: the new text and its length. -/
def convertUTF16ToUTF8 (junk : Nat → Byte) (content : List Byte) (length : Nat) : Res (Option (List Byte × Nat)) := do
  let buf := (List.range (length + 1)).map junk
  let c ← rd content 0
  if c = 0xFE ∨ c = 0xFF then do
    let r ← utf16Loop junk (c == 0xFE) content length (length + 1) 2 0 length buf
    utf16Finish junk r.1 r.2
  else do
    let text ← rdN content 0 length
    let buf ← wrN buf 0 text
    let buf ← wr buf length 0
    .ok (some (buf, length))

/-- xml-tree.c:2030-2031: what `NewXMLTree` converts; the text has a NUL at its end. -/
def convertDocument (junk : Nat → Byte) (xml : List Byte) : Res (Option (List Byte × Nat)) :=
  convertUTF16ToUTF8 junk xml (xml.takeWhile (· != 0)).length

end Wizard

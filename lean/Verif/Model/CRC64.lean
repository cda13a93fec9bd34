import Verif.Model.StringInfo
/-! crc64.c. -/
namespace Wizard

/-- crc64.c:56-74 `struct _CRC64Info`; block and digest size are the constants 32 and 8 (lines 50-51). -/
structure Crc64Info where
  digest : List Byte
  crcXor : List (BitVec 64)
  crc : BitVec 64
  deriving DecidableEq, Repr

/-- crc64.c:94-113 `AcquireCRC64Info`: the table of 256 words is allocated but not set (`junk`). -/
def acquireCrc64 (junk : List (BitVec 64)) : Crc64Info := ⟨List.replicate (8 + maxCipherBlocksize) 0, junk, 0⟩

/-- crc64.c:357-362: the inner loop that makes one entry of the table. -/
def crc64Entry (alpha : BitVec 64) : BitVec 64 :=
  (List.range 8).foldl (fun (alpha : BitVec 64) _ =>
    if alpha &&& 0x01#64 != 0#64 then (alpha >>> 1) ^^^ 0xd800000000000000#64 else alpha >>> 1) alpha

/-- crc64.c:338-366 `InitializeCRC64`. -/
def initializeCrc64 (s : Crc64Info) : Crc64Info :=
  { s with crc := 0, crcXor := (List.range 256).map fun i => crc64Entry (BitVec.ofNat 64 i) }

/-- crc64.c:407-412: one turn of the loop; an index outside the table is undefined. -/
def crc64Turn (table : List (BitVec 64)) (crc : BitVec 64) (p : Byte) : Res (BitVec 64) :=
  match table[((crc ^^^ p.setWidth 64) &&& 0xff#64).toNat]? with
  | some x => .ok ((crc >>> 8) ^^^ x)
  | none => .ub

/-- crc64.c:407-412: the loop, with `n` bytes left to do from `p`. -/
def crc64Loop (table : List (BitVec 64)) (datum : List Byte) : Nat → Nat → BitVec 64 → Res (BitVec 64)
  | 0, _, crc => .ok crc
  | n + 1, p, crc => do
    let b ← rd datum p
    let crc ← crc64Turn table crc b
    crc64Loop table datum n (p + 1) crc

/-- crc64.c:391-414 `UpdateCRC64`. -/
def updateCrc64 (s : Crc64Info) (d : StringInfo) : Res Crc64Info := do
  let crc ← crc64Loop s.crcXor d.datum d.length 0 s.crc
  .ok { s with crc := crc }

/-- crc64.c:174-192 `FinalizeCRC64`. -/
def finalizeCrc64 (s : Crc64Info) : Res Crc64Info := do
  let g ← wrN s.digest 0 [(s.crc >>> 56).setWidth 8, (s.crc >>> 48).setWidth 8, (s.crc >>> 40).setWidth 8,
    (s.crc >>> 32).setWidth 8, (s.crc >>> 24).setWidth 8, (s.crc >>> 16).setWidth 8, (s.crc >>> 8).setWidth 8,
    (s.crc >>> 0).setWidth 8]
  .ok { s with digest := g }

end Wizard

import Verif.Model.Sha
/-! signature.c: SHA-256 once more, on words of the type `size_t` (64 bits).  The assertions on the signature always hold of an initialised
object and are not modelled. -/
namespace Wizard

/-- signature.h:28-46 `SignatureInfo`. -/
structure SignatureInfo where
  digest : List (BitVec 64)
  low : BitVec 64
  high : BitVec 64
  offset : Nat
  message : List Byte

/-- signature.c:52 `Trunc32`. -/
def trunc32 (x : BitVec 64) : BitVec 64 := x &&& 0xffffffff#64

/-- signature.c:191-197. -/
def sigCh (x y z : BitVec 64) : BitVec 64 := (x &&& y) ^^^ (~~~x &&& z)
def sigMaj (x y z : BitVec 64) : BitVec 64 := (x &&& y) ^^^ (x &&& z) ^^^ (y &&& z)
def sigRotate (x : BitVec 64) (n : Nat) : BitVec 64 := trunc32 ((x >>> n) ||| (x <<< (32 - n)))
def sigSigma0 (x : BitVec 64) : BitVec 64 := sigRotate x 7 ^^^ sigRotate x 18 ^^^ trunc32 (x >>> 3)
def sigSigma1 (x : BitVec 64) : BitVec 64 := sigRotate x 17 ^^^ sigRotate x 19 ^^^ trunc32 (x >>> 10)
def sigSuma0 (x : BitVec 64) : BitVec 64 := sigRotate x 2 ^^^ sigRotate x 13 ^^^ sigRotate x 22
def sigSuma1 (x : BitVec 64) : BitVec 64 := sigRotate x 6 ^^^ sigRotate x 11 ^^^ sigRotate x 25

/-- signature.c:208-224 `K`. -/
def sigK : List (BitVec 64) :=
  [0x428a2f98, 0x71374491, 0xb5c0fbcf, 0xe9b5dba5, 0x3956c25b, 0x59f111f1, 0x923f82a4, 0xab1c5ed5,
   0xd807aa98, 0x12835b01, 0x243185be, 0x550c7dc3, 0x72be5d74, 0x80deb1fe, 0x9bdc06a7, 0xc19bf174,
   0xe49b69c1, 0xefbe4786, 0x0fc19dc6, 0x240ca1cc, 0x2de92c6f, 0x4a7484aa, 0x5cb0a9dc, 0x76f988da,
   0x983e5152, 0xa831c66d, 0xb00327c8, 0xbf597fc7, 0xc6e00bf3, 0xd5a79147, 0x06ca6351, 0x14292967,
   0x27b70a85, 0x2e1b2138, 0x4d2c6dfc, 0x53380d13, 0x650a7354, 0x766a0abb, 0x81c2c92e, 0x92722c85,
   0xa2bfe8a1, 0xa81a664b, 0xc24b8b70, 0xc76c51a3, 0xd192e819, 0xd6990624, 0xf40e3585, 0x106aa070,
   0x19a4c116, 0x1e376c08, 0x2748774c, 0x34b0bcb5, 0x391c0cb3, 0x4ed8aa4a, 0x5b9cca4f, 0x682e6ff3,
   0x748f82ee, 0x78a5636f, 0x84c87814, 0x8cc70208, 0x90befffa, 0xa4506ceb, 0xbef9a3f7, 0xc67178f2]

/-- signature.c:275-276, 278-279. -/
def sigSwap (T : BitVec 64) : BitVec 64 :=
  ((T <<< 24) &&& 0xff000000#64) ||| ((T <<< 8) &&& 0x00ff0000#64) ||| ((T >>> 8) &&& 0x0000ff00#64) ||| ((T >>> 24) &&& 0x000000ff#64)

/-- signature.c:242-280: the first sixteen words, read two at a time (`size_t` has eight bytes; lines 245-251 and 262-269 are for four). -/
def sigLoad (lsb : Bool) (b : List Byte) : List (BitVec 64) :=
  (List.range 8).flatMap fun j =>
    let T := shaHostRead 64 lsb b j
    if lsb then [sigSwap T, sigSwap (T >>> 32)] else [trunc32 (T >>> 32), trunc32 T]

/-- signature.c:292-293. -/
def sigSchedule (W : List (BitVec 64)) : List (BitVec 64) :=
  (List.range 48).foldl (fun W j =>
    let i := j + 16
    W ++ [trunc32 (sigSigma1 (W.getD (i - 2) 0) + W.getD (i - 7) 0 + sigSigma0 (W.getD (i - 15) 0) + W.getD (i - 16) 0)]) W

/-- signature.c:294-306: turn `j`. -/
def sigTurn (W : List (BitVec 64)) (r : Sha2Regs 64) (j : Nat) : Sha2Regs 64 :=
  let T1 := trunc32 (r.H + sigSuma1 r.E + sigCh r.E r.F r.G + sigK.getD j 0 + W.getD j 0)
  let T2 := trunc32 (sigSuma0 r.A + sigMaj r.A r.B r.C)
  ⟨trunc32 (T1 + T2), r.A, r.B, r.C, trunc32 (r.D + T1), r.E, r.F, r.G⟩

/-- signature.c:189-318 `TransformSignature`. -/
def transformSignature (lsb : Bool) (s : SignatureInfo) : SignatureInfo :=
  let g := s.digest
  let r := (List.range 64).foldl (sigTurn (sigSchedule (sigLoad lsb s.message))) (sha2Regs g)
  { s with digest := [trunc32 (g.getD 0 0 + r.A), trunc32 (g.getD 1 0 + r.B), trunc32 (g.getD 2 0 + r.C), trunc32 (g.getD 3 0 + r.D),
      trunc32 (g.getD 4 0 + r.E), trunc32 (g.getD 5 0 + r.F), trunc32 (g.getD 6 0 + r.G), trunc32 (g.getD 7 0 + r.H)] }

/-- signature.c:145-164 `GetSignatureInfo`. -/
def getSignatureInfo : SignatureInfo :=
  ⟨[0x6a09e667, 0xbb67ae85, 0x3c6ef372, 0xa54ff53a, 0x510e527f, 0x9b05688c, 0x1f83d9ab, 0x5be0cd19], 0, 0, 0, List.replicate 64 0⟩

/-- signature.c:383-392: whole blocks from `p` on while `n` bytes are left, and the rest.  `fuel` bounds the number of turns. -/
def signatureBlocks (lsb : Bool) (message : List Byte) : Nat → SignatureInfo → Nat → Nat → Res SignatureInfo
  | 0, _, _, _ => .fatal
  | fuel + 1, s, p, n =>
    if n ≥ 64 then do
      let b ← rdN message p 64
      let m ← wrN s.message 0 b
      signatureBlocks lsb message fuel (transformSignature lsb { s with message := m }) (p + 64) (n - 64)
    else do
      let b ← rdN message p n
      let m ← wrN s.message 0 b
      .ok { s with message := m, offset := n }

/-- signature.c:348-393 `UpdateSignature`: `message` is what the pointer points at, `n` is `length`. -/
def updateSignature (lsb : Bool) (s : SignatureInfo) (message : List Byte) (n : Nat) : Res SignatureInfo :=
  let count := trunc32 (s.low + (BitVec.ofNat 64 n <<< 3))
  let high := if count < s.low then s.high + 1 else s.high
  let s := { s with low := count, high := high + (BitVec.ofNat 64 n >>> 29) }
  if s.offset ≠ 0 then do
    let i := if 64 - s.offset > n then n else 64 - s.offset
    let b ← rdN message 0 i
    let m ← wrN s.message s.offset b
    let s := { s with message := m, offset := s.offset + i }
    if s.offset ≠ 64 then .ok s
    else signatureBlocks lsb message (n + 1) (transformSignature lsb s) i (n - i)
  else signatureBlocks lsb message (n + 1) s 0 n

/-- signature.c:111-118: four bytes of a word, most significant first. -/
def sigWordBytes (x : BitVec 64) : List Byte := [(x >>> 24).setWidth 8, (x >>> 16).setWidth 8, (x >>> 8).setWidth 8, x.setWidth 8]

/-- signature.c:83-120 `FinalizeSignature`. -/
def finalizeSignature (lsb : Bool) (s : SignatureInfo) : Res SignatureInfo := do
  let count := ((s.low >>> 3) &&& 0x3f#64).toNat
  let m ← wr s.message count 0x80
  let count := count + 1
  let s ← if count ≤ 64 - 8 then do
      let m ← wrN m count (List.replicate (64 - 8 - count) 0)
      .ok { s with message := m }
    else do
      let m ← wrN m count (List.replicate (64 - count) 0)
      let s := transformSignature lsb { s with message := m }
      let m ← wrN s.message 0 (List.replicate (64 - 8) 0)
      .ok { s with message := m }
  let m ← wrN s.message 56 (sigWordBytes s.high ++ sigWordBytes s.low)
  .ok (transformSignature lsb { s with message := m })

/-- The calls a user makes: initialise, update with each part, finalize. -/
def signatureSession (lsb : Bool) (parts : List (List Byte)) : Res SignatureInfo := do
  let s ← parts.foldlM (fun s p => updateSignature lsb s p p.length) getSignatureInfo
  finalizeSignature lsb s

end Wizard

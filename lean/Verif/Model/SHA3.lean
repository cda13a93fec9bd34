import Verif.Model.StringInfo
/-! sha3.c. -/
namespace Wizard

/-- sha3.c:66-108 `struct _SHA3Info`, without the tables `rho` and `rounds` (functions of nothing, below) and
`capacity`, which is only read where it is set. -/
structure Sha3Info where
  digestsize : Nat
  digest : List Byte
  state : List Byte
  message : List Byte
  rate : Nat
  bitsInQueue : Nat
  length : Nat
  squeeze : Bool
  squeezeBits : Nat
  deriving DecidableEq, Repr

/-- sha3.c:55 `SHA3Index`. -/
def sha3Index (x y : Nat) : Nat := x % 5 + 5 * (y % 5)

/-- sha3.c:59-60 `SHA3RotateLeft`. -/
def sha3RotateLeft (x : BitVec 64) (offset : Nat) : BitVec 64 :=
  if offset ≠ 0 then (x <<< offset) ^^^ (x >>> (64 - offset)) else x

/-- sha3.c:618-632 `LFSR86540`: the output bit and the next byte. -/
def lfsr86540 (byte : Byte) : Bool × Byte :=
  (byte &&& 0x01 != 0, if byte &&& 0x80 != 0 then (byte <<< 1) ^^^ 0x71 else byte <<< 1)

/-- sha3.c:652-657: the inner loop, which makes one round constant. -/
def sha3RoundConstant (byte : Byte) : BitVec 64 × Byte :=
  (List.range 7).foldl (fun (s : BitVec 64 × Byte) j =>
    let r := lfsr86540 s.2
    (if r.1 then s.1 ^^^ ((1 : BitVec 64) <<< (2 ^ j - 1)) else s.1, r.2)) (0, byte)

/-- sha3.c:634-659 `SHA3InitializeRoundConstants`. -/
def sha3Rounds : List (BitVec 64) :=
  ((List.range 24).foldl (fun (s : List (BitVec 64) × Byte) _ =>
    let r := sha3RoundConstant s.2
    (s.1 ++ [r.1], r.2)) ([], 0x01)).1

/-- sha3.c:661-683 `SHA3InitializeRho`. -/
def sha3Rho : List Nat :=
  ((List.range 24).foldl (fun (s : List Nat × Nat × Nat) i =>
    let x := s.2.1
    let y := s.2.2
    (s.1.set (sha3Index x y) ((i + 1) * (i + 2) / 2 % 64), (0 * x + 1 * y) % 5, (2 * x + 3 * y) % 5))
    (List.replicate 25 0, 1, 0)).1

/-- The order of `for (x..) for (y..)`. -/
def sha3Pairs : List (Nat × Nat) := (List.range 5).flatMap fun x => (List.range 5).map fun y => (x, y)

/-- sha3.c:296-306 theta. -/
def sha3Theta (s : List (BitVec 64)) : List (BitVec 64) :=
  let C := (List.range 5).map fun x => (List.range 5).foldl (fun c y => c ^^^ s.getD (sha3Index x y) 0) 0
  let D := (List.range 5).map fun x => sha3RotateLeft (C.getD ((x + 1) % 5) 0) 1 ^^^ C.getD ((x + 4) % 5) 0
  sha3Pairs.foldl (fun s xy => s.set (sha3Index xy.1 xy.2) (s.getD (sha3Index xy.1 xy.2) 0 ^^^ D.getD xy.1 0)) s

/-- sha3.c:310-313 rho. -/
def sha3RhoStep (s : List (BitVec 64)) : List (BitVec 64) :=
  sha3Pairs.foldl (fun s xy => s.set (sha3Index xy.1 xy.2)
    (sha3RotateLeft (s.getD (sha3Index xy.1 xy.2) 0) (sha3Rho.getD (sha3Index xy.1 xy.2) 0))) s

/-- sha3.c:317-322 pi (`T` is a copy of the state). -/
def sha3Pi (s : List (BitVec 64)) : List (BitVec 64) :=
  let T := s
  sha3Pairs.foldl (fun s xy => s.set (sha3Index (0 * xy.1 + 1 * xy.2) (2 * xy.1 + 3 * xy.2))
    (T.getD (sha3Index xy.1 xy.2) 0)) s

/-- sha3.c:326-333 chi. -/
def sha3Chi (s : List (BitVec 64)) : List (BitVec 64) :=
  (List.range 5).foldl (fun s y =>
    let C := (List.range 5).map fun x =>
      s.getD (sha3Index x y) 0 ^^^ (~~~s.getD (sha3Index (x + 1) y) 0 &&& s.getD (sha3Index (x + 2) y) 0)
    (List.range 5).foldl (fun s x => s.set (sha3Index x y) (C.getD x 0)) s) s

/-- sha3.c:337 iota. -/
def sha3Iota (i : Nat) (s : List (BitVec 64)) : List (BitVec 64) :=
  s.set (sha3Index 0 0) (s.getD (sha3Index 0 0) 0 ^^^ sha3Rounds.getD i 0)

/-- sha3.c:276-339 `SHA3PermutationOnWords`. -/
def sha3PermutationOnWords (s : List (BitVec 64)) : List (BitVec 64) :=
  (List.range 24).foldl (fun s i => sha3Iota i (sha3Chi (sha3Pi (sha3RhoStep (sha3Theta s))))) s

/-- sha3.c:243-258 `ConvertBytesToWords`. -/
def sha3ToWords (b : List Byte) : List (BitVec 64) :=
  (List.range 25).map fun i => (List.range 8).foldl (fun w j => w ||| ((b.getD (i * 8 + j) 0).setWidth 64 <<< (8 * j))) 0

/-- sha3.c:260-274 `ConvertWordsToBytes`. -/
def sha3ToBytes (w : List (BitVec 64)) : List Byte :=
  w.flatMap fun (x : BitVec 64) => (List.range 8).map fun j => ((x >>> (8 * j)) &&& 0xFF#64).setWidth 8

/-- sha3.c:341-355 `SHA3Permutation`.  On a host that stores the least significant byte first the conversions are
replaced by a cast, which has the same effect there. -/
def sha3Permutation (b : List Byte) : List Byte := sha3ToBytes (sha3PermutationOnWords (sha3ToWords b))

/-- sha3.c:357-366 `SHA3PermutationAfterXor` of the bytes `m`. -/
def sha3PermutationAfterXor (m state : List Byte) : List Byte :=
  sha3Permutation ((List.range m.length).foldl (fun s i => s.set i (s.getD i 0 ^^^ m.getD i 0)) state)

/-- sha3.c:368-410 `AbsorbQueue`: each case of the switch passes `rate/8`. -/
def sha3AbsorbQueue (s : Sha3Info) : Res Sha3Info := do
  let m ← rdN s.message 0 (s.rate / 8)
  .ok { s with state := sha3PermutationAfterXor m s.state, bitsInQueue := 0 }

/-- sha3.c:685-748 `InitializeSHA3`: the rate and the output length in bits of each hash type. -/
def initializeSha3 (rate capacity : Nat) (s : Sha3Info) : Sha3Info :=
  { s with rate := rate, state := List.replicate 200 0, message := List.replicate 192 0, bitsInQueue := 0,
           squeeze := false, squeezeBits := 0, length := capacity / 2 }

/-- sha3.c:132-184 `AcquireSHA3Info`. -/
def acquireSha3 (digestsize rate capacity : Nat) : Sha3Info :=
  initializeSha3 rate capacity
    ⟨digestsize, List.replicate (digestsize + maxCipherBlocksize) 0, [], [], 0, 0, 0, false, 0⟩

/-- sha3.c:834-838 and its copies: `blocks` whole blocks from `p`. -/
def sha3Blocks (datum : List Byte) : Nat → Nat → Sha3Info → Res Sha3Info
  | 0, _, s => .ok s
  | blocks + 1, p, s => do
    let b ← rdN datum p (s.rate / 8)
    sha3Blocks datum blocks (p + s.rate / 8) { s with state := sha3PermutationAfterXor b s.state }

/-- sha3.c:802-809: fill the queue; the bits of a last incomplete byte are returned, with the new index. -/
def sha3Fill (s : Sha3Info) (datum : List Byte) (length i : Nat) : Res (Sha3Info × Nat × Nat) := do
  let bits := (length - i) % 2 ^ 32
  let bits := if bits + s.bitsInQueue > s.rate then s.rate - s.bitsInQueue else bits
  let byte := bits % 8
  let bits := bits - byte
  let b ← rdN datum (i / 8) (bits / 8)
  let m ← wrN s.message (s.bitsInQueue / 8) b
  .ok ({ s with message := m, bitsInQueue := s.bitsInQueue + bits }, i + bits, byte)

/-- sha3.c:810-821: absorb a full queue; append the bits of an incomplete byte. -/
def sha3Rest (s : Sha3Info) (datum : List Byte) (i byte : Nat) : Res (Sha3Info × Nat) :=
  (if s.bitsInQueue = s.rate then sha3AbsorbQueue s else .ok s) >>= fun s =>
  if byte > 0 then do
    let b ← rd datum (i / 8)
    let m ← wr s.message (s.bitsInQueue / 8) (b &&& BitVec.ofNat 8 (2 ^ byte - 1))
    .ok ({ s with message := m, bitsInQueue := s.bitsInQueue + byte }, i + byte)
  else .ok (s, i)

/-- sha3.c:797-899: the loop of `Absorb`, `i` of `length` bits done.  `fuel` bounds the number of turns: when it
runs out the loop is still running, reported as `fatal`. -/
def sha3AbsorbLoop (datum : List Byte) (length : Nat) : Nat → Nat → Sha3Info → Res Sha3Info
  | 0, _, _ => .fatal
  | fuel + 1, i, s =>
    if i < length then
      if s.bitsInQueue ≠ 0 ∨ length < s.rate ∨ i > length - s.rate then do
        let (s, i, byte) ← sha3Fill s datum length i
        let (s, i) ← sha3Rest s datum i byte
        sha3AbsorbLoop datum length fuel i s
      else do
        let blocks := (length - i) / s.rate
        let s ← sha3Blocks datum blocks (i / 8) s
        sha3AbsorbLoop datum length fuel (i + blocks * s.rate) s
    else .ok s

/-- sha3.c:776-914 `Absorb` and `UpdateSHA3`: the returned flag and the new state.  Messages of 2^60 bytes and more,
whose bit count would not fit, are not modelled. -/
def updateSha3 (fuel : Nat) (s : Sha3Info) (d : StringInfo) : Res (Bool × Sha3Info) :=
  if s.bitsInQueue % 8 ≠ 0 then .ok (false, s)
  else if s.squeeze then .ok (false, s)
  else do
    let s ← sha3AbsorbLoop d.datum (8 * d.length) fuel 0 s
    .ok (true, s)

/-- sha3.c:414-427: the first bit of the padding. -/
def sha3PadFirst (s : Sha3Info) : Res Sha3Info :=
  if s.bitsInQueue + 1 = s.rate then do
    let b ← rd s.message (s.bitsInQueue / 8)
    let m ← wr s.message (s.bitsInQueue / 8) (b ||| (1#8 <<< (s.bitsInQueue % 8)))
    let s' ← sha3AbsorbQueue { s with message := m }
    let m ← wrN s'.message 0 (List.replicate (s.rate / 8) 0)
    .ok { s' with message := m }
  else do
    let m ← wrN s.message ((s.bitsInQueue + 7) / 8) (List.replicate (s.rate / 8 - (s.bitsInQueue + 7) / 8) 0)
    let b ← rd m (s.bitsInQueue / 8)
    let m ← wr m (s.bitsInQueue / 8) (b ||| (1#8 <<< (s.bitsInQueue % 8)))
    .ok { s with message := m }

/-- sha3.c:412-433 `PadAndSwitchToSqueezingPhase`. -/
def sha3Pad (s : Sha3Info) : Res Sha3Info := do
  let s ← sha3PadFirst s
  let b ← rd s.message ((s.rate - 1) / 8)
  let m ← wr s.message ((s.rate - 1) / 8) (b ||| (1#8 <<< ((s.rate - 1) % 8)))
  let s ← sha3AbsorbQueue { s with message := m }
  let b ← rdN s.state 0 (8 * s.rate / 64)
  let m ← wrN s.message 0 b
  .ok { s with message := m, squeezeBits := s.rate, squeeze := true }

/-- sha3.c:453-458: a new output block when the last is used up. -/
def sha3Refill (s : Sha3Info) : Res Sha3Info :=
  if s.squeezeBits = 0 then do
    let st := sha3Permutation s.state
    let b ← rdN st 0 (8 * s.rate / 64)
    let m ← wrN s.message 0 b
    .ok { s with state := st, message := m, squeezeBits := s.rate }
  else .ok s

/-- sha3.c:451-465: the loop of `Squeeze`, `i` of `length` bits done; `out` is the part of the output written. -/
def sha3SqueezeLoop (length : Nat) : Nat → Nat → Sha3Info → List Byte → Res (List Byte)
  | 0, _, _, _ => .fatal
  | fuel + 1, i, s, out =>
    if i < length then do
      let s ← sha3Refill s
      let bits := if s.squeezeBits > length - i then length - i else s.squeezeBits
      let b ← rdN s.message ((s.rate - s.squeezeBits) / 8) (bits / 8)
      sha3SqueezeLoop length fuel (i + bits) { s with squeezeBits := s.squeezeBits - bits } (out ++ b)
    else .ok out

/-- sha3.c:435-503 `FinalizeSHA3`, on a copy of the object.  The output buffer is uninitialised beyond what is
squeezed: reading there would be undefined. -/
def finalizeSha3 (s : Sha3Info) : Res (Bool × Sha3Info) :=
  (if s.squeeze = false then sha3Pad s else .ok s) >>= fun clone =>
  if s.length % 8 ≠ 0 then .ok (false, s)
  else do
    let out ← sha3SqueezeLoop s.length (s.length + 1) 0 clone []
    let b ← rdN out 0 s.digestsize
    let g ← wrN s.digest 0 b
    .ok (true, { s with digest := g })

/-- `GetSHA3Digest`: the bytes of the digest. -/
def sha3Digest (s : Sha3Info) : List Byte := s.digest.take s.digestsize

end Wizard

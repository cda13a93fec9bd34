import Verif.Model.HashInfo
/-! random.c: the generator behind GetRandomKey, SetRandomKey, GetRandomValue and GetPseudoRandomValue.  What
`GenerateEntropicChaos` gathers is a parameter, as is the uninitialised memory; the reservoir file, the semaphore and the
time stamp are not modelled. -/
namespace Wizard

/-- random.c:75-108 `struct _RandomInfo`.  `used` is not in the code: it records the values of `nonce` that were given to
the HMAC, oldest first. -/
structure RandomInfo where
  hmac : HmacInfo
  nonce : StringInfo
  reservoir : StringInfo
  i : Nat
  seed0 : BitVec 64
  seed1 : BitVec 64
  seed2 : BitVec 64
  seed3 : BitVec 64
  used : List (List Byte)
  deriving DecidableEq, Repr

/-- random.c:1059-1064: the loop of `IncrementRandomNonce` at index `i`; at index 0 the library stops (line 1065). -/
def incrementNonceLoop : Nat → List Byte → Res (List Byte)
  | 0, _ => .fatal
  | i + 1, d => do
    let b ← rd d (i + 1)
    let d ← wr d (i + 1) (b + 1)
    if b + 1 ≠ 0 then .ok d else incrementNonceLoop i d

/-- random.c:1050-1066 `IncrementRandomNonce`.  The nonce is never empty. -/
def incrementRandomNonce (nonce : StringInfo) : Res StringInfo := do
  let d ← incrementNonceLoop (nonce.length - 1) nonce.datum
  .ok ⟨nonce.length, d⟩

/-- random.c:1090-1096: bytes left in the reservoir; `n` bytes are still wanted, `out` is what has been written to the key.
Returns the number still wanted. -/
def randomDrain (size : Nat) : Nat → RandomInfo → List Byte → Res (Nat × RandomInfo × List Byte)
  | 0, r, out => .ok (0, r, out)
  | n + 1, r, out =>
    if r.i ≠ 0 then do
      let b ← rd r.reservoir.datum r.i
      randomDrain size n { r with i := if r.i + 1 = size then 0 else r.i + 1 } (out ++ [b])
    else .ok (n + 1, r, out)

/-- random.c:1099-1102, 1110-1113: the HMAC of the nonce, and the next nonce. -/
def randomBlock (lsb : Bool) (fuel : Nat) (r : RandomInfo) : Res RandomInfo := do
  let k ← resetHmac lsb fuel r.hmac
  let k ← updateHmac lsb fuel k r.nonce
  let k ← finalizeHmac lsb fuel k
  let n ← incrementRandomNonce r.nonce
  .ok { r with hmac := k, nonce := n, used := r.used ++ [r.nonce.bytes] }

/-- random.c:1097-1107: whole blocks.  The first argument bounds the number of turns. -/
def randomWhole (lsb : Bool) (fuel size : Nat) : Nat → Nat → RandomInfo → List Byte → Res (Nat × RandomInfo × List Byte)
  | 0, _, _, _ => .fatal
  | turns + 1, n, r, out =>
    if n ≥ size then do
      let r ← randomBlock lsb fuel r
      let b ← rdN r.hmac.digest.datum 0 size
      randomWhole lsb fuel size turns (n - size) r (out ++ b)
    else .ok (n, r, out)

/-- random.c:1108-1119: the last part comes from a new reservoir. -/
def randomLast (lsb : Bool) (fuel n : Nat) (r : RandomInfo) (out : List Byte) : Res (List Byte × RandomInfo) :=
  if n ≠ 0 then do
    let r ← randomBlock lsb fuel r
    let v ← setStringInfo r.reservoir r.hmac.digest
    let b ← rdN v.datum 0 n
    .ok (out ++ b, { r with reservoir := v, i := n })
  else .ok (out, r)

/-- random.c:1068-1121 `SetRandomKey`: the bytes written to the key and the new state. -/
def setRandomKey (lsb : Bool) (fuel : Nat) (r : RandomInfo) (length : Nat) : Res (List Byte × RandomInfo) := do
  let size := hashDigestsize r.hmac.hashInfo.handle
  let d ← randomDrain size length r []
  let w ← randomWhole lsb fuel size (length + 1) d.1 d.2.1 d.2.2
  randomLast lsb fuel w.1 w.2.1 w.2.2

/-- A word of eight bytes as the host reads it (random.c:239, 887). -/
def hostWord (lsb : Bool) (b : List Byte) : BitVec 64 :=
  BitVec.ofNat 64 ((if lsb then b.reverse else b).foldl (fun v x => 256 * v + x.toNat) 0)

/-- random.c:181-196: the object before seeding. -/
def newRandom (lsb : Bool) (junk : HashJunk) (t : HashType) : Res RandomInfo := do
  let k ← acquireHmac lsb junk t
  let n ← acquireStringInfo (2 * hashDigestsize k.hashInfo.handle)
  let n ← resetStringInfo n
  let v ← acquireStringInfo (hashDigestsize k.hashInfo.handle)
  let v ← resetStringInfo v
  .ok ⟨k, n, v, 0, 0x76e15d3efefdcbbf, 0xc5004e441c522fb3, 0x77710069854ee241, 0x39109bb02acbe635, []⟩

/-- random.c:206-226: the nonce and the reservoir are set from the first and the second entropy.  `mem` is the memory
`SetStringInfoLength` adds to the string. -/
def seedRandom (lsb : Bool) (fuel : Nat) (mem : Nat → Byte) (r : RandomInfo) (entropy1 entropy2 : StringInfo) :
    Res RandomInfo := do
  let k ← initializeHmac lsb fuel r.hmac entropy1
  let e ← setStringInfoLength entropy1 ((hashDigestsize k.hashInfo.handle + 1) / 2) mem
  let e ← setStringInfo e k.digest
  let n ← setStringInfo r.nonce e
  let k ← initializeHmac lsb fuel k entropy2
  let v ← setStringInfo r.reservoir k.digest
  .ok { r with hmac := k, nonce := n, reservoir := v }

/-- random.c:165-264 `AcquireRandomInfo`, with no secret key set (random.c:236-242). -/
def acquireRandom (lsb : Bool) (fuel : Nat) (junk : HashJunk) (mem : Nat → Byte) (t : HashType)
    (entropy1 entropy2 : StringInfo) : Res RandomInfo := do
  let r ← newRandom lsb junk t
  let r ← seedRandom lsb fuel mem r entropy1 entropy2
  let k ← setRandomKey lsb fuel r 32
  .ok { k.2 with seed0 := hostWord lsb (k.1.take 8), seed1 := hostWord lsb ((k.1.drop 8).take 8),
                 seed2 := hostWord lsb ((k.1.drop 16).take 8), seed3 := hostWord lsb ((k.1.drop 24).take 8) }

/-- A non-negative double: `num` / 2^`exp`. -/
structure Double where
  num : Nat
  exp : Nat
  deriving DecidableEq, Repr

/-- IEEE 754 rounding of a whole number of units to 53 significant bits, to the nearest, ties to even. -/
def roundDouble (a : Nat) : Nat :=
  if a < 2 ^ 53 then a
  else
    let u := 2 ^ (a.log2 - 52)
    let q := a / u
    if 2 * (a % u) < u ∨ (2 * (a % u) = u ∧ q % 2 = 0) then q * u else (q + 1) * u

/-- random.c:192 `1.0/(~0 >> 11)`: the double nearest to 1/(2^53 - 1), in units of 2^-105. -/
def normalizeNum : Nat := 2 ^ 52 + 1

/-- random.c:781 `RandomROTL`. -/
def randomRotl (x : BitVec 64) (k : Nat) : BitVec 64 := (x <<< k) ||| (x >>> (64 - k))

/-- random.c:783-792: the state step of `GetPseudoRandomValue`. -/
def pseudoStep (r : RandomInfo) : RandomInfo :=
  let alpha := r.seed1 <<< 17
  let seed2 := r.seed2 ^^^ r.seed0
  let seed3 := r.seed3 ^^^ r.seed1
  let seed1 := r.seed1 ^^^ seed2
  let seed0 := r.seed0 ^^^ seed3
  let seed2 := seed2 ^^^ alpha
  let seed3 := randomRotl seed3 45
  { r with seed0 := seed0, seed1 := seed1, seed2 := seed2, seed3 := seed3 }

/-- random.c:779-794 `GetPseudoRandomValue`: the value and the new state. -/
def getPseudoRandomValue (r : RandomInfo) : Double × RandomInfo :=
  let value := r.seed0 + r.seed3
  (⟨roundDouble ((value >>> 11).toNat * normalizeNum), 105⟩, pseudoStep r)

/-- random.c:885-888: keys are drawn until one differs from the greatest.  The first argument bounds the number of turns. -/
def randomValueKey (lsb : Bool) (fuel : Nat) : Nat → RandomInfo → Res (BitVec 64 × RandomInfo)
  | 0, _ => .fatal
  | turns + 1, r => do
    let k ← setRandomKey lsb fuel r 8
    if hostWord lsb k.1 = BitVec.allOnes 64 then randomValueKey lsb fuel turns k.2 else .ok (hostWord lsb k.1, k.2)

/-- random.c:889 `(double) key/range`: both are converted to double, the range to 2^64; the division by it is exact. -/
def randomValueOf (key : BitVec 64) : Double := ⟨roundDouble key.toNat, 64⟩

/-- random.c:878-890 `GetRandomValue`. -/
def getRandomValue (lsb : Bool) (fuel turns : Nat) (r : RandomInfo) : Res (Double × RandomInfo) := do
  let k ← randomValueKey lsb fuel turns r
  .ok (randomValueOf k.1, k.2)

end Wizard

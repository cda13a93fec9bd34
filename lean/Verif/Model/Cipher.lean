import Verif.Model.StringInfo
import Verif.Model.Serpent
import Verif.Model.Twofish
import Verif.Model.AES
import Verif.Model.Chacha
/-!
The cipher modes of wizard/cipher.c. A block cipher with its key set is a block size and two functions
on blocks; the library calls them in place (`encipher_block(handle,p,p)`). The bytes `SetRandomKey`
produces are the arbitrary function `random`. Enumeration values outside the switch statements are not
modelled.
-/
namespace Wizard

/-- cipher.c:76-83: `blocksize`, `encipher_block` and `decipher_block` of `struct _CipherInfo`. -/
structure BlockCipher where
  blocksize : Nat
  encipher : List Byte → List Byte
  decipher : List Byte → List Byte

/-- cipher.c:65-96 `struct _CipherInfo`. -/
structure CipherInfo where
  cipher : BlockCipher
  nonce : StringInfo
  random : Nat → Byte

/-- cipher.h:29-37 `CipherMode`. -/
inductive CipherMode where
  | cbc | cfb | ctr | ecb | ofb
  deriving DecidableEq

/-- `for (i=0; i < blocksize; i++) p[i]^=q[i];` -/
def xorBlock (p q : List Byte) : List Byte := List.zipWith (· ^^^ ·) p q

/-- cipher.c:263-269 and the same lines of the other modes: `input_block` has `MaxCipherBlocksize` bytes;
a block size of 0 divides by zero or loops forever. -/
def loadNonce (c : CipherInfo) : Res (List Byte) :=
  if c.cipher.blocksize = 0 ∨ maxCipherBlocksize < c.cipher.blocksize then .ub
  else rdN c.nonce.datum 0 c.cipher.blocksize

/-- cipher.c:482-495 `IncrementCipherNonce`; `i` bytes are left. -/
def incrementNonce (nonce : List Byte) : Nat → Res (List Byte)
  | 0 => .fatal
  | i + 1 =>
    let b := nonce.getD i 0 + 1
    if b ≠ 0 then .ok (nonce.set i b) else incrementNonce (nonce.set i b) i

/-- cipher.c:809-814, 1057-1062, 1132-1137, 1207-1212: append the padding to the slack; returns the
buffer and the end `q`. -/
def padBuffer (c : CipherInfo) (s : StringInfo) : Res (List Byte × Nat) :=
  let bs := c.cipher.blocksize
  if bs = 0 then .ub
  else do
    let pad := bs - s.length % bs
    let d ← wrN s.datum s.length ((List.range (pad - 1)).map c.random)
    let d ← wr d (s.length + (pad - 1)) (BitVec.ofNat 8 (pad - 1))
    .ok (d, if pad = bs then s.length + bs else s.length)

/-- The loops `for (p=datum; p < q; p+=stride)` over the buffer: each turn reads `stride` bytes, updates
the register `st` and writes the bytes back. Fuel exhaustion is `fatal`. -/
def cipherLoop (stride q : Nat) (step : List Byte → List Byte → Res (List Byte × List Byte)) :
    Nat → (p : Nat) → (st : List Byte) → List Byte → Res (List Byte)
  | 0, _, _, _ => .fatal
  | n + 1, p, st, m =>
    if p < q then do
      let b ← rdN m p stride
      let (st, b) ← step st b
      let m ← wrN m p b
      cipherLoop stride q step n (p + stride) st m
    else .ok m

/-- cipher.c:1139: one turn of `EncipherECBMode`. -/
def ecbEncStep (c : BlockCipher) (st b : List Byte) : Res (List Byte × List Byte) :=
  .ok (st, c.encipher b)

/-- cipher.c:601: one turn of `DecipherECBMode`. -/
def ecbDecStep (c : BlockCipher) (st b : List Byte) : Res (List Byte × List Byte) :=
  .ok (st, c.decipher b)

/-- cipher.c:817-821: one turn of `EncipherCBCMode`. -/
def cbcEncStep (c : BlockCipher) (st b : List Byte) : Res (List Byte × List Byte) :=
  let e := c.encipher (xorBlock b st)
  .ok (e, e)

/-- cipher.c:273-279: one turn of `DecipherCBCMode`. -/
def cbcDecStep (c : BlockCipher) (st b : List Byte) : Res (List Byte × List Byte) :=
  .ok (b, xorBlock (c.decipher b) st)

/-- cipher.c:1065-1070 and 533-538: one turn of the CTR modes. -/
def ctrStep (c : BlockCipher) (st b : List Byte) : Res (List Byte × List Byte) := do
  let o := c.encipher st
  let st ← incrementNonce st c.blocksize
  .ok (st, xorBlock b o)

/-- cipher.c:1215-1217 and 670-672: one turn of the OFB modes. -/
def ofbStep (c : BlockCipher) (st b : List Byte) : Res (List Byte × List Byte) :=
  let st := c.encipher st
  .ok (st, xorBlock b st)

/-- cipher.c:897-903: one turn (one byte) of `EncipherCFBMode`. -/
def cfbEncStep (c : BlockCipher) (st b : List Byte) : Res (List Byte × List Byte) :=
  let x := b.getD 0 0 ^^^ (c.encipher st).getD 0 0
  .ok (st.drop 1 ++ [x], [x])

/-- cipher.c:356-362: one turn (one byte) of `DecipherCFBMode`. -/
def cfbDecStep (c : BlockCipher) (st b : List Byte) : Res (List Byte × List Byte) :=
  let x := b.getD 0 0
  .ok (st.drop 1 ++ [x], [x ^^^ (c.encipher st).getD 0 0])

/-- cipher.c:1057-1071 and the same lines of CBC, ECB and OFB: pad, then run over the whole blocks. -/
def encipherPadded (c : CipherInfo) (s : StringInfo)
    (step : List Byte → List Byte → Res (List Byte × List Byte)) (st : List Byte) : Res StringInfo := do
  let (d, q) ← padBuffer c s
  let d ← cipherLoop c.cipher.blocksize q step (q + 1) 0 st d
  .ok { s with datum := d }

/-- cipher.c:270-280 and the same lines of the other decipherment modes and of `EncipherCFBMode`: run
over the buffer without padding. -/
def runOver (stride : Nat) (s : StringInfo)
    (step : List Byte → List Byte → Res (List Byte × List Byte)) (st : List Byte) : Res StringInfo := do
  let d ← cipherLoop stride s.length step (s.length + 1) 0 st s.datum
  .ok { s with datum := d }

/-- cipher.c:939-988 `EncipherCipher` with 775-828 `EncipherCBCMode`, 860-911 `EncipherCFBMode`,
1022-1078 `EncipherCTRMode`, 1108-1141 `EncipherECBMode`, 1173-1224 `EncipherOFBMode`. -/
def encipherCipher (mode : CipherMode) (c : CipherInfo) (s : StringInfo) : Res StringInfo :=
  match mode with
  | .cbc => do encipherPadded c s (cbcEncStep c.cipher) (← loadNonce c)
  | .cfb => do runOver 1 s (cfbEncStep c.cipher) (← loadNonce c)
  | .ctr => do encipherPadded c s (ctrStep c.cipher) (← loadNonce c)
  | .ecb => encipherPadded c s (ecbEncStep c.cipher) []
  | .ofb => do encipherPadded c s (ofbStep c.cipher) (← loadNonce c)

/-- cipher.c:405-447 `DecipherCipher` with 237-287 `DecipherCBCMode`, 319-370 `DecipherCFBMode`,
497-546 `DecipherCTRMode`, 576-603 `DecipherECBMode`, 635-679 `DecipherOFBMode`. -/
def decipherCipher (mode : CipherMode) (c : CipherInfo) (s : StringInfo) : Res StringInfo :=
  match mode with
  | .cbc => do runOver c.cipher.blocksize s (cbcDecStep c.cipher) (← loadNonce c)
  | .cfb => do runOver 1 s (cfbDecStep c.cipher) (← loadNonce c)
  | .ctr => do runOver c.cipher.blocksize s (ctrStep c.cipher) (← loadNonce c)
  | .ecb => runOver c.cipher.blocksize s (ecbDecStep c.cipher) []
  | .ofb => do runOver c.cipher.blocksize s (ofbStep c.cipher) (← loadNonce c)

/-- cipher.c:1278-1308 `GenerateCipherNonce` with random.c:820-830 `GetRandomKey`; `draw` are the random
bytes. -/
def generateCipherNonce (mode : CipherMode) (blocksize : Nat) (draw : Nat → Byte) : Res StringInfo :=
  if mode = .ctr then do
    let n ← acquireStringInfo blocksize
    let n ← resetStringInfo n
    let d ← wrN n.datum 0 ((List.range ((blocksize + 1) / 2)).map draw)
    .ok { n with datum := d }
  else do
    let n ← acquireStringInfo blocksize
    let d ← wrN n.datum 0 ((List.range blocksize).map draw)
    .ok { n with datum := d }

/-- cipher.c:134-206 `AcquireCipherInfo`, for the block cipher `c` of the chosen type. -/
def acquireCipherInfo (c : BlockCipher) (mode : CipherMode) (draw random : Nat → Byte) : Res CipherInfo := do
  let n ← generateCipherNonce mode c.blocksize draw
  .ok ⟨c, n, random⟩

/-- cipher.c:1394-1402 `SetCipherNonce`. -/
def setCipherNonce (c : CipherInfo) (nonce : StringInfo) : Res CipherInfo := do
  let n ← setStringInfo c.nonce nonce
  .ok { c with nonce := n }

/-- cipher.c:1362-1368 `ResetCipherNonce`. -/
def resetCipherNonce (c : CipherInfo) : Res CipherInfo := do
  let n ← resetStringInfo c.nonce
  .ok { c with nonce := n }

/-- cipher.c:147-158 and 1437-1441: AES with a key. -/
def aesCipher (key : List Byte) : BlockCipher :=
  ⟨16, encipherAESBlock (setAESKey key), decipherAESBlock (setAESKey key)⟩

/-- cipher.c:159-170 and 1442-1446: ChaCha with a key, set after the keys `old` leave the state `k`. -/
def chachaCipher (k : ChachaInfo) (key : List Byte) : BlockCipher :=
  ⟨64, encipherChachaBlock (setChachaKey k key), decipherChachaBlock (setChachaKey k key)⟩

/-- cipher.c:171-182 and 1447-1451: Serpent with round keys `k`.  Every mode calls the block functions in
place on blocks of `SerpentBlocksize` = 32 bytes (serpent.c:73), of which they read and write the first 16;
the round keys of a `SerpentInfo` are always 132 words, so the fallback is never taken. -/
def serpentCipher (k : List Word) : BlockCipher :=
  ⟨32,
   fun b => match encipherSerpentBlock k b with
     | .ok c => c ++ b.drop 16
     | _ => b,
   fun b => match decipherSerpentBlock k b with
     | .ok c => c ++ b.drop 16
     | _ => b⟩

/-- cipher.c:183-194 and 1452-1456: Twofish with the key schedule `t`, on blocks of `TwofishBlocksize` = 16
bytes (twofish.c:85). -/
def twofishCipher (t : TwofishInfo) : BlockCipher :=
  ⟨16, encipherTwofishBlock t, decipherTwofishBlock t⟩

end Wizard

import Verif.Model.Blob
import Verif.Model.Cipher
/-! The programs utilities/encipher.c and utilities/decipher.c, from where the properties of the content are written or read: a file is
enciphered in chunks.  The files are those of Model/Blob.lean; `errno` is not `EINTR`. -/
namespace Wizard

/-- A compression method of wizard/entropy.c: the value of its `EntropyType`, what `IncreaseEntropy` (entropy.c:283-330) makes of a
message, and what `RestoreEntropy` (362-409) makes of one, where none is a failure.  The libraries that do the work are not modelled;
compression is taken to succeed. -/
structure Packer where
  type : Byte
  pack : List Byte → List Byte
  unpack : Nat → List Byte → Option (List Byte)

/-- entropy.h:31 `NoEntropy`. -/
def noEntropy : Byte := 1

/-- utilities/content.h:28-98 `ContentInfo`: what encipherment and decipherment use.  `hmac` is the digest size of the HMAC and the HMAC
under the key of the content, none when it is `NoHash`; `entropy` is none when it is `NoEntropy`.  `pads` and `fills` are the random bytes
that the chunks are padded and filled with; `junk` is what memory holds before it is written. -/
structure Content where
  mode : CipherMode
  cipher : CipherInfo
  chunksize : Nat
  hmac : Option (Nat × (List Byte → List Byte))
  entropy : Option Packer
  pads : Nat → Nat → Byte
  fills : Nat → Nat → Byte
  junk : Nat → Byte

/-- A message with room for a block behind it. -/
def bufferOf (b : List Byte) : StringInfo := ⟨b.length, b ++ List.replicate maxCipherBlocksize 0⟩

/-- string.c:1865-1881 `SetStringInfoLength` where the length may be near 2^64: `malloc` grants nothing of 2^63 bytes or more. -/
def resizeText (s : StringInfo) (n : Nat) (junk : Nat → Byte) : Res StringInfo :=
  if n ≥ 2 ^ 63 then .fatal else setStringInfoLength s n junk

/-- blob.c:2129-2156 `WriteBlobChunk`: on a file all is written (C92), so that the checks of encipher.c:845, 867, 880, 894 and of
decipher.c:797 pass. -/
def writeAll (b : Blob) (data : List Byte) : Res Blob := do
  let w ← writeBlob b data
  .ok w.2

/-- encipher.c:838-848: the HMAC of the chunk. -/
def putTag (ci : Content) (t : StringInfo) (out : Blob) : Res Blob :=
  match ci.hmac with
  | none => .ok out
  | some (_, h) => writeAll out (h t.bytes)

/-- encipher.c:849-870: the chunk is compressed if that does not make it longer, and filled up to its length; a byte says which. -/
def putEntropy (ci : Content) (k : Nat) (t : StringInfo) (out : Blob) : Res (StringInfo × Blob) :=
  match ci.entropy with
  | none => .ok (t, out)
  | some e =>
    let chaos := e.pack t.bytes
    if chaos.length > t.length then do
      let out ← writeAll out [noEntropy]
      .ok (t, out)
    else do
      let n := t.length
      let t ← setStringInfo t (bufferOf chaos)
      let d ← wrN t.datum chaos.length ((List.range (n - chaos.length)).map (ci.fills k))
      let out ← writeAll out [e.type]
      .ok ({ t with datum := d }, out)

/-- encipher.c:874-876: what is written of a chunk of `n` bytes. -/
def paddedLength (blocksize n : Nat) : Nat :=
  if blocksize - n % blocksize ≠ blocksize then n + (blocksize - n % blocksize) else n

/-- encipher.c:829-897: read a chunk, write what it becomes, and so on; at the end the block of padding, if the last chunk needs one of its
own.  `last` are `pad` and `length` of the last chunk; `t` is the buffer, which holds the plaintext and then the ciphertext.  The first
argument bounds the number of turns. -/
def encipherLoop (ci : Content) : Nat → Nat → Blob → Blob → StringInfo → Nat × Nat → Res Blob
  | 0, _, _, _, _, _ => .fatal
  | fuel + 1, k, plain, out, t, last => do
    let t ← setStringInfoLength t ci.chunksize ci.junk
    let r ← readBlobChunk false 3 plain ci.chunksize
    let d ← wrN t.datum 0 r.1
    if r.1.length = 0 then
      if ci.mode ≠ .cfb ∧ last.1 = ci.cipher.cipher.blocksize then do
        let p ← rdN d last.2 ci.cipher.cipher.blocksize
        writeAll out p
      else .ok out
    else do
      let t ← setStringInfoLength { t with datum := d } r.1.length ci.junk
      let out ← putTag ci t out
      let x ← putEntropy ci k t out
      let t ← encipherCipher ci.mode { ci.cipher with random := ci.pads k } x.1
      let n := if ci.mode = .cfb then r.1.length else paddedLength ci.cipher.cipher.blocksize r.1.length
      let pad := if ci.mode = .cfb then last.1 else ci.cipher.cipher.blocksize - r.1.length % ci.cipher.cipher.blocksize
      let p ← rdN t.datum 0 n
      let out ← writeAll x.2 p
      encipherLoop ci fuel (k + 1) r.2 out t (pad, n)

/-- encipher.c:820-904: the content of `plain`, enciphered and written to `out`. -/
def encipherContent (ci : Content) (fuel : Nat) (plain out : Blob) : Res Blob := do
  let t ← acquireStringInfo ci.chunksize
  encipherLoop ci fuel 0 plain out t (0, 0)

/-- decipher.c:744-746: what a chunk that is not the last is padded with. -/
def chunkPad (ci : Content) : Nat :=
  let pad := ci.cipher.cipher.blocksize - ci.chunksize % ci.cipher.cipher.blocksize
  if pad = ci.cipher.cipher.blocksize then 0 else pad

/-- decipher.c:750-757: the HMAC of the next chunk, into the buffer `h`; none leaves the loop. -/
def getTag (ci : Content) (b : Blob) (h : StringInfo) : Res (Option (Blob × StringInfo)) :=
  match ci.hmac with
  | none => .ok (some (b, h))
  | some _ => do
    let r ← readBlobChunk false 3 b h.length
    if r.1.length = 0 then .ok none
    else do
      let d ← wrN h.datum 0 r.1
      .ok (some (r.2, { h with datum := d }))

/-- decipher.c:758-759: whether the next chunk is compressed; any byte but `NoEntropy`, and `EOF`, says so. -/
def getEntropy (ci : Content) (b : Blob) : Res (Bool × Blob) :=
  match ci.entropy with
  | none => .ok (false, b)
  | some _ => do
    let r ← readBlobByte b
    .ok (decide (r.1 ≠ some noEntropy), r.2)

/-- decipher.c:771-773: the length without the padding.  The arithmetic is modulo 2^64. -/
def stripPad (ci : Content) (eof : Bool) (t : StringInfo) : Res Nat :=
  if ci.mode ≠ .cfb ∧ (chunkPad ci ≠ 0 ∨ eof = true) then do
    let x ← rd t.datum (t.length - 1)
    .ok ((t.length + sizeMax - (x.toNat + 1)) % sizeMax)
  else .ok t.length

/-- decipher.c:775-783: none is a failure of the decompression. -/
def restoreText (ci : Content) (packed : Bool) (t : StringInfo) : Res (Option StringInfo) :=
  if packed then
    match ci.entropy with
    | none => .ok none
    | some e =>
      match e.unpack t.length t.bytes with
      | none => .ok none
      | some m => do
        let t ← setStringInfo t (bufferOf m)
        .ok (some t)
  else .ok (some t)

/-- decipher.c:784-794: whether the HMAC read is that of the chunk. -/
def checkTag (ci : Content) (h t : StringInfo) : Res Bool :=
  match ci.hmac with
  | none => .ok true
  | some (_, f) => do
    let c ← compareStringInfo h (bufferOf (f t.bytes))
    .ok (decide (c = 0))

/-- decipher.c:748-800: the status and what was written.  `t` is the buffer of the ciphertext and then of the plaintext. -/
def decipherLoop (ci : Content) : Nat → Blob → Blob → StringInfo → StringInfo → Res (Bool × Blob)
  | 0, _, _, _, _ => .fatal
  | fuel + 1, b, out, h, t => do
    match ← getTag ci b h with
    | none => .ok (true, out)
    | some (b, h) => do
      let e ← getEntropy ci b
      let n := if ci.mode = .cfb then ci.chunksize else ci.chunksize + chunkPad ci
      let t ← setStringInfoLength t n ci.junk
      let r ← readBlobChunk false 3 e.2 n
      if r.1.length = 0 then .ok (true, out)
      else do
        let d ← wrN t.datum 0 r.1
        let t ← setStringInfoLength { t with datum := d } r.1.length ci.junk
        let t ← decipherCipher ci.mode ci.cipher t
        let n ← stripPad ci (eofBlob r.2) t
        let t ← resizeText t n ci.junk
        match ← restoreText ci e.1 t with
        | none => .ok (false, out)
        | some t => do
          if ← checkTag ci h t then do
            let p ← rdN t.datum 0 n
            let out ← writeAll out p
            decipherLoop ci fuel r.2 out h t
          else .ok (false, out)

/-- decipher.c:733-820: the status and the content deciphered from `b` and written to `out`. -/
def decipherContent (ci : Content) (fuel : Nat) (b out : Blob) : Res (Bool × Blob) := do
  let h ← acquireStringInfo (match ci.hmac with | none => 0 | some (n, _) => n)
  let t ← acquireStringInfo ci.chunksize
  decipherLoop ci fuel b out h t

end Wizard

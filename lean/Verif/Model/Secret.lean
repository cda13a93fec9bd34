import Verif.Model.Keyring
import Verif.Model.Content
/-! secret.c: keys kept in a key ring file, enciphered under a passphrase, and authenticate.c, which passes its calls on to it.
The HMAC is a parameter (it is modelled in HashInfo.lean), and so are the random bytes, the passphrase that is read and the
time; the path and the lock of the key ring are not modelled; memory suffices. -/
namespace Wizard

/-- secret.c:65-96 `struct _SecretInfo`.  The byte strings of `ring` are blank where they are NULL in the code. -/
structure SecretInfo where
  keyLength : Nat
  ring : KeyringInfo
  cipher : CipherInfo
  nonce : StringInfo
  id : Option StringInfo
  key : Option StringInfo

/-- What surrounds a call: the HMAC, the passphrase (`none` if it can not be read), the header of the key ring, the bounds on
system calls and records of the loops of keyring.c, and the random bytes of the padding. -/
structure SecretEnv where
  mac : List Byte → List Byte → List Byte
  phrase : Option StringInfo
  magick : StringInfo
  filetype : StringInfo
  fuel : Nat
  turns : Nat
  pad : Nat → Byte

/-- random.c:820-830 `GetRandomKey`; `draw` are the random bytes. -/
def getRandomKey (n : Nat) (draw : Nat → Byte) : Res StringInfo := do
  let s ← acquireStringInfo n
  let d ← wrN s.datum 0 ((List.range n).map draw)
  .ok { s with datum := d }

/-- secret.c:124-143 `AcquireSecretInfo`, with keyring.c:108-128 `AcquireKeyringInfo` (protocol 1.1, keyring.c:124-126). -/
def acquireSecretInfo (draw draw' : Nat → Byte) (now : BitVec 64) (keyLength : Nat) : Res SecretInfo := do
  let c ← acquireCipherInfo (aesCipher []) .ctr draw draw
  let nonce ← generateCipherNonce .ctr c.cipher.blocksize draw'
  .ok ⟨keyLength, ⟨bufferOf [], bufferOf [], bufferOf [], 1, 1, now⟩, c, nonce, none, none⟩

/-- secret.c:482-487 `SetSecretId`. -/
def setSecretId (s : SecretInfo) (id : StringInfo) : Res SecretInfo := do
  let i ← cloneStringInfo id
  .ok { s with id := some i }

/-- secret.c:312-321: one turn of the search for a new id: whether the id is in the key ring. -/
def trySecretKey (v : SecretEnv) (phrase : StringInfo) (draw : Nat → Byte) (file : Option (List Byte)) (e : IOEnv) (s : SecretInfo) :
    Res (Bool × SecretInfo) := do
  let key ← getRandomKey (s.keyLength / 8) draw
  let id ← cloneStringInfo (bufferOf (v.mac phrase.bytes key.bytes))
  let i ← cloneStringInfo id
  let r ← exportKeyring v.fuel v.turns v.magick v.filetype file e { s.ring with id := i }
  .ok (r.1, { s with ring := r.2, id := some id, key := some key })

/-- secret.c:310-322: the search.  The first argument bounds the number of turns: `none` if all of them found the id in the
key ring.  `draws` and `es` are the random bytes and the system calls of each turn. -/
def searchSecretKey (v : SecretEnv) (phrase : StringInfo) (file : Option (List Byte)) : List ((Nat → Byte) × IOEnv) → SecretInfo →
    Res (Option SecretInfo)
  | [], _ => .ok none
  | x :: xs, s => do
    let r ← trySecretKey v phrase x.1 file x.2 s
    if r.1 then searchSecretKey v phrase file xs r.2 else .ok (some r.2)

/-- secret.c:193-195 and 326-328: the cipher is prepared with the passphrase and the nonce of the key ring object. -/
def phraseCipher (v : SecretEnv) (phrase : StringInfo) (s : SecretInfo) : Res CipherInfo :=
  setCipherNonce { s.cipher with cipher := aesCipher phrase.bytes, random := v.pad } s.ring.nonce

/-- secret.c:324-331: the key, enciphered, and the nonce go to the key ring object. -/
def sealSecretKey (v : SecretEnv) (phrase : StringInfo) (s : SecretInfo) (key : StringInfo) : Res SecretInfo := do
  let k ← cloneStringInfo key
  let n ← cloneStringInfo s.nonce
  let s := { s with ring := { s.ring with key := k, nonce := n } }
  let c ← phraseCipher v phrase s
  let t ← cloneStringInfo s.ring.key
  let t ← encipherCipher .ctr c t
  let t ← cloneStringInfo t
  .ok { s with cipher := c, ring := { s.ring with key := t } }

/-- secret.c:286-336 `GenerateSecretKey`: status, the object and the file afterwards, or `none` if the search has not ended.  The
status of the import (line 332) is ignored. -/
def generateSecretKey (v : SecretEnv) (tries : List ((Nat → Byte) × IOEnv)) (file : Option (List Byte)) (e1 e2 : IOEnv) (s : SecretInfo) :
    Res (Option (Bool × SecretInfo × Option (List Byte))) :=
  match v.phrase with
  | none => .ok (some (false, s, file))
  | some phrase => do
    let r ← searchSecretKey v phrase file tries s
    match r with
    | none => .ok none
    | some s => do
      let s ← sealSecretKey v phrase s (s.key.getD (bufferOf []))
      let w ← importKeyring v.fuel v.turns v.magick v.filetype file e1 e2 s.ring
      .ok (some (true, s, w.2))

/-- secret.c:196-209: the key is deciphered and its HMAC compared with the id. -/
def openSecretKey (v : SecretEnv) (phrase id : StringInfo) (s : SecretInfo) : Res (Bool × SecretInfo) := do
  let c ← phraseCipher v phrase s
  let k ← cloneStringInfo s.ring.key
  let k ← decipherCipher .ctr c k
  let d ← cloneStringInfo (bufferOf (v.mac phrase.bytes k.bytes))
  let o ← compareStringInfo id d
  .ok (decide (o = 0), { s with cipher := c, key := some k })

/-- secret.c:170-210 `AuthenticateSecretKey`: status and the object afterwards.  Without an id `SetKeyringId` is given NULL: the
assertion of `CloneStringInfo` fails. -/
def authenticateSecretKey (v : SecretEnv) (file : Option (List Byte)) (e : IOEnv) (s : SecretInfo) : Res (Bool × SecretInfo) :=
  match s.id with
  | none => .ub
  | some id => do
    let i ← cloneStringInfo id
    let r ← exportKeyring v.fuel v.turns v.magick v.filetype file e { s.ring with id := i }
    let s := { s with ring := r.2 }
    if r.1 = false then .ok (false, s)
    else
      match v.phrase with
      | none => .ok (false, s)
      | some phrase => openSecretKey v phrase id s

end Wizard

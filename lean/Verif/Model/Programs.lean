import Verif.Model.EncipherCommand
import Verif.Model.KeyringCommand
import Verif.Model.Secret
import Verif.Model.Hex

/-! The programs `encipher` and `decipher` as wholes: the command line, the files, the key ring, the properties and the content.
A file can be opened for reading if it is there, and any file can be written; files that gzip or bzip2 made, which `OpenBlob` reads
decompressed, are not modelled, nor are locks, dates of files and the exception log. -/
namespace Wizard

/-- What the toolkit computes with, by the values of the settings: the ciphers by key (none: `AcquireCipherInfo` ends the program), the
HMAC of the content by key (none is `NoHash`), the compression (none is `NoEntropy`), and the HMAC that makes ids of keys; the header of
key rings; the bounds of loops of keyring.c; and the path of the default key ring. -/
structure Kit where
  cipherOf : BitVec 64 → Option (List Byte → BlockCipher)
  hmacOf : BitVec 64 → List Byte → Option (Nat × (List Byte → List Byte))
  packerOf : BitVec 64 → BitVec 32 → Option Packer
  macOf : BitVec 64 → List Byte → List Byte → List Byte
  magick : StringInfo
  filetype : StringInfo
  fuel : Nat
  turns : Nat
  version : List Byte
  home : List Byte

/-- What may differ from run to run: memory, numbers, dates, random bytes, system calls, the passphrase that is read from a file or
typed (none if it can not be read), whether files are mapped, and bounds of loops. -/
structure Run where
  command : CommandEnv
  packet : PacketEnv
  phrase : Option (List Byte) → Option StringInfo
  draw : Nat → Byte
  draw' : Nat → Byte
  now : BitVec 64
  tries : List ((Nat → Byte) × IOEnv)
  e1 : IOEnv
  e2 : IOEnv
  pad : Nat → Byte
  nonce : Nat → Byte
  random : Nat → Byte
  pads : Nat → Nat → Byte
  fills : Nat → Nat → Byte
  junk : Nat → Byte
  mapped : Bool
  loops : Nat

/-- cipher.h:29-37; in any other mode `EncipherCipher` and `DecipherCipher` end the program. -/
def modeOf (v : BitVec 64) : Option CipherMode :=
  if v = 1 then some .cbc else if v = 2 then some .cfb else if v = 3 then some .ctr else if v = 4 then some .ecb else if v = 5 then some .ofb else none

/-- authenticate.c:100-150 and secret.c:124-143: what the key is generated or found with. -/
def secretEnvOf (kit : Kit) (run : Run) (hash : BitVec 64) (passphrase : Option (List Byte)) : SecretEnv :=
  ⟨kit.macOf hash, run.phrase passphrase, kit.magick, kit.filetype, kit.fuel, kit.turns, run.pad⟩

/-- encipher.c:820-829 and decipher.c:733-747: what the content is enciphered and deciphered with. -/
def contentOf (kit : Kit) (run : Run) (s : Settings) (key : List Byte) (mode : CipherMode) (c : CipherInfo) : Content :=
  ⟨mode, c, s.chunksize, kit.hmacOf s.hmac key, kit.packerOf s.entropy s.level, run.pads, run.fills, run.junk⟩

/-- What a blob leaves in its file. -/
def blobContent : Blob → List Byte
  | .file f => f.content
  | .map data _ _ _ _ _ _ => data

/-- A file that is open and has been read up to a position. -/
def openAt (content : List Byte) (pos : Nat) (mapped : Bool) : Blob :=
  if content.length > maxBufferExtent ∧ mapped then .map content true content.length content.length maxBlobExtent pos false else .file ⟨content, pos, false⟩

/-- encipher.c:676, 691-692: the cipher with a new nonce and then the key. -/
def contentCipher (kit : Kit) (run : Run) (type : BitVec 64) (mode : CipherMode) (key : List Byte) : Res CipherInfo :=
  match kit.cipherOf type with
  | none => .fatal
  | some f => do
    let c ← acquireCipherInfo (f []) mode run.nonce run.random
    .ok { c with cipher := f key }

/-- encipher.c:689-694: the settings with the id of the key and the nonce. -/
def recorded (s : Settings) (id nonce : List Byte) : Settings :=
  { s with id := stringInfoToHexString id, nonce := stringInfoToHexString nonce }

/-- encipher.c:793-812: the file that the properties are written to becomes them; otherwise they are the start of the ciphertext. -/
def putProperties (properties : Option (List Byte)) (packet : List Byte) (files : Files) : List Byte × Files :=
  match properties with
  | none => (packet, files)
  | some p => ([], withFile files p (some packet))

/-- encipher.c:676-904: with both files open; `key` is the key that was generated and `id` its id. -/
def encipherWith (kit : Kit) (run : Run) (st : CommandState) (plain cipherName id key : List Byte) (files : Files) : Res (Bool × Files) :=
  match modeOf st.settings.mode with
  | none => .fatal
  | some mode => do
    let c ← contentCipher kit run st.settings.cipher mode key
    let x := putProperties st.properties (cipherPacket run.packet (recorded st.settings id c.nonce.bytes) plain) files
    let out ← encipherContent (contentOf kit run st.settings key mode c) run.loops (openRead ((x.2 plain).getD []) run.mapped) (.file ⟨x.1, x.1.length, false⟩)
    .ok (true, withFile x.2 cipherName (some (blobContent out)))

/-- encipher.c:622-904 `EncipherContent`: the status and the files afterwards.  The plaintext is opened first, then the ciphertext, which
becomes empty; what is read is what is in the file then. -/
def encipherFiles (kit : Kit) (run : Run) (st : CommandState) (plain cipherName : List Byte) (files : Files) : Res (Bool × Files) :=
  match files plain with
  | none => .ok (false, files)
  | some _ => do
    let files := withFile files cipherName (some [])
    let s ← acquireSecretInfo run.draw run.draw' run.now st.settings.keyLength.toNat
    let ringName := st.keyring.getD kit.home
    match ← generateSecretKey (secretEnvOf kit run st.settings.keyHash st.passphrase) run.tries (files ringName) run.e1 run.e2 s with
    | none => .fatal
    | some (false, _, _) => .ok (false, files)
    | some (true, s, ringFile) =>
      encipherWith kit run st plain cipherName (s.id.getD (bufferOf [])).bytes (s.key.getD (bufferOf [])).bytes (withFile files ringName ringFile)

/-- decipher.c:698-713: the key is looked up by the id of the properties; none if that fails. -/
def findKey (kit : Kit) (run : Run) (s : Settings) (passphrase : Option (List Byte)) (ringFile : Option (List Byte)) : Res (Option (List Byte)) := do
  let t ← acquireSecretInfo run.draw run.draw' run.now s.keyLength.toNat
  let t ← setSecretId t (bufferOf (hexStringToStringInfo s.id))
  let a ← authenticateSecretKey (secretEnvOf kit run s.keyHash passphrase) ringFile run.e1 t
  if a.1 then .ok (some (a.2.key.getD (bufferOf [])).bytes) else .ok none

/-- decipher.c:717-820: the content at a position of the ciphertext is deciphered. -/
def decipherWith (kit : Kit) (run : Run) (s : Settings) (key content : List Byte) (pos : Nat) : Res (Bool × List Byte) :=
  match modeOf s.mode with
  | none => .fatal
  | some mode => do
    let c ← contentCipher kit run s.cipher mode key
    let c ← setCipherNonce c (bufferOf (hexStringToStringInfo s.nonce))
    let r ← decipherContent (contentOf kit run s key mode c) run.loops (openAt content pos run.mapped) openWrite
    .ok (r.1, blobContent r.2)

/-- decipher.c:622-820 `DecipherContent`: the status and the files afterwards.  The ciphertext is opened first, then the plaintext, which
becomes empty. -/
def decipherFiles (kit : Kit) (run : Run) (st : CommandState) (cipherName plain : List Byte) (files : Files) : Res (Bool × Files) :=
  match files cipherName with
  | none => .ok (false, files)
  | some _ =>
    let files := withFile files plain (some [])
    match files (st.properties.getD cipherName) with
    | none => .ok (false, files)
    | some text => do
      match ← getContentInfo run.packet run.loops st.settings text with
      | .settings s _ rest =>
        match ← findKey kit run s st.passphrase (files (st.keyring.getD kit.home)) with
        | none => .ok (false, files)
        | some key => do
          let content := (files cipherName).getD []
          let r ← decipherWith kit run s key content (if st.properties = none then content.length - rest.length else 0)
          .ok (r.1, withFile files plain (some r.2))
      | .refused => .ok (false, files)
      | .forever => .fatal
      | .overrun => .ub

/-- encipher.c:142-588 `EncipherCommand`. -/
def runEncipher (kit : Kit) (run : Run) (args : List (List Byte)) (files : Files) : Res (Bool × Files) := do
  match ← encipherCommand run.command kit.version args with
  | .run st plain cipherName => encipherFiles kit run st plain cipherName files
  | .failed => .ok (false, files)
  | _ => .ok (true, files)

/-- decipher.c:142-588 `DecipherCommand`: it reads its command line as `EncipherCommand` does; the first name is the ciphertext. -/
def runDecipher (kit : Kit) (run : Run) (args : List (List Byte)) (files : Files) : Res (Bool × Files) := do
  match ← encipherCommand run.command kit.version args with
  | .run st cipherName plain => decipherFiles kit run st cipherName plain files
  | .failed => .ok (false, files)
  | _ => .ok (true, files)

end Wizard

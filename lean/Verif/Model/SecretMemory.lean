import Verif.Model.Basic

/-! Who owns which memory in the objects that hold secrets (secret.c, keyring.c, cipher.c, aes.c, random.c, hmac.c, hash.c, sha2256.c, string.c): what is acquired,
replaced and given up, and what is left in memory.

Blocks of memory are numbered; a number is never used again (addresses may be, which the model leaves out: whoever acquires memory may get a block that was given up, with what is
in it, see C98).  Of the contents only those of strings and of the seeds of random generators are modelled, strings without the padding behind them.  Allocation succeeds. -/
namespace Wizard

/-- The memory: the next number, the blocks that are acquired, and what was last written to each block. -/
structure Mem where
  next : Nat
  live : List Nat
  data : Nat → List Byte

/-- memory.c `AcquireWizardMemory`, `AcquireQuantumMemory`, and what is written to the block. -/
def memAcquire (bytes : List Byte) (m : Mem) : Nat × Mem :=
  (m.next, ⟨m.next + 1, m.next :: m.live, fun b => if b = m.next then bytes else m.data b⟩)

/-- memory.c:1039-1082 `RelinquishWizardMemory`: the bytes stay (C98).  To give up what is not acquired is undefined. -/
def memRelinquish (b : Nat) (m : Mem) : Res Mem := if b ∈ m.live then .ok { m with live := m.live.erase b } else .ub

/-- Blocks are given up one after the other. -/
def memRelinquishAll : List Nat → Mem → Res Mem
  | [], m => .ok m
  | b :: bs, m => do let m ← memRelinquish b m; memRelinquishAll bs m

/-- A block is read. -/
def memRead (b : Nat) (m : Mem) : Res (List Byte) := if b ∈ m.live then .ok (m.data b) else .ub

/-- A `StringInfo`: its own block, and that of its datum. -/
structure StrObj where
  self : Nat
  datum : Nat
  deriving DecidableEq

/-- string.c:179-200 `AcquireStringInfo`, and what is written to it. -/
def acquireStr (bytes : List Byte) (m : Mem) : StrObj × Mem :=
  let a := memAcquire [] m
  let d := memAcquire bytes a.2
  (⟨a.1, d.1⟩, d.2)

/-- string.c:857-867 `DestroyStringInfo`: the order in which blocks are given up. -/
def StrObj.order (s : StrObj) : List Nat := [s.datum, s.self]

/-- A field that is NULL or a string is destroyed if it is not NULL. -/
def strOrder : Option StrObj → List Nat
  | none => []
  | some s => s.order

/-- string.c:332-344 `CloneStringInfo`: the string is read; NULL fails an assertion. -/
def cloneStr (source : Option StrObj) (m : Mem) : Res (StrObj × Mem) :=
  match source with
  | none => .ub
  | some s => do
    let _ ← memRead s.self m
    let bytes ← memRead s.datum m
    .ok (acquireStr bytes m)

/-- secret.c:484-486, keyring.c:756-758, 789-791, 823-825: a string in a field is destroyed, then the source is cloned. -/
def replaceStr (field : Option StrObj) (source : Option StrObj) (m : Mem) : Res (Option StrObj × Mem) := do
  let m ← memRelinquishAll (strOrder field) m
  let r ← cloneStr source m
  .ok (some r.1, r.2)

/-- sha2256.c:108-135 `AcquireSHA2256Info` -/
structure ShaObj where
  self : Nat
  digest : StrObj
  message : StrObj
  accumulator : Nat

/-- sha2256.c:116-124 -/
def acquireShaObj (m : Mem) : ShaObj × Mem :=
  let a := memAcquire [] m
  let d := acquireStr [] a.2
  let e := acquireStr [] d.2
  let c := memAcquire [] e.2
  (⟨a.1, d.1, e.1, c.1⟩, c.2)

/-- sha2256.c:159-174 `DestroySHA2256Info` -/
def ShaObj.order (s : ShaObj) : List Nat := [s.accumulator] ++ s.message.order ++ s.digest.order ++ [s.self]

/-- hash.c:59-75 `HashInfo` of SHA-256. -/
structure HashObj where
  self : Nat
  handle : ShaObj
  digest : StrObj

/-- hash.c:99-207 `AcquireHashInfo` -/
def acquireHashObj (m : Mem) : HashObj × Mem :=
  let a := memAcquire [] m
  let s := acquireShaObj a.2
  let d := acquireStr [] s.2
  (⟨a.1, s.1, d.1⟩, d.2)

/-- hash.c:231-300 `DestroyHashInfo` -/
def HashObj.order (h : HashObj) : List Nat := h.handle.order ++ h.digest.order ++ [h.self]

/-- hmac.c `HMACInfo` -/
structure HmacObj where
  self : Nat
  hash : HashObj
  digest : StrObj
  initial : StrObj
  final : StrObj

/-- hmac.c:91-110 `AcquireHMACInfo` -/
def acquireHmacObj (m : Mem) : HmacObj × Mem :=
  let a := memAcquire [] m
  let h := acquireHashObj a.2
  let d := acquireStr [] h.2
  let i := acquireStr [] d.2
  let f := acquireStr [] i.2
  (⟨a.1, h.1, d.1, i.1, f.1⟩, f.2)

/-- hmac.c:174-190 `DestroyHMACInfo` -/
def HmacObj.order (h : HmacObj) : List Nat := h.final.order ++ h.initial.order ++ h.digest.order ++ h.hash.order ++ [h.self]

/-- random.c:75-108 `RandomInfo` -/
structure RandomObj where
  self : Nat
  hmac : HmacObj
  nonce : StrObj
  reservoir : StrObj
  semaphore : Nat

/-- random.c:165-264 `AcquireRandomInfo`, with its seed (238-240) as what is in its own block; what is only acquired for a while is left out. -/
def acquireRandomObj (seed : List Byte) (m : Mem) : RandomObj × Mem :=
  let a := memAcquire seed m
  let h := acquireHmacObj a.2
  let n := acquireStr [] h.2
  let r := acquireStr [] n.2
  let s := memAcquire [] r.2
  (⟨a.1, h.1, n.1, r.1, s.1⟩, s.2)

/-- random.c:295-305: the order in which blocks are given up. -/
def RandomObj.order (r : RandomObj) : List Nat := r.reservoir.order ++ r.nonce.order ++ r.hmac.order ++ [r.semaphore] ++ [r.self]

/-- random.c:301: of the four words of the seed `sizeof(*random_info->seed)` bytes, those of the first word, are reset. -/
def resetSeed (b : Nat) (m : Mem) : Mem := { m with data := fun c => if c = b then List.replicate (min 8 (m.data b).length) 0 ++ (m.data b).drop 8 else m.data c }

/-- random.c:289-307 `DestroyRandomInfo` -/
def destroyRandomObj (r : RandomObj) (m : Mem) : Res Mem := do
  let m ← memRelinquishAll (r.reservoir.order ++ r.nonce.order ++ r.hmac.order) m
  memRelinquishAll ([r.semaphore] ++ [r.self]) (resetSeed r.self m)

/-- aes.c:51-69 and cipher.c:65-96 `CipherInfo` of AES. -/
structure CipherObj where
  self : Nat
  aes : Nat
  key : StrObj
  encipher : Nat
  decipher : Nat
  random : RandomObj
  nonce : StrObj

/-- cipher.c:134-206 `AcquireCipherInfo` and aes.c:165-187 `AcquireAESInfo` -/
def acquireCipher (m : Mem) : CipherObj × Mem :=
  let a := memAcquire [] m
  let b := memAcquire [] a.2
  let k := acquireStr [] b.2
  let e := memAcquire [] k.2
  let d := memAcquire [] e.2
  let r := acquireRandomObj [] d.2
  let n := acquireStr [] r.2
  (⟨a.1, b.1, k.1, e.1, d.1, r.1, n.1⟩, n.2)

/-- cipher.c:703-744 `DestroyCipherInfo` and aes.c:475-491 `DestroyAESInfo` -/
def CipherObj.order (c : CipherObj) : List Nat := [c.decipher, c.encipher] ++ c.key.order ++ [c.aes] ++ c.nonce.order ++ c.random.order ++ [c.self]

/-- keyring.c `KeyringInfo` -/
structure RingObj where
  self : Nat
  path : Option Nat
  id : Option StrObj
  key : Option StrObj
  nonce : Option StrObj

/-- keyring.c:108-128 `AcquireKeyringInfo` -/
def acquireRing (path : Option (List Byte)) (m : Mem) : RingObj × Mem :=
  let a := memAcquire [] m
  match path with
  | none => (⟨a.1, none, none, none, none⟩, a.2)
  | some p => let b := memAcquire p a.2; (⟨a.1, some b.1, none, none, none⟩, b.2)

/-- keyring.c:152-168 `DestroyKeyringInfo` -/
def RingObj.order (r : RingObj) : List Nat := strOrder r.nonce ++ strOrder r.key ++ strOrder r.id ++ r.path.toList ++ [r.self]

/-- secret.c:65-96 `SecretInfo`; its digest is always NULL. -/
structure SecretObj where
  self : Nat
  passphrase : Option Nat
  id : Option StrObj
  key : Option StrObj
  nonce : StrObj
  ring : RingObj
  cipher : CipherObj
  hmac : HmacObj
  random : RandomObj

/-- secret.c:124-143 `AcquireSecretInfo`, with the random bytes of its nonce (137). -/
def acquireSecret (path : Option (List Byte)) (nonce : List Byte) (m : Mem) : SecretObj × Mem :=
  let a := memAcquire [] m
  let k := acquireRing path a.2
  let c := acquireCipher k.2
  let n := acquireStr nonce c.2
  let h := acquireHmacObj n.2
  let r := acquireRandomObj [] h.2
  (⟨a.1, none, none, none, n.1, k.1, c.1, h.1, r.1⟩, r.2)

/-- secret.c:234-258 `DestroySecretInfo`: the name of the passphrase is not given up. -/
def SecretObj.order (s : SecretObj) : List Nat :=
  s.random.order ++ s.hmac.order ++ s.cipher.order ++ s.ring.order ++ s.nonce.order ++ strOrder s.key ++ strOrder s.id ++ [s.self]

/-- secret.c:234-258; the seeds, of which nothing is known here, are not reset. -/
def destroySecret (s : SecretObj) (m : Mem) : Res Mem := memRelinquishAll s.order m

/-- What is done with a secret: `SetSecretId`, `SetSecretPassphrase`, and the steps of `GenerateSecretKey` and `AuthenticateSecretKey`. -/
inductive SecretOp where
  | setId (source : Option StrObj)
  | setPassphrase (name : List Byte)
  | newKey (key : List Byte)
  | newId (id : List Byte)
  | ringId
  | ringKey
  | ringNonce
  | found (id key nonce : List Byte)
  | sealKey (key : List Byte)

/-- secret.c:196-198, 312-319, where a string is destroyed and a new one acquired. -/
def renewStr (field : Option StrObj) (bytes : List Byte) (m : Mem) : Res (Option StrObj × Mem) := do
  let m ← memRelinquishAll (strOrder field) m
  let r := acquireStr bytes m
  .ok (some r.1, r.2)

/-- secret.c:482-487 `SetSecretId`, 547-553 `SetSecretPassphrase`, 312-315 and 196-198 the key, 317-319 the id; keyring.c:752-759 `SetKeyringId` with the secret's id
(secret.c:183, 320), 785-792 `SetKeyringKey` with its key (324), 818-826 `SetKeyringNonce` with its nonce (325); keyring.c:283-316, what `ExportKeyringKey` does when it finds
the id; secret.c:329-334 the enciphered key. -/
def secretStep (op : SecretOp) (s : SecretObj) (m : Mem) : Res (SecretObj × Mem) :=
  match op with
  | .setId source => do let r ← replaceStr s.id source m; .ok ({ s with id := r.1 }, r.2)
  | .setPassphrase name => do
    let m ← memRelinquishAll s.passphrase.toList m
    let a := memAcquire name m
    .ok ({ s with passphrase := some a.1 }, a.2)
  | .newKey key => do let r ← renewStr s.key key m; .ok ({ s with key := r.1 }, r.2)
  | .newId id => do let r ← renewStr s.id id m; .ok ({ s with id := r.1 }, r.2)
  | .ringId => do let r ← replaceStr s.ring.id s.id m; .ok ({ s with ring := { s.ring with id := r.1 } }, r.2)
  | .ringKey => do let r ← replaceStr s.ring.key s.key m; .ok ({ s with ring := { s.ring with key := r.1 } }, r.2)
  | .ringNonce => do let r ← replaceStr s.ring.nonce (some s.nonce) m; .ok ({ s with ring := { s.ring with nonce := r.1 } }, r.2)
  | .found id key nonce => do
    let i := acquireStr id m
    let k := acquireStr key i.2
    let n := acquireStr nonce k.2
    let a ← replaceStr s.ring.key (some k.1) n.2
    let b ← replaceStr s.ring.nonce (some n.1) a.2
    let m ← memRelinquishAll (n.1.order ++ k.1.order ++ i.1.order) b.2
    .ok ({ s with ring := { s.ring with key := a.1, nonce := b.1 } }, m)
  | .sealKey key => do
    let c ← cloneStr s.ring.key m
    let r ← replaceStr s.ring.key (some c.1) { c.2 with data := fun b => if b = c.1.datum then key else c.2.data b }
    let m ← memRelinquishAll c.1.order r.2
    .ok ({ s with ring := { s.ring with key := r.1 } }, m)

/-- A history of steps. -/
def secretRun : List SecretOp → SecretObj → Mem → Res (SecretObj × Mem)
  | [], s, m => .ok (s, m)
  | op :: ops, s, m => do let r ← secretStep op s m; secretRun ops r.1 r.2

end Wizard

import Verif.Model.Cipher
import Verif.Model.SplayTree
/-! key.c: the keys a process keeps in memory, enciphered under a session key.  The random session key and its id, the nonce and
the padding are parameters; memory suffices. -/
namespace Wizard

/-- key.c:64-84 `struct _KeyInfo`.  `heap` holds the byte strings by address: address `p` is the entry `p - 1`; what is
relinquished stays there, unused.  `id` is an address. -/
structure KeyInfo where
  map : SplayTree
  heap : List StringInfo
  id : Nat
  nonce : StringInfo
  cipher : CipherInfo

/-- The byte string at an address (0, NULL, is not one). -/
def stringAt (heap : List StringInfo) (p : Nat) : StringInfo := heap.getD (p - 1) ⟨0, List.replicate 128 0⟩

/-- splay-tree.c:446-456 `CompareSplayTreeStringInfo`. -/
def compareAt (heap : List StringInfo) (a b : Nat) : Int :=
  match compareStringInfo (stringAt heap a) (stringAt heap b) with
  | .ok r => r
  | _ => 0

/-- key.c:111-129 `AcquireKeyInfo` with the first call of 196-229 `GenerateSessionKey`: the session key is stored as it is under
its id; the structure keeps a copy of the id. -/
def acquireKeyInfo (draw draw' : Nat → Byte) (id key : StringInfo) : Res KeyInfo := do
  let c ← acquireCipherInfo (aesCipher []) .ctr draw draw
  let nonce ← generateCipherNonce .ctr c.cipher.blocksize draw'
  let a ← cloneStringInfo id
  let b ← cloneStringInfo key
  let heap := [id, a, b]
  let m ← addValue (some (compareAt heap)) newSplayTree 2 3
  .ok ⟨m, heap, 1, nonce, c⟩

/-- key.c:264-267, 271-272 and 319-324: find the session key and prepare the cipher with it. -/
def sessionCipher (k : KeyInfo) (random : Nat → Byte) : Res KeyInfo := do
  let g ← getFromSplay (some (compareAt k.heap)) k.map k.id
  if g.1 = 0 then .fatal
  else do
    let c ← setCipherNonce { k.cipher with cipher := aesCipher (stringAt k.heap g.1).bytes, random := random } k.nonce
    .ok { k with map := g.2, cipher := c }

/-- key.c:305-329 `SetKeyInfo`. -/
def setKeyInfo (k : KeyInfo) (random : Nat → Byte) (id key : StringInfo) : Res KeyInfo := do
  let k ← sessionCipher k random
  let c ← cloneStringInfo key
  let c ← encipherCipher .ctr k.cipher c
  let i ← cloneStringInfo id
  let heap := k.heap ++ [i, c]
  let m ← addValue (some (compareAt heap)) k.map (k.heap.length + 1) (k.heap.length + 2)
  .ok { k with map := m, heap := heap }

/-- key.c:255-276 `GetKeyInfo`.  The id of the caller has an address as well.  (The key is looked up before the cipher is
prepared; neither has an effect on the other.) -/
def getKeyInfo (k : KeyInfo) (random : Nat → Byte) (id : StringInfo) : Res (StringInfo × KeyInfo) := do
  let k ← sessionCipher { k with heap := k.heap ++ [id] } random
  let g ← getFromSplay (some (compareAt k.heap)) k.map k.heap.length
  if g.1 = 0 then .fatal
  else do
    let key ← cloneStringInfo (stringAt k.heap g.1)
    let key ← decipherCipher .ctr k.cipher key
    .ok (key, { k with map := g.2 })

end Wizard

import Verif.Model.AESTables
/-!
The AES block cipher of wizard/aes.c. A block is a list of 16 bytes (the mode functions check the
bounds); `text` and `key` arrays of four words are functions on `Fin 4`; the key arrays are functions
on word indices (`encipher_key[i]`), the number of rounds is kept beside them.
-/
namespace Wizard

/-- A table lookup with an index already masked to the table's range. -/
def tab {α : Type} [OfNat α 0] (t : List α) {n : Nat} (i : BitVec n) : α := t.getD i.toNat 0

/-- aes.c:314-317 `RotateLeft`. -/
def aesRotateLeft (x : Word) : Word := (x <<< 8) ||| ((x >>> 24) &&& 0xff)

/-- aes.c:717-720 `RotateRight`. -/
def aesRotateRight (x : Word) : Word := (x >>> 8) ||| ((x &&& 0xff) <<< 24)

/-- aes.c:231-240 `ByteMultiply`. -/
def aesByteMultiply (alpha beta : Byte) : Word :=
  if alpha = 0 ∨ beta = 0 then 0
  else ((aesInverseLog.getD (((tab aesLog alpha).toNat + (tab aesLog beta).toNat) % 0xff) 0).setWidth 32)

/-- aes.c:242-256 `ByteSubTransform`. -/
def aesByteSubTransform (x : Word) (sbox : List Byte) : Word :=
  (tab sbox (x &&& 0xff)).setWidth 32 |||
  ((tab sbox ((x >>> 8) &&& 0xff)).setWidth 32 <<< 8) |||
  ((tab sbox ((x >>> 16) &&& 0xff)).setWidth 32 <<< 16) |||
  ((tab sbox ((x >>> 24) &&& 0xff)).setWidth 32 <<< 24)

/-- aes.c:706-715 `XTime`. -/
def aesXTime (alpha : Byte) : Word :=
  let beta : Byte := if alpha &&& 0x80 ≠ 0 then 0x1b else 0
  ((alpha <<< 1) ^^^ beta).setWidth 32

/-- aes.c:303-305, 766-769: four bytes, low byte first. -/
def aesLoad (p : List Byte) (i : Nat) : Word :=
  (p.getD (4 * i) 0).setWidth 32 ||| ((p.getD (4 * i + 1) 0).setWidth 32 <<< 8) |||
  ((p.getD (4 * i + 2) 0).setWidth 32 <<< 16) ||| ((p.getD (4 * i + 3) 0).setWidth 32 <<< 24)

/-- aes.c:287-312 `InitializeRoundKey`; `key` starts at word `k`. -/
def aesInitializeRoundKey (text : List Byte) (key : Nat → Word) (k : Nat) (i : Fin 4) : Word :=
  key (k + i) ^^^ aesLoad text i

/-- aes.c:218-229 `AddRoundKey`. -/
def aesAddRoundKey (text : Fin 4 → Word) (key : Nat → Word) (k : Nat) (i : Fin 4) : Word :=
  key (k + i) ^^^ text i

/-- aes.c:258-285 `FinalizeRoundKey`. -/
def aesFinalizeRoundKey (text : Fin 4 → Word) (key : Nat → Word) (k : Nat) : List Byte :=
  [0, 1, 2, 3].flatMap fun i : Fin 4 =>
    let value := text i ^^^ key (k + i)
    [0, 1, 2, 3].map fun j => ((value >>> (8 * j : Nat)) &&& 0xff).setWidth 8

/-- aes.c:528-535 `map` of the encipherment. -/
def aesEncipherMap : List (List (Fin 4)) := [[0, 1, 2, 3], [1, 2, 3, 0], [2, 3, 0, 1], [3, 0, 1, 2]]

/-- aes.c:322-329 `map` of the decipherment. -/
def aesDecipherMap : List (List (Fin 4)) := [[0, 1, 2, 3], [3, 0, 1, 2], [2, 3, 0, 1], [1, 2, 3, 0]]

/-- `text[map[r][j]]`. -/
def aesAt (map : List (List (Fin 4))) (text : Fin 4 → Word) (r : Nat) (j : Fin 4) : Word :=
  text ((map.getD r []).getD j.val 0)

/-- aes.c:609-613 and 431-435: the linear mixing step with table `t`. -/
def aesMix (map : List (List (Fin 4))) (t : List Word) (text : Fin 4 → Word) (j : Fin 4) : Word :=
  tab t (text j &&& 0xff) ^^^
    aesRotateLeft (tab t ((aesAt map text 1 j >>> 8) &&& 0xff) ^^^
      aesRotateLeft (tab t ((aesAt map text 2 j >>> 16) &&& 0xff) ^^^
        aesRotateLeft (tab t ((aesAt map text 3 j >>> 24) &&& 0xff))))

/-- aes.c:616-621 and 438-443: the last round. -/
def aesLast (map : List (List (Fin 4))) (sbox : List Byte) (text : Fin 4 → Word) (i : Fin 4) : Word :=
  aesByteSubTransform ((text i &&& 0x000000ff) ||| (aesAt map text 1 i &&& 0x0000ff00) |||
    (aesAt map text 2 i &&& 0x00ff0000) ||| (aesAt map text 3 i &&& 0xff000000)) sbox

/-- aes.c:45-69 `struct _AESInfo`: the round keys and the number of rounds. -/
structure AESInfo where
  encipherKey : Nat → Word
  decipherKey : Nat → Word
  rounds : Nat

/-- aes.c:604-615: rounds `i`, `i+1`, ... , `n` of them. -/
def aesEncipherRounds (key : Nat → Word) : Nat → Nat → (Fin 4 → Word) → (Fin 4 → Word)
  | 0, _, text => text
  | n + 1, i, text =>
    aesEncipherRounds key n (i + 1) (aesAddRoundKey (aesMix aesEncipherMap aesD text) key (4 * i))

/-- aes.c:521-629 `EncipherAESBlock`. -/
def encipherAESBlock (a : AESInfo) (plaintext : List Byte) : List Byte :=
  let text := aesInitializeRoundKey plaintext a.encipherKey 0
  let text := aesEncipherRounds a.encipherKey (a.rounds - 1) 1 text
  aesFinalizeRoundKey (aesLast aesEncipherMap aesSBox text) a.encipherKey (4 * a.rounds)

/-- aes.c:426-437: rounds `i`, `i-1`, ..., 1. -/
def aesDecipherRounds (key : Nat → Word) : Nat → (Fin 4 → Word) → (Fin 4 → Word)
  | 0, text => text
  | i + 1, text =>
    aesDecipherRounds key i (aesAddRoundKey (aesMix aesDecipherMap aesI text) key (4 * (i + 1)))

/-- aes.c:319-451 `DecipherAESBlock`. -/
def decipherAESBlock (a : AESInfo) (ciphertext : List Byte) : List Byte :=
  let text := aesInitializeRoundKey ciphertext a.decipherKey (4 * a.rounds)
  let text := aesDecipherRounds a.decipherKey (a.rounds - 1) text
  aesFinalizeRoundKey (aesLast aesDecipherMap aesInverseSBox text) a.decipherKey 0

/-- aes.c:697-702: one byte of one word of `InverseAddRoundKey`. -/
def aesInverseByte (alpha : Word) (j : Nat) : Word :=
  aesByteMultiply 0xe (((alpha >>> (8 * j : Nat)) &&& 0xff).setWidth 8) ^^^
  aesByteMultiply 0xb (((alpha >>> (8 * ((j + 1) % 4) : Nat)) &&& 0xff).setWidth 8) ^^^
  aesByteMultiply 0xd (((alpha >>> (8 * ((j + 2) % 4) : Nat)) &&& 0xff).setWidth 8) ^^^
  aesByteMultiply 0x9 (((alpha >>> (8 * ((j + 3) % 4) : Nat)) &&& 0xff).setWidth 8)

/-- aes.c:688-704 `InverseAddRoundKey`, one word. -/
def aesInverseWord (alpha : Word) : Word :=
  [0, 1, 2, 3].foldl (fun beta j => beta ||| (aesInverseByte alpha j <<< (8 * j : Nat))) 0

/-- aes.c:745-757: `n` and the number of rounds for a key of `length` bytes. -/
def aesSize (length : Nat) : Nat × Nat :=
  if 8 * length ≥ 256 then (8, 14) else if 8 * length ≥ 192 then (6, 12) else (4, 10)

/-- aes.c:772-784: the key expansion loop, from the words `w` computed so far (`i` is their number). -/
def aesExpand (n : Nat) : Nat → List Word → Word → List Word
  | 0, w, _ => w
  | m + 1, w, beta =>
    let i := w.length
    let alpha := w.getD (i - 1) 0
    let (alpha, beta) :=
      if i % n = 0 then
        (aesByteSubTransform (aesRotateRight alpha) aesSBox ^^^ beta,
          aesXTime ((beta &&& 0xff).setWidth 8))
      else if n > 6 ∧ i % n = 4 then (aesByteSubTransform alpha aesSBox, beta)
      else (alpha, beta)
    aesExpand n m (w ++ [w.getD (i - n) 0 ^^^ alpha]) beta

/-- aes.c:761-784: the words of the encipherment key for a key of the given bytes; `aes_info->key` has
32 bytes (aes.c:175) and the word arrays 60 entries (aes.c:176-179). -/
def aesKeyWords (key : List Byte) : List Word :=
  let n := (aesSize key.length).1
  let datum := key.take 32 ++ List.replicate (32 - key.length) 0
  aesExpand n (4 * ((aesSize key.length).2 + 1) - n) ((List.range n).map (aesLoad datum)) 1

/-- aes.c:788-794: the words of the decipherment key; `bytes` is the number of words. -/
def aesDecipherWord (w : List Word) (bytes i : Nat) : Word :=
  if i < 4 ∨ bytes - 4 ≤ i then w.getD i 0 else aesInverseWord (w.getD i 0)

/-- aes.c:722-802 `SetAESKey`. -/
def setAESKey (key : List Byte) : AESInfo :=
  { encipherKey := fun i => (aesKeyWords key).getD i 0
    decipherKey := aesDecipherWord (aesKeyWords key) (4 * ((aesSize key.length).2 + 1))
    rounds := (aesSize key.length).2 }

end Wizard

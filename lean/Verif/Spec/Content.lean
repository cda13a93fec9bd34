import Verif.Model.Content
import Verif.Spec.Cipher
/-! Vocabulary of the statements about enciphered files (C99-C102). -/
namespace Wizard.Spec.Content
open Wizard

/-- Bytes of the HMAC before a chunk. -/
def tagSize (ci : Content) : Nat := match ci.hmac with | none => 0 | some (n, _) => n

/-- Bytes that say how a chunk is compressed. -/
def entropySize (ci : Content) : Nat := match ci.entropy with | none => 0 | some _ => 1

/-- A compression method restores what it made shorter, whatever follows; it is not called `NoEntropy`. -/
structure Lossless (e : Packer) : Prop where
  type : e.type ≠ noEntropy
  restores : ∀ m rest, (e.pack m).length + rest.length = m.length → e.unpack m.length (e.pack m ++ rest) = some m

/-- Settings that make sense: a cipher that can be inverted, chunks and HMACs of a fixed size that is not 0, lossless compression. -/
structure Sound (ci : Content) : Prop where
  ready : ci.cipher.Ready
  invertible : ci.cipher.cipher.Invertible
  chunk : 0 < ci.chunksize ∧ ci.chunksize < 2 ^ 62
  tag : ∀ n h, ci.hmac = some (n, h) → 0 < n ∧ n < 2 ^ 62 ∧ ∀ m, (h m).length = n
  packer : ∀ e, ci.entropy = some e → Lossless e

/-- Settings that any file can be deciphered with. -/
structure Usable (ci : Content) : Prop where
  ready : ci.cipher.Ready
  chunk : 0 < ci.chunksize ∧ ci.chunksize < 2 ^ 62
  tag : ∀ n h, ci.hmac = some (n, h) → 0 < n ∧ n < 2 ^ 62

/-- Both sides use the same settings, key and nonce; what is random may differ. -/
structure Agree (ci ci' : Content) : Prop where
  mode : ci'.mode = ci.mode
  cipher : ci'.cipher.cipher = ci.cipher.cipher
  nonce : ci'.cipher.nonce = ci.cipher.nonce
  chunksize : ci'.chunksize = ci.chunksize
  hmac : ci'.hmac = ci.hmac
  entropy : ci'.entropy = ci.entropy

/-- The sizes of files that survive.  All do in CFB mode, and if the chunk size is not a multiple of the block size.  Otherwise a file must
end neither in the last block of a chunk nor just before it; and if it ends with a chunk, then what comes before a chunk must be as large as
a block. -/
def Restorable (ci : Content) (size : Nat) : Prop :=
  ci.mode = .cfb ∨ ci.chunksize % ci.cipher.cipher.blocksize ≠ 0 ∨ size = 0 ∨
  (size % ci.chunksize = 0 ∧ ci.cipher.cipher.blocksize ≤ tagSize ci + entropySize ci) ∨
  (size % ci.chunksize ≠ 0 ∧ size % ci.chunksize + ci.cipher.cipher.blocksize < ci.chunksize)

instance (ci : Content) (size : Nat) : Decidable (Restorable ci size) := by unfold Restorable; infer_instance

/-- From one HMAC of an enciphered file to the next. -/
def stride (ci : Content) : Nat :=
  tagSize ci + entropySize ci +
    (if ci.mode = .cfb then ci.chunksize else (ci.chunksize + ci.cipher.cipher.blocksize - 1) / ci.cipher.cipher.blocksize * ci.cipher.cipher.blocksize)

/-- The counter of CTR mode does not wrap within a chunk. -/
def CounterFits (ci : Content) : Prop :=
  ci.mode = .ctr → Spec.beNat ci.cipher.nonce.bytes + (ci.chunksize / ci.cipher.cipher.blocksize + 1) < 256 ^ ci.cipher.cipher.blocksize

end Wizard.Spec.Content

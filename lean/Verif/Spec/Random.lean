import Verif.Model.Random
import Verif.Spec.HashApi
/-! What is expected of the random generator. -/
namespace Wizard.Spec
open Hash

/-- A string of bytes as a number, most significant first. -/
def num (l : List Byte) : Nat := l.foldl (fun v b => 256 * v + b.toNat) 0

/-- The next nonce: the first byte stays, the other bytes are a counter; none once the counter is at its greatest. -/
def nonceNext : List Byte → Option (List Byte)
  | [] => none
  | b :: t => if num t + 1 < 256 ^ t.length then some (b :: be t.length (num t + 1)) else none

/-- `k` blocks of the function `H` of the nonces from `c` on, and the nonce after them. -/
def genBlocks (H : List Byte → List Byte) : Nat → List Byte → Option (List Byte × List Byte)
  | 0, c => some ([], c)
  | k + 1, c => do
    let c1 ← nonceNext c
    let r ← genBlocks H k c1
    some (H c ++ r.1, r.2)

/-- The nonces used for `k` blocks. -/
def genNonces : Nat → List Byte → List (List Byte)
  | 0, _ => []
  | k + 1, c => c :: match nonceNext c with
    | some c1 => genNonces k c1
    | none => []

/-- The first `k` blocks of the generator's stream: the HMACs under `key` of the counter 0, 1, 2, ..., which is written in
twice as many bytes as the hash function `F` gives, most significant byte first. -/
def randomStream (F : List Byte → List Byte) (B D : Nat) (key : List Byte) (k : Nat) : List Byte :=
  (List.range k).flatMap fun i => hmac F B key (be (2 * D) i)

/-- The number of blocks of `D` bytes that hold `n` bytes. -/
def randomBlocks (D n : Nat) : Nat := (n + D - 1) / D

end Wizard.Spec

namespace Wizard

/-- A user's calls: SetRandomKey for each of the lengths; all bytes in turn. -/
def randomKeys (lsb : Bool) (fuel : Nat) : RandomInfo → List Nat → Res (List Byte × RandomInfo)
  | r, [] => .ok ([], r)
  | r, n :: ns => do
    let a ← setRandomKey lsb fuel r n
    let b ← randomKeys lsb fuel a.2 ns
    .ok (a.1 ++ b.1, b.2)

end Wizard

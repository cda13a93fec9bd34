import Verif.Model.Entropy
/-! What is asked of compression. -/
namespace Wizard.Spec.Entropy
open Wizard

/-- A library that restores what it compresses. -/
def Lossless (lib : CompressLib) : Prop := ∀ level m, lib.levelOK level = true → lib.decode (lib.compress level m) = (m, .done)

/-- A stream is no longer than `limit` of the size of the message. -/
def Within (lib : CompressLib) (limit : Nat → Nat) : Prop := ∀ level m, lib.levelOK level = true → (lib.compress level m).length ≤ limit m.length

/-- The library of a type of entropy. -/
def library (libs : CompressLibs) : EntropyType → Option CompressLib
  | .zip => some libs.zlib
  | .bzip => some libs.bz2
  | .lzma => some libs.xz
  | _ => none

/-- The libraries keep what they document. -/
structure Documented (libs : CompressLibs) : Prop where
  zlib : Lossless libs.zlib ∧ Within libs.zlib libs.zlib.bound
  bz2 : Lossless libs.bz2 ∧ Within libs.bz2 (fun n => n + n / 100 + 600)
  xz : Lossless libs.xz ∧ Within libs.xz (fun n => n + n / 3 + 128)

end Wizard.Spec.Entropy

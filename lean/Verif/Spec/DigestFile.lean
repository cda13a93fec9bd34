import Verif.Model.DigestFile
/-! What authenticating digests means. -/
namespace Wizard.Spec.DigestFile
open Wizard

/-- A graphic ASCII character. -/
def Graphic (c : Byte) : Prop := 33 ≤ c.toNat ∧ c.toNat ≤ 126

/-- A text of graphic ASCII characters without angle brackets, quotes and ampersands. -/
def Plain (s : List Byte) : Prop := s ≠ [] ∧ ∀ c ∈ s, Graphic c ∧ c ≠ 38 ∧ c ≠ 60 ∧ c ≠ 62 ∧ c ≠ 34 ∧ c ≠ 39

/-- What is to be said of a file that is called `name` if a digest was recorded for it, with its dates. -/
def judge (env : DigestEnv) (hash : BitVec 64) (name recorded now modified : List Byte) : List DigestEvent :=
  match env.files name with
  | none => [.missing name]
  | some content => if recorded = env.hex hash content then [] else [.changed name modified modified hash now recorded (env.hex hash content)]

/-- What is to be said of files if their digests were recorded before, in `old`, and are looked at later, in `new`: of every file that there was then, in that order, that
it is missing, or that its digest has changed; nothing of all others. -/
def verdict (old new : DigestEnv) (hash : BitVec 64) (paths : List (List Byte)) : List DigestEvent :=
  paths.flatMap fun path => match old.files path with
    | none => []
    | some content => judge new hash path (old.hex hash content) (old.now path) (old.modified path)

/-- Dates, lengths and digests are texts, and there is memory for options. -/
structure Sane (env : DigestEnv) (hash : BitVec 64) : Prop where
  junk : env.junk.length = 4096
  now : ∀ p, Plain (env.now p)
  modified : ∀ p, Plain (env.modified p)
  length : ∀ n, Plain (env.length n)
  hex : ∀ content, Plain (env.hex hash content)

end Wizard.Spec.DigestFile

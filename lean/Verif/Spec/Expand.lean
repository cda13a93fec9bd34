import Verif.Model.Expand
import Verif.Spec.Glob
import Verif.Spec.Dict
/-! What the patterns on a command line stand for. -/
namespace Wizard.Spec.Expand
open Wizard Wizard.Spec

/-- The path of a name in a directory; the working directory is written as nothing. -/
def under (h n : List Byte) : List Byte := if h = [] then n else h ++ asc '/' :: n

/-- How the system answers: a path with a slash at its end names no regular file, and a directory with a slash at its end is the
same directory.  The buffers have their sizes. -/
structure Sane (env : ExpandEnv) : Prop where
  fold : env.fold = asciiMap ∨ env.fold = cLocaleLower
  slash : ∀ p, env.regular (p ++ [asc '/']) = false
  again : ∀ p, env.directory p = true → env.directory (p ++ [asc '/']) = true
  token : env.token.length = 4096
  memory : env.memory.length = 4096

/-- An argument as it is commonly written: not empty, at most one sign before it, and without spaces, commas, colons and exclamation
marks at its start. -/
structure Common (a : List Byte) : Prop where
  form : ∃ sign c w, a = sign ++ c :: w ∧ (sign = [] ∨ sign = [asc '-'] ∨ sign = [asc '+']) ∧ c ≠ asc '-' ∧ c ≠ asc '+' ∧ c ≠ asc '!'
  plain : ∀ c ∈ a, isSpaceC c = false ∧ c ≠ asc ',' ∧ c ≠ 0 ∧ c ≠ asc ':'
  short : a.length < 2049

/-- An argument that is to be left alone: it begins with a quote, or nothing in it makes it a pattern. -/
def Literal (a : List Byte) : Prop :=
  a.head? = some (asc '"') ∨ a.head? = some (asc '\'') ∨ ∀ c ∈ a, c ∉ [asc '*', asc '?', asc '{', asc '}', asc '[', asc ']']

/-- An argument that is a pattern: a directory other than the root, and in it names given by `ps`.  The names do not end with a bracket. -/
structure Pattern (env : ExpandEnv) (h : List Byte) (ps : List Elem) (names : List (List Byte)) (a : List Byte) : Prop where
  text : a = under h (patternText ps)
  wf : ∀ e ∈ ps, e.WF
  special : ∃ c ∈ patternText ps, c ∈ [asc '*', asc '?', asc '{', asc '}', asc '[', asc ']']
  one : asc '/' ∉ patternText ps
  last : (patternText ps).getLast? ≠ some (asc ']')
  quote : a.head? ≠ some (asc '"') ∧ a.head? ≠ some (asc '\'')
  tilde : h.head? ≠ some (asc '~')
  /-- it is not itself the name of a file -/
  absent : env.regular (patternText ps) = false
  /-- the directory can be read -/
  listing : env.names (if h = [] then env.cwd else h) = some names
  nul : ∀ n ∈ names, (0 : Byte) ∉ n
  room : ∀ n ∈ names, (under h n).length < 4095

/-- The name is not hidden and matches the pattern. -/
def Fits (ps : List Elem) (n : List Byte) : Prop := n.head? ≠ some (asc '.') ∧ Matches false ps n

/-- The files of the listed directory do not clash with the directories of the working directory: a file that fits has not the name of
one of them, and if no file fits then whatever fits has. -/
def Clear (env : ExpandEnv) (h : List Byte) (ps : List Elem) (names : List (List Byte)) : Prop :=
  (∀ n ∈ names, Fits ps n → env.regular (under h n) = true → env.directory n = false) ∧
  ((∀ n ∈ names, Fits ps n → env.regular (under h n) = false) → ∀ n ∈ names, Fits ps n → env.directory n = true)

/-- What an argument is to become. -/
inductive Expands (env : ExpandEnv) : List Byte → List (List Byte) → Prop
  /-- it stays -/
  | stays {a} : Literal a → Expands env a [a]
  /-- a pattern no file fits stays -/
  | none {a h ps names} : Pattern env h ps names a → (∀ n ∈ names, Fits ps n → env.regular (under h n) = false) → Expands env a [a]
  /-- a pattern becomes the files that fit it, in dictionary order but for letter case, each once -/
  | files {a h ps names ns} : Pattern env h ps names a → ns ≠ [] → (∀ n, n ∈ ns ↔ n ∈ names ∧ Fits ps n ∧ env.regular (under h n) = true) →
      ns.Pairwise (fun x y => ¬ DictLT (y.map env.fold) (x.map env.fold)) → (names.Nodup → ns.Nodup) → Expands env a (ns.map (under h))

end Wizard.Spec.Expand

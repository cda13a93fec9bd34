import Verif.Model.Configure
/-! What looking up, listing, finding and loading configurations means. -/
namespace Wizard.Spec.Configure
open Wizard

/-- Names are the same if they differ in the case of letters at most. -/
def Same (fold : Byte → Byte) (a b : List Byte) : Prop := a.map fold = b.map fold

/-- `e` is the first entry of that name. -/
def FirstNamed (fold : Byte → Byte) (entries : List CfgEntry) (name : List Byte) (e : CfgEntry) : Prop :=
  ∃ before after n, entries = before ++ e :: after ∧ e.name = some n ∧ Same fold n name ∧ ∀ x ∈ before, ∀ m, x.name = some m → ¬ Same fold m name

/-- There is no entry of that name. -/
def NotNamed (fold : Byte → Byte) (entries : List CfgEntry) (name : List Byte) : Prop := ∀ x ∈ entries, ∀ m, x.name = some m → ¬ Same fold m name

/-- Every entry has a name. -/
def AllNamed (entries : List CfgEntry) : Prop := ∀ x ∈ entries, ∃ n, x.name = some n

/-- Alphabetical order, whatever the case of letters. -/
inductive Before (fold : Byte → Byte) : List Byte → List Byte → Prop
  | empty (b) : Before fold [] b
  | first {x y : Byte} (a b) : (fold x).toNat < (fold y).toNat → Before fold (x :: a) (y :: b)
  | rest {x y : Byte} {a b} : fold x = fold y → Before fold a b → Before fold (x :: a) (y :: b)

/-- The names a list for a pattern has: those of all entries that are not hidden and match, as often as there are entries, in alphabetical order. `*` and
the empty pattern match every name. -/
def Listing (fold : Byte → Byte) (glob : List Byte → List Byte → Bool) (pattern : List Byte) (entries : List CfgEntry) (names : List (List Byte)) : Prop :=
  names.Perm ((entries.filter fun e => !e.stealth && (pattern == [] || pattern == [42] || glob (e.name.getD []) pattern)).map fun e => e.name.getD []) ∧
  names.Pairwise (Before fold)

/-- A function that sorts, as C's `qsort` does. -/
def Sorts {α : Type} (le : α → α → Bool) (f : List α → List α) : Prop := ∀ l, (f l).Perm l ∧ (f l).Pairwise fun a b => le a b = true

/-- Directories joined by colons. -/
def joined : List (List Byte) → List Byte
  | [] => []
  | [d] => d
  | d :: ds => d ++ 58 :: joined ds

/-- A directory as the beginning of a path: with a separator at its end; the empty directory is the working directory. -/
def asPrefix (d : List Byte) : List Byte := if d = [] ∨ d.getLast? = some 47 then d else d ++ [47]

mutual
/-- Loading a file: first the files it includes, then its own entries. `place f a` is where the file is that the file `f` includes as `a`. The number is how
deep files include one another, at most. -/
inductive Loads (place : List Byte → List Byte → List Byte) (fs : List Byte → Option CfgDoc) : Nat → List Byte → CfgDoc → List CfgEntry → Prop
  | file {n f doc es} : Includes place fs n f doc.includes es → Loads place fs n f doc (es ++ doc.entries.map fun e => { e with path := f })

/-- Including files one after the other; those that are not there are left out. -/
inductive Includes (place : List Byte → List Byte → List Byte) (fs : List Byte → Option CfgDoc) : Nat → List Byte → List (Option (List Byte)) → List CfgEntry → Prop
  | done {n f} : Includes place fs n f [] []
  | unnamed {n f is es} : Includes place fs n f is es → Includes place fs n f (none :: is) es
  | missing {n f a is es} : fs (place f a) = none → Includes place fs n f is es → Includes place fs n f (some a :: is) es
  | found {n f a d is es es'} : fs (place f a) = some d → Loads place fs n (place f a) d es → Includes place fs (n + 1) f is es' →
      Includes place fs (n + 1) f (some a :: is) (es ++ es')
end

/-- Where an included file is: in the directory of the file that includes it, unless its path begins with a separator. -/
def place (f a : List Byte) : List Byte :=
  if a.head? = some 47 then a
  else ((f.reverse.dropWhile (· != 47)).reverse) ++ a

end Wizard.Spec.Configure

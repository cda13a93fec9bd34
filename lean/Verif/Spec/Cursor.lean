/-! The mathematical object a linked list is meant to be: a sequence and a cursor in it. -/
namespace Wizard.Spec

/-- A sequence of values (0 is NULL) and the number of values before the iterator. -/
structure Cursor where
  vals : List Nat
  pos : Nat
  deriving Repr

/-- The calls of the list interface. An allocating call carries the address that the allocator
returned (0: out of memory). -/
inductive ListOp where
  | append (addr v : Nat)
  | insertFirst (addr v : Nat)
  | insertLast (addr v : Nat)
  | insertSorted (compare : Nat → Nat → Int) (addr v : Nat)
  | remove (i : Nat)
  | removeValue (v : Nat)
  | removeLast
  | clear
  | get (i : Nat)
  | last
  | count
  | isEmpty
  | toArray
  | reset
  | next

/-- What a call returns. -/
inductive ListOut where
  | bool (b : Bool)
  | val (v : Nat)
  | num (n : Nat)
  | vals (l : List Nat)
  | none

/-- The value at an index, NULL beyond the end. -/
def nth (l : List Nat) (i : Nat) : Nat := (l[i]?).getD 0

/-- Removing position `i`: an iterator beyond it moves back with its element. -/
def Cursor.removeAt (c : Cursor) (i : Nat) : Cursor :=
  if i < c.vals.length then
    ⟨c.vals.eraseIdx i, if i < c.pos then c.pos - 1 else c.pos⟩
  else c

/-- The intended effect of each call on a list of the given capacity. -/
def Cursor.step (cap : Nat) (c : Cursor) : ListOp → ListOut × Cursor
  | .append a v =>
    if c.vals.length = cap ∨ a = 0 then (.bool false, c)
    else (.bool true, ⟨c.vals ++ [v], c.pos⟩)
  | .insertFirst a v =>
    if v = 0 ∨ c.vals.length = cap ∨ a = 0 then (.bool false, c)
    else (.bool true, ⟨v :: c.vals, if c.pos = 0 then 0 else c.pos + 1⟩)
  | .insertLast a v =>
    if v = 0 ∨ c.vals.length = cap ∨ a = 0 then (.bool false, c)
    else (.bool true, ⟨c.vals ++ [v], c.pos⟩)
  | .insertSorted compare a v =>
    if v = 0 ∨ c.vals.length = cap ∨ a = 0 then (.bool false, c)
    else
      let i := (c.vals.takeWhile fun x => !decide (compare v x < 0)).length
      (.bool true, ⟨c.vals.take i ++ v :: c.vals.drop i, if i ≤ c.pos then c.pos + 1 else c.pos⟩)
  | .remove i => (.val (nth c.vals i), c.removeAt i)
  | .removeValue v =>
    if v = 0 then (.val 0, c)
    else (.val (if v ∈ c.vals then v else 0), c.removeAt (c.vals.idxOf v))
  | .removeLast => (.val (c.vals.getLast?.getD 0), ⟨c.vals.dropLast, min c.pos (c.vals.length - 1)⟩)
  | .clear => (.none, ⟨[], 0⟩)
  | .get i => (.val (nth c.vals i), c)
  | .last => (.val (c.vals.getLast?.getD 0), c)
  | .count => (.num c.vals.length, c)
  | .isEmpty => (.bool c.vals.isEmpty, c)
  | .toArray => (.vals c.vals, c)
  | .reset => (.none, ⟨c.vals, 0⟩)
  | .next => (.val (nth c.vals c.pos), ⟨c.vals, min (c.pos + 1) c.vals.length⟩)

/-- The intended results of a history of calls. -/
def Cursor.run (cap : Nat) (c : Cursor) : List ListOp → List ListOut × Cursor
  | [] => ([], c)
  | op :: ops =>
    let (o, c) := c.step cap op
    let (os, c) := c.run cap ops
    (o :: os, c)

end Wizard.Spec

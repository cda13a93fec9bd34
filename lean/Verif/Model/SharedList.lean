import Verif.Model.LinkedList
import Verif.Model.Shared
import Verif.Spec.Cursor
/-! hashmap.c: a linked list that several threads use.  The functions test `elements` before they take the semaphore and do not
test it again. -/
namespace Wizard
open Wizard.Spec

/-- What a call reads before `LockSemaphoreInfo`, with the allocation of the new element (which the allocator answers by the
address in the call, 0: none): hashmap.c:157-161, 453-454, 683, 801-802, 1002-1009, 1108-1114, 1211, 1603-1604, 1681-1682,
1833-1834.  (`insertLast` is a caller that asks for the number of elements and inserts there; the model does not
separate the two calls.) -/
def listCheck (op : ListOp) (s : LList) : Option ListOut :=
  match op with
  | .append a _ => if s.elements = s.capacity ∨ a = 0 then some (.bool false) else none
  | .insertFirst a v => if v = 0 ∨ s.elements = s.capacity ∨ a = 0 then some (.bool false) else none
  | .insertLast a v => if v = 0 ∨ s.elements = s.capacity ∨ a = 0 then some (.bool false) else none
  | .insertSorted _ a v => if v = 0 ∨ s.elements = s.capacity ∨ a = 0 then some (.bool false) else none
  | .remove i => if s.elements ≤ i then some (.val 0) else none
  | .removeValue v => if s.elements = 0 ∨ v = 0 then some (.val 0) else none
  | .removeLast => if s.elements = 0 then some (.val 0) else none
  | .clear => none
  | .get i => if s.elements ≤ i then some (.val 0) else none
  | .last => if s.elements = 0 then some (.val 0) else none
  | .count => some (.num s.elements)
  | .isEmpty => some (.bool (s.elements == 0))
  | .toArray => none
  | .reset => none
  | .next => none

/-- hashmap.c:164-174, with the semaphore. -/
def appendLocked (s : LList) (a v : Nat) : Res (ListOut × LList) :=
  let h := setE s.heap a (v, 0)
  let nx := if s.next = 0 then a else s.next
  if s.elements = 0 then
    .ok (.bool true, { s with heap := h, next := nx, head := a, tail := a, elements := s.elements + 1 })
  else do
    let h ← stNext h s.tail a
    .ok (.bool true, { s with heap := h, next := nx, tail := a, elements := s.elements + 1 })

/-- hashmap.c:1012-1057 at index 0, with the semaphore. -/
def insertFirstLocked (s : LList) (a v : Nat) : Res (ListOut × LList) :=
  let h := setE s.heap a (v, 0)
  if s.elements = 0 then
    let nx := if s.next = 0 then a else s.next
    .ok (.bool true, { s with heap := h, next := nx, head := a, tail := a, elements := s.elements + 1 })
  else do
    let nx := if s.next = s.head then a else s.next
    let h ← stNext h a s.head
    .ok (.bool true, { s with heap := h, next := nx, head := a, elements := s.elements + 1 })

/-- hashmap.c:1012-1057 at the end, with the semaphore. -/
def insertLastLocked (s : LList) (a v : Nat) : Res (ListOut × LList) := do
  let (b, s) ← insertValue s a s.elements v
  .ok (.bool b, s)

/-- hashmap.c:1117-1152 without `replace`, with the semaphore. -/
def insertSortedLocked (compare : Nat → Nat → Int) (s : LList) (a v : Nat) : Res (ListOut × LList) := do
  let h := setE s.heap a (v, 0)
  let (h, head, elements, e, nn, _) ← sortedLoop compare false a v (s.elements + 1) h s.head s.elements 0 s.head
  let h ← stNext h a nn
  if nn = 0 then
    if e ≠ 0 then do
      let h ← stNext h e a
      .ok (.bool true, { s with heap := h, head := head, tail := a, elements := elements + 1 })
    else
      .ok (.bool true, { s with heap := h, head := a, tail := a, elements := elements + 1 })
  else .ok (.bool true, { s with heap := h, head := head, elements := elements + 1 })

/-- hashmap.c:1683-1712, with the semaphore. -/
def removeLocked (s : LList) (i : Nat) : Res (ListOut × LList) := do
  let (v, s) ← (if i = 0 then unlinkHead s
    else do
      let p ← walkE s.heap s.head (i - 1)
      unlinkAfter s p)
  .ok (.val v, s)

/-- hashmap.c:1605-1638, with the semaphore. -/
def removeValueLocked (s : LList) (v : Nat) : Res (ListOut × LList) := do
  let c ← ldE s.heap s.head
  if v = c.1 then do
    let (_, s) ← unlinkHead s
    .ok (.val v, s)
  else do
    match ← findBefore s.heap v (s.elements + 1) s.head with
    | none => .ok (.val 0, s)
    | some p => do
      let (_, s) ← unlinkAfter s p
      .ok (.val v, s)

/-- hashmap.c:1835-1859, with the semaphore. -/
def removeLastLocked (s : LList) : Res (ListOut × LList) :=
  let nx := if s.next = s.tail then 0 else s.next
  if s.elements = 1 then do
    let c ← ldE s.heap s.head
    let h ← freeE s.heap s.tail
    .ok (.val c.1, { s with heap := h, head := 0, tail := 0, next := nx, elements := s.elements - 1 })
  else do
    let c ← ldE s.heap s.tail
    let p ← findPrev s.heap s.tail (s.elements + 1) s.head
    let h ← freeE s.heap s.tail
    let h ← stNext h p 0
    .ok (.val c.1, { s with heap := h, tail := p, next := nx, elements := s.elements - 1 })

/-- hashmap.c:803-821, with the semaphore. -/
def getLocked (s : LList) (i : Nat) : Res (ListOut × LList) :=
  if i = 0 then do
    let c ← ldE s.heap s.head
    .ok (.val c.1, s)
  else if i = s.elements - 1 then do
    let c ← ldE s.heap s.tail
    .ok (.val c.1, s)
  else do
    let p ← walkE s.heap s.head i
    let c ← ldE s.heap p
    .ok (.val c.1, s)

/-- hashmap.c:455-458, with the semaphore. -/
def lastLocked (s : LList) : Res (ListOut × LList) := do
  let c ← ldE s.heap s.tail
  .ok (.val c.1, s)

/-- The calls from `LockSemaphoreInfo` to `UnlockSemaphoreInfo`. -/
def listLocked (op : ListOp) (s : LList) : Res (ListOut × LList) :=
  match op with
  | .append a v => appendLocked s a v
  | .insertFirst a v => insertFirstLocked s a v
  | .insertLast a v => insertLastLocked s a v
  | .insertSorted compare a v => insertSortedLocked compare s a v
  | .remove i => removeLocked s i
  | .removeValue v => removeValueLocked s v
  | .removeLast => removeLastLocked s
  | .clear => do let s ← clearLinkedList s; .ok (.none, s)
  | .get i => getLocked s i
  | .last => lastLocked s
  | .count => .ok (.num s.elements, s)
  | .isEmpty => .ok (.bool (s.elements == 0), s)
  | .toArray => do let l ← linkedListToArray s; .ok (.vals l, s)
  | .reset => .ok (.none, resetIterator s)
  | .next => do let (v, s) ← getNextValue s; .ok (.val v, s)

/-- The list as a shared object.  An unlocked reader reads `elements` and `capacity` only, and a call changes `elements` once
(lines 172, 227, 1055, 1150, 1636, 1710, 1857), so no reader sees a call half way. -/
def sharedList : Shared LList ListOp Unit ListOut where
  check := listCheck
  enter := fun _ s => .ok (s, ())
  leave := fun op _ s => listLocked op s

end Wizard

import Verif.Model.Basic
/-!
The linked list of wizard/hashmap.c on an explicit heap of elements. Addresses and values are
`void *`, modelled as naturals with 0 for NULL. `AcquireWizardMemory` is a parameter of each
allocating call: the address it returned, 0 if it failed. The theorems only assume that a non-null
address is not in use; freed addresses may come back. Each list has its own heap of elements.
The semaphore is not modelled (a call is atomic); `signature` asserts hold by construction.
`size_t`/`ssize_t` counters are naturals (`elements <= capacity` bounds them; lists of 2^63 or more
elements do not fit in memory).
-/
namespace Wizard

/-- A heap of `ElementInfo` (hashmap.c:57-64): address to (value, next). -/
abbrev LHeap := Nat → Option (Nat × Nat)

/-- hashmap.c:76-92 `struct _LinkedListInfo`, with the heap its elements live in. -/
structure LList where
  heap : LHeap
  capacity : Nat
  elements : Nat
  head : Nat
  tail : Nat
  next : Nat

/-- `*p` of an `ElementInfo`: NULL or a freed address is undefined behaviour. -/
def ldE (h : LHeap) (a : Nat) : Res (Nat × Nat) :=
  match h a with
  | some c => .ok c
  | none => .ub

/-- Write a whole element (fresh or live). -/
def setE (h : LHeap) (a : Nat) (c : Nat × Nat) : LHeap := fun b => if b = a then some c else h b

/-- `p->next=n`. -/
def stNext (h : LHeap) (a n : Nat) : Res LHeap :=
  match h a with
  | some (v, _) => .ok (setE h a (v, n))
  | none => .ub

/-- `RelinquishWizardMemory(p)`: a double free is undefined behaviour. -/
def freeE (h : LHeap) (a : Nat) : Res LHeap :=
  match h a with
  | some _ => .ok (fun b => if b = a then none else h b)
  | none => .ub

/-- The loops `for (i=..; i < index; i++) next=next->next;` taken `n` times. -/
def walkE (h : LHeap) : Nat → Nat → Res Nat
  | a, 0 => .ok a
  | a, n + 1 => do
    let c ← ldE h a
    walkE h c.2 n

/-- hashmap.c:1362-1379 `NewLinkedList`; `~0` is 2^64-1. -/
def newLinkedList (capacity : Nat) : LList :=
  { heap := fun _ => none, capacity := if capacity = 0 then 2 ^ 64 - 1 else capacity
    elements := 0, head := 0, tail := 0, next := 0 }

/-- hashmap.c:149-175 `AppendValueToLinkedList`; `a` is the address of the new element. -/
def appendValue (s : LList) (a v : Nat) : Res (Bool × LList) :=
  if s.elements = s.capacity then .ok (false, s)
  else if a = 0 then .ok (false, s)
  else
    let h := setE s.heap a (v, 0)
    let nx := if s.next = 0 then a else s.next
    if s.elements = 0 then
      .ok (true, { s with heap := h, next := nx, head := a, tail := a, elements := s.elements + 1 })
    else do
      let h ← stNext h s.tail a
      .ok (true, { s with heap := h, next := nx, tail := a, elements := s.elements + 1 })

/-- hashmap.c:215-223 and 409-416: free the chain from `a`; `n` bounds the loop (exhaustion is
reported as `.fatal`). The relinquished values do not affect the list. -/
def freeChain (h : LHeap) : Nat → Nat → Res LHeap
  | _, 0 => .ok h
  | 0, _ + 1 => .fatal
  | n + 1, a + 1 => do
    let c ← ldE h (a + 1)
    let h ← freeE h (a + 1)
    freeChain h n c.2

/-- hashmap.c:203-229 `ClearLinkedList`. -/
def clearLinkedList (s : LList) : Res LList := do
  let h ← freeChain s.heap (s.elements + 1) s.head
  .ok { s with heap := h, head := 0, tail := 0, next := 0, elements := 0 }

/-- hashmap.c:446-459 `GetLastValueInLinkedList`. -/
def getLastValue (s : LList) : Res Nat :=
  if s.elements = 0 then .ok 0
  else do
    let c ← ldE s.heap s.tail
    .ok c.1

/-- hashmap.c:605-622 `GetNextValueInLinkedList`. -/
def getNextValue (s : LList) : Res (Nat × LList) :=
  if s.next = 0 then .ok (0, s)
  else do
    let c ← ldE s.heap s.next
    .ok (c.1, { s with next := c.2 })

/-- hashmap.c:1919-1926 `ResetLinkedListIterator`. -/
def resetIterator (s : LList) : LList := { s with next := s.head }

/-- hashmap.c:787-822 `GetValueFromLinkedList`. -/
def getValue (s : LList) (index : Nat) : Res Nat :=
  if s.elements ≤ index then .ok 0
  else if index = 0 then do
    let c ← ldE s.heap s.head
    .ok c.1
  else if index = s.elements - 1 then do
    let c ← ldE s.heap s.tail
    .ok c.1
  else do
    let p ← walkE s.heap s.head index
    let c ← ldE s.heap p
    .ok c.1

/-- hashmap.c:1042-1048: `element=head; next->next=element->next;` advanced `index-1` times; the
result is (element, next->next). -/
def insertWalk (h : LHeap) : Nat → Nat → Res (Nat × Nat)
  | e, 0 => do
    let c ← ldE h e
    .ok (e, c.2)
  | e, n + 1 => do
    let c ← ldE h e
    insertWalk h c.2 n

/-- hashmap.c:991-1058 `InsertValueInLinkedList`. In the middle case (1039-1053) `next=next->next`
abandons the new element: `next` is from there on the element already at that position. -/
def insertValue (s : LList) (a index v : Nat) : Res (Bool × LList) :=
  if v = 0 then .ok (false, s)
  else if s.elements < index ∨ s.elements = s.capacity then .ok (false, s)
  else if a = 0 then .ok (false, s)
  else
    let h := setE s.heap a (v, 0)
    if s.elements = 0 then
      let nx := if s.next = 0 then a else s.next
      .ok (true, { s with heap := h, next := nx, head := a, tail := a, elements := s.elements + 1 })
    else if index = 0 then do
      let nx := if s.next = s.head then a else s.next
      let h ← stNext h a s.head
      .ok (true, { s with heap := h, next := nx, head := a, elements := s.elements + 1 })
    else if index = s.elements then do
      let nx := if s.next = 0 then a else s.next
      let h ← stNext h s.tail a
      .ok (true, { s with heap := h, next := nx, tail := a, elements := s.elements + 1 })
    else do
      let (e, nn) ← insertWalk h s.head (index - 1)
      let h ← stNext h a nn
      let h ← stNext h e nn
      let c ← ldE h nn
      let nx := if s.next = c.2 then nn else s.next
      .ok (true, { s with heap := h, next := nx, elements := s.elements + 1 })

/-- hashmap.c:1119-1141: the loop of `InsertValueInSortedLinkedList`. `a` is the new element, `e` the
variable `element`, `nn` is `next->next`. Returns (heap, head, elements, element, next->next,
replaced value). -/
def sortedLoop (compare : Nat → Nat → Int) (replace : Bool) (a v : Nat) :
    Nat → LHeap → Nat → Nat → Nat → Nat → Res (LHeap × Nat × Nat × Nat × Nat × Option Nat)
  | 0, _, _, _, _, _ => .fatal
  | f + 1, h, head, elements, e, nn =>
    if nn = 0 then .ok (h, head, elements, e, nn, none)
    else do
      let c ← ldE h nn
      let i := compare v c.1
      if i < 0 ∨ (replace = true ∧ i = 0) then
        if i = 0 then
          if e ≠ 0 then do
            let h ← freeE h nn
            let h ← stNext h e a
            .ok (h, head, elements - 1, e, c.2, some c.1)
          else .ok (h, a, elements - 1, e, c.2, some c.1)
        else if e ≠ 0 then do
          let h ← stNext h e a
          .ok (h, head, elements, e, nn, none)
        else .ok (h, a, elements, e, nn, none)
      else sortedLoop compare replace a v f h head elements nn c.2

/-- hashmap.c:1092-1153 `InsertValueInSortedLinkedList` (with a comparison; `replace` says whether the
third argument is non-null). The value written to `*replace`, if any, is the second component.
While the loop runs the C code keeps `next->next` in the new element; the model writes it once at
the end, which no other access can observe. -/
def insertSorted (compare : Nat → Nat → Int) (replace : Bool) (s : LList) (a v : Nat) :
    Res (Bool × Option Nat × LList) :=
  if v = 0 then .ok (false, none, s)
  else if s.elements = s.capacity then .ok (false, none, s)
  else if a = 0 then .ok (false, none, s)
  else do
    let h := setE s.heap a (v, 0)
    let (h, head, elements, e, nn, rep) ←
      sortedLoop compare replace a v (s.elements + 1) h s.head s.elements 0 s.head
    let h ← stNext h a nn
    if nn = 0 then
      if e ≠ 0 then do
        let h ← stNext h e a
        .ok (true, rep, { s with heap := h, head := head, tail := a, elements := elements + 1 })
      else
        .ok (true, rep, { s with heap := h, head := a, tail := a, elements := elements + 1 })
    else .ok (true, rep, { s with heap := h, head := head, elements := elements + 1 })

/-- hashmap.c:1254-1258: the loop of `LinkedListToArray`. -/
def toArrayLoop (h : LHeap) : Nat → Nat → Res (List Nat)
  | _, 0 => .ok []
  | 0, _ + 1 => .fatal
  | n + 1, a + 1 => do
    let c ← ldE h (a + 1)
    let r ← toArrayLoop h n c.2
    .ok (c.1 :: r)

/-- hashmap.c:1239-1261 `LinkedListToArray` (the values written, in order). -/
def linkedListToArray (s : LList) : Res (List Nat) := toArrayLoop s.heap (s.elements + 1) s.head

/-- hashmap.c:1619-1622: find the element before the first later element with the value. -/
def findBefore (h : LHeap) (v : Nat) : Nat → Nat → Res (Option Nat)
  | 0, _ => .fatal
  | f + 1, p => do
    let c ← ldE h p
    if c.2 = 0 then .ok none
    else do
      let d ← ldE h c.2
      if d.1 = v then .ok (some p) else findBefore h v f c.2

/-- hashmap.c:1628-1634 and 1701-1708: unlink and free the element after `p`; returns its value. -/
def unlinkAfter (s : LList) (p : Nat) : Res (Nat × LList) := do
  let c ← ldE s.heap p
  let element := c.2
  let d ← ldE s.heap element
  let h ← stNext s.heap p d.2
  let tl := if element = s.tail then p else s.tail
  let d ← ldE h element
  let nx := if s.next = element then d.2 else s.next
  let h ← freeE h element
  .ok (d.1, { s with heap := h, tail := tl, next := nx, elements := s.elements - 1 })

/-- hashmap.c:1608-1612 and 1686-1691: unlink and free the first element; returns its value. -/
def unlinkHead (s : LList) : Res (Nat × LList) := do
  let c ← ldE s.heap s.head
  let nx := if s.next = s.head then c.2 else s.next
  let h ← freeE s.heap s.head
  .ok (c.1, { s with heap := h, head := c.2, next := nx, elements := s.elements - 1 })

/-- hashmap.c:1595-1639 `RemoveElementByValueFromLinkedList`. -/
def removeByValue (s : LList) (v : Nat) : Res (Nat × LList) :=
  if s.elements = 0 ∨ v = 0 then .ok (0, s)
  else do
    let c ← ldE s.heap s.head
    if v = c.1 then do
      let (_, s) ← unlinkHead s
      .ok (v, s)
    else do
      match ← findBefore s.heap v (s.elements + 1) s.head with
      | none => .ok (0, s)
      | some p => do
        let (_, s) ← unlinkAfter s p
        .ok (v, s)

/-- hashmap.c:1667-1713 `RemoveElementFromLinkedList`. -/
def removeElement (s : LList) (index : Nat) : Res (Nat × LList) :=
  if s.elements ≤ index then .ok (0, s)
  else if index = 0 then unlinkHead s
  else do
    let p ← walkE s.heap s.head (index - 1)
    unlinkAfter s p

/-- hashmap.c:1851-1852: the element before the tail. -/
def findPrev (h : LHeap) (tail : Nat) : Nat → Nat → Res Nat
  | 0, _ => .fatal
  | f + 1, p => do
    let c ← ldE h p
    if c.2 = tail then .ok p else findPrev h tail f c.2

/-- hashmap.c:1826-1860 `RemoveLastElementFromLinkedList`. -/
def removeLast (s : LList) : Res (Nat × LList) :=
  if s.elements = 0 then .ok (0, s)
  else
    let nx := if s.next = s.tail then 0 else s.next
    if s.elements = 1 then do
      let c ← ldE s.heap s.head
      let h ← freeE s.heap s.tail
      .ok (c.1, { s with heap := h, head := 0, tail := 0, next := nx, elements := s.elements - 1 })
    else do
      let c ← ldE s.heap s.tail
      let p ← findPrev s.heap s.tail (s.elements + 1) s.head
      let h ← freeE s.heap s.tail
      let h ← stNext h p 0
      .ok (c.1, { s with heap := h, tail := p, next := nx, elements := s.elements - 1 })

end Wizard

import Verif.Model.Basic
/-!
The hash map of wizard/hashmap.c. Keys and values are `void *` (naturals, 0 is NULL); the user's hash
and comparison callbacks are functions on keys (the bytes a key points to do not change while it is
stored). A bucket is a linked list, modelled as the sequence with cursor that the C13/C14 theorems
show the list functions implement; the functions used here are reset, next, remove by index, insert
at index 0 and the element counter, none of which reads the tail pointer (which
`IncreaseHashmapCapacity` leaves unset). Allocation is assumed to succeed. Failing
allocations, and what happens to the keys and values (callbacks), are modelled in HashOwn.lean.
-/
namespace Wizard

/-- hashmap.c:66-74 `EntryInfo`. -/
structure Entry where
  hash : Nat
  key : Nat
  value : Nat
  deriving DecidableEq

/-- `++` on a `size_t`. -/
def incSize (n : Nat) : Nat := if n = 2 ^ 64 - 1 then 0 else n + 1

/-- `--` on a `size_t`. -/
def decSize (n : Nat) : Nat := if n = 0 then 2 ^ 64 - 1 else n - 1

/-- A bucket list: its values and the position of its iterator. -/
structure Bucket where
  vals : List Entry
  pos : Nat
  deriving DecidableEq

/-- hashmap.c:94-122 `struct _HashmapInfo` without callbacks; `NULL` buckets are `none`. -/
structure HMap where
  capacity : Nat
  entries : Nat
  next : Nat
  headOfList : Bool
  map : List (Option Bucket)
  deriving DecidableEq

/-- The callbacks; a NULL comparison callback is `none`. Hash values are `size_t`. -/
structure HashOps where
  hash : Nat → Nat
  compare : Option (Nat → Nat → Bool)

/-- hashmap.c:738-747, 1529-1538, 1770-1779: does the entry match the key? -/
def HashOps.matches (o : HashOps) (key : Nat) (h : Nat) (e : Entry) : Bool :=
  if e.hash = h then
    match o.compare with
    | none => true
    | some c => c key e.key
  else false

/-- hashmap.c:1306-1337 `NewHashmap`. -/
def newHashmap (capacity : Nat) : HMap :=
  { capacity := capacity, entries := 0, next := 0, headOfList := false
    map := List.replicate capacity none }

/-- The scan loops (735-755, 1526-1550, 1767-1797): from the `i`-th entry on, find the first match;
returns its index and entry, and the position at which the list iterator is left. -/
def scanBucket (o : HashOps) (key h : Nat) : List Entry → Nat → Option (Nat × Entry) × Nat
  | [], i => (none, i)
  | e :: r, i => if o.matches key h e then (some (i, e), i + 1) else scanBucket o key h r (i + 1)

/-- `RemoveElementFromLinkedList(list,i)` on a bucket (C13). -/
def Bucket.remove (b : Bucket) (i : Nat) : Bucket :=
  if i < b.vals.length then
    ⟨b.vals.eraseIdx i, if i < b.pos then b.pos - 1 else b.pos⟩
  else b

/-- `InsertValueInLinkedList(list,0,entry)` on a bucket (C14). -/
def Bucket.insertFront (b : Bucket) (e : Entry) : Bucket :=
  ⟨e :: b.vals, if b.pos = 0 then 0 else b.pos + 1⟩

/-- `map[h % capacity]`: a capacity of 0 is a division by zero. -/
def bucketAt (m : HMap) (h : Nat) : Res (Nat × Option Bucket) :=
  if m.capacity = 0 then .ub
  else match m.map[h % m.capacity]? with
    | some b => .ok (h % m.capacity, b)
    | none => .ub

/-- hashmap.c:710-759 `GetValueFromHashmap`. -/
def getFromHashmap (o : HashOps) (m : HMap) (key : Nat) : Res (Nat × HMap) :=
  if key = 0 then .ok (0, m)
  else do
    let (i, b) ← bucketAt m (o.hash key)
    match b with
    | none => .ok (0, m)
    | some b =>
      let (r, p) := scanBucket o key (o.hash key) b.vals 0
      .ok ((r.map fun x => x.2.value).getD 0,
        { m with map := m.map.set i (some ⟨b.vals, p⟩) })

/-- hashmap.c:1412-1419: the capacities. -/
def capacities : List Nat :=
  [17, 31, 61, 131, 257, 509, 1021, 2053, 4099, 8191, 16381, 32771, 65537, 131071, 262147, 524287,
   1048573, 2097143, 4194301, 8388617]

/-- hashmap.c:1443-1448: the capacity after the next one that exceeds the current one. -/
def nextCapacity (capacity : Nat) : Option Nat :=
  let i := capacities.findIdx fun c => decide (capacity < c)
  if 19 ≤ i then none else capacities[i + 1]?

/-- hashmap.c:1470-1480: move one entry to its bucket of the new map. -/
def rehashEntry (capacity : Nat) (map : List (Option Bucket)) (e : Entry) : List (Option Bucket) :=
  let i := e.hash % capacity
  match map[i]? with
  | some (some b) => map.set i (some ⟨e :: b.vals, 0⟩)
  | _ => map.set i (some ⟨[e], 0⟩)

/-- The entries of a bucket. -/
def bucketVals : Option Bucket → List Entry
  | none => []
  | some b => b.vals

/-- hashmap.c:1410-1491 `IncreaseHashmapCapacity`. -/
def increaseCapacity (m : HMap) : Bool × HMap :=
  match nextCapacity m.capacity with
  | none => (false, m)
  | some c =>
    (true, { m with
      capacity := c
      map := (m.map.flatMap bucketVals).foldl (rehashEntry c) (List.replicate c none) })

/-- hashmap.c:1518-1551: the bucket with the old entry for the key, if any, removed. -/
def putBucket (o : HashOps) (key h : Nat) : Option Bucket → Bucket
  | none => ⟨[], 0⟩
  | some b =>
    let (r, p) := scanBucket o key h b.vals 0
    match r with
    | none => ⟨b.vals, p⟩
    | some (i, _) => Bucket.remove ⟨b.vals, p⟩ i

/-- hashmap.c:1493-1567 `PutEntryInHashmap`. -/
def putInHashmap (o : HashOps) (m : HMap) (key value : Nat) : Res (Bool × HMap) :=
  if key = 0 ∨ value = 0 then .ok (false, m)
  else do
    let h := o.hash key
    let (i, b) ← bucketAt m h
    let b := (putBucket o key h b).insertFront ⟨h, key, value⟩
    let m := { m with map := m.map.set i (some b) }
    if m.capacity - 1 ≤ b.vals.length then
      let (ok, m) := increaseCapacity m
      if ok = false then .ok (false, m)
      else .ok (true, { m with entries := incSize m.entries })
    else .ok (true, { m with entries := incSize m.entries })

/-- hashmap.c:1739-1801 `RemoveEntryFromHashmap`. -/
def removeFromHashmap (o : HashOps) (m : HMap) (key : Nat) : Res (Nat × HMap) :=
  if key = 0 then .ok (0, m)
  else do
    let h := o.hash key
    let (i, b) ← bucketAt m h
    match b with
    | none => .ok (0, m)
    | some b =>
      let (r, p) := scanBucket o key h b.vals 0
      match r with
      | none => .ok (0, { m with map := m.map.set i (some ⟨b.vals, p⟩) })
      | some (j, e) =>
        .ok (e.value, { m with
          map := m.map.set i (some (Bucket.remove ⟨b.vals, p⟩ j))
          entries := decSize m.entries })

/-- hashmap.c:1885-1893 `ResetHashmapIterator`. -/
def resetHashmap (m : HMap) : HMap := { m with next := 0, headOfList := false }

/-- hashmap.c:497-517 and 558-578: the loop of `GetNextKeyInHashmap` / `GetNextValueInHashmap`; `n` is
the number of buckets left (`capacity - next`). -/
def nextLoop : Nat → HMap → Res (Option Entry × HMap)
  | 0, m => .ok (none, m)
  | n + 1, m =>
    match m.map[m.next]? with
    | none => .ub
    | some none => nextLoop n { m with next := m.next + 1 }
    | some (some b) =>
      let b : Bucket := if m.headOfList = false then ⟨b.vals, 0⟩ else b
      match b.vals[b.pos]? with
      | some e =>
        .ok (some e, { m with
          headOfList := true, map := m.map.set m.next (some ⟨b.vals, b.pos + 1⟩) })
      | none => nextLoop n { m with
          headOfList := false, map := m.map.set m.next (some b), next := m.next + 1 }

/-- The entry `GetNextKeyInHashmap` (hashmap.c:483-520) and `GetNextValueInHashmap` (544-581) return
the key and the value of; `none` is NULL. -/
def getNextEntry (m : HMap) : Res (Option Entry × HMap) := nextLoop (m.capacity - m.next) m

end Wizard

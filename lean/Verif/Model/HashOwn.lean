import Verif.Model.Hashmap
import Verif.Model.LinkedList
import Verif.Model.SplayOwn
/-!
What the hash map and the linked list of wizard/hashmap.c do with the keys and values they are given, also if memory runs out. Simplifications: as in the models of the hash map and of the linked list;
`NewLinkedList` (which ends the program if memory runs out) succeeds.
-/
namespace Wizard

/-- Which allocations of `PutEntryInHashmap` succeed: the entry (1510), the element of the list (in 1552), the larger table (1449). -/
structure Room where
  entry : Bool
  element : Bool
  table : Bool

/-- hashmap.c:1525-1550: the entry with the key, which is replaced. -/
def replacedEntry (o : HashOps) (key h : Nat) : Option Bucket → Option Entry
  | none => none
  | some b => (scanBucket o key h b.vals 0).1.map Prod.snd

/-- hashmap.c:1541-1544: what is replaced is relinquished. -/
def replacedLedger (own : Callbacks) : Option Entry → Ledger
  | none => {}
  | some e => { freedKeys := own.key e.key, freedValues := own.value e.value }

/-- hashmap.c:1410-1491 `IncreaseHashmapCapacity`. -/
def growTable (room : Room) (m : HMap) : Bool × HMap := if room.table then increaseCapacity m else (false, m)

/-- hashmap.c:1493-1567 `PutEntryInHashmap`. -/
def putOwned (own : Callbacks) (o : HashOps) (room : Room) (m : HMap) (key value : Nat) : Res (Bool × Ledger × HMap) :=
  if key = 0 ∨ value = 0 then .ok (false, {}, m)
  else if room.entry = false then .ok (false, {}, m)
  else do
    let h := o.hash key
    let r ← bucketAt m h
    let lg := replacedLedger own (replacedEntry o key h r.2)
    let b := putBucket o key h r.2
    if room.element = false then .ok (false, lg, { m with map := m.map.set r.1 (some b) })
    else
      let b := b.insertFront ⟨h, key, value⟩
      let m := { m with map := m.map.set r.1 (some b) }
      if m.capacity - 1 ≤ b.vals.length then
        if (growTable room m).1 = false then .ok (false, lg, (growTable room m).2)
        else .ok (true, lg, { (growTable room m).2 with entries := incSize (growTable room m).2.entries })
      else .ok (true, lg, { m with entries := incSize m.entries })

/-- hashmap.c:1763-1797: the entry with the key, which is removed. -/
def removedEntry (o : HashOps) (m : HMap) (key : Nat) : Res (Option Entry) :=
  if key = 0 then .ok none
  else do
    let r ← bucketAt m (o.hash key)
    .ok (replacedEntry o key (o.hash key) r.2)

/-- hashmap.c:1739-1801 `RemoveEntryFromHashmap` relinquishes the key and returns the value. -/
def removeEntryOwned (own : Callbacks) (o : HashOps) (m : HMap) (key : Nat) : Res (Ledger × HMap) := do
  let e ← removedEntry o m key
  let r ← removeFromHashmap o m key
  match e with
  | none => .ok ({}, r.2)
  | some e => .ok ({ freedKeys := own.key e.key, givenValues := [r.1] }, r.2)

/-- hashmap.c:348-357: the entries of a list, with its iterator. Fuel exhaustion is `fatal`. -/
def destroyEntries (own : Callbacks) : Nat → Bucket → Res Ledger
  | 0, _ => .fatal
  | n + 1, b =>
    match b.vals[b.pos]? with
    | none => .ok {}
    | some e => do
      let t ← destroyEntries own n ⟨b.vals, b.pos + 1⟩
      .ok (Ledger.append { freedKeys := own.key e.key, freedValues := own.value e.value } t)

/-- hashmap.c:343-361: the buckets from the `i`-th on; `n` is their number. -/
def destroyBuckets (own : Callbacks) (m : HMap) : Nat → Nat → Res Ledger
  | 0, _ => .ok {}
  | n + 1, i =>
    match m.map[i]? with
    | none => .ub
    | some none => destroyBuckets own m n (i + 1)
    | some (some b) => do
      let l ← destroyEntries own (b.vals.length + 1) ⟨b.vals, 0⟩
      let t ← destroyBuckets own m n (i + 1)
      .ok (l.append t)

/-- hashmap.c:329-369 `DestroyHashmap`. -/
def destroyHashmap (own : Callbacks) (m : HMap) : Res Ledger := destroyBuckets own m m.capacity 0

/-- hashmap.c:409-416 and 215-223: the chain from `a` with its values; `n` bounds the loop (exhaustion is `fatal`). -/
def relinquishChain (h : LHeap) : Nat → Nat → Res (LHeap × List Nat)
  | _, 0 => .ok (h, [])
  | 0, _ + 1 => .fatal
  | n + 1, a + 1 => do
    let c ← ldE h (a + 1)
    let h := setE h (a + 1) (0, c.2)
    let d ← ldE h (a + 1)
    let h ← freeE h (a + 1)
    let t ← relinquishChain h n d.2
    .ok (t.1, c.1 :: t.2)

/-- hashmap.c:397-422 `DestroyLinkedList` and 203-229 `ClearLinkedList` with a callback: the memory they leave, and the values they relinquish, in their order. -/
def destroyLinkedList (s : LList) : Res (LHeap × List Nat) := relinquishChain s.heap (s.elements + 1) s.head

end Wizard

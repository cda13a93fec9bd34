import Verif.Model.Memory
/-! What it means to account for resources. -/
namespace Wizard.Spec.Ledger
open Wizard

/-- The calls. -/
inductive ROp where
  | acquire (t : Resource) (size : Nat)
  | release (t : Resource) (size : Nat)
  | setLimit (t : Resource) (limit : Nat)

/-- One call on the library's counters; it returns whether the request was granted (`true` for the other calls). -/
def exec (s : ResourceInfo) : ROp → Res (Bool × ResourceInfo)
  | .acquire t size => acquireResource s t size
  | .release t size => do
    let s ← relinquishResource s t size
    .ok (true, s)
  | .setLimit t limit => .ok (true, setResourceLimit s t limit)

/-- A history of calls: the results and the counters at the end. -/
def run (s : ResourceInfo) : List ROp → Res (List Bool × ResourceInfo)
  | [] => .ok ([], s)
  | op :: ops => do
    let r ← exec s op
    let o ← run r.2 ops
    .ok (r.1 :: o.1, o.2)

/-- The amount of `t` granted in a history, given the results. -/
def granted (t : Resource) : List ROp → List Bool → Nat
  | .acquire t' size :: ops, r :: rs => (if t' = t ∧ r = true then size else 0) + granted t ops rs
  | _ :: ops, _ :: rs => granted t ops rs
  | _, _ => 0

/-- The amount of `t` released in a history. -/
def released (t : Resource) : List ROp → Nat
  | .release t' size :: ops => (if t' = t then size else 0) + released t ops
  | _ :: ops => released t ops
  | [] => 0

/-- The books as they should be kept: unbounded amounts in use and limits (`none`: unlimited). -/
structure Books where
  used : Resource → Nat
  limit : Resource → Option Nat

/-- A request is granted if with it the amount in use stays below the limit. -/
def Books.grants (b : Books) (t : Resource) (size : Nat) : Bool :=
  match b.limit t with
  | none => true
  | some l => decide (b.used t + size < l)

/-- One call on the books. -/
def Books.step (b : Books) : ROp → Bool × Books
  | .acquire t size =>
    if b.grants t size then (true, { b with used := fun x => if x = t then b.used t + size else b.used x }) else (false, b)
  | .release t size => (true, { b with used := fun x => if x = t then b.used t - size else b.used x })
  | .setLimit t l => (true, { b with limit := fun x => if x = t then (if l = resourceInfinity then none else some l) else b.limit x })

/-- A history on the books. -/
def Books.run (b : Books) : List ROp → List Bool × Books
  | [] => ([], b)
  | op :: ops =>
    let r := b.step op
    let o := Books.run r.2 ops
    (r.1 :: o.1, o.2)

/-- The calls of the history are those of a client that does not use the area resource, releases no more than is in use, and keeps
amounts and finite limits below 2^63. -/
def Books.Fits (b : Books) : List ROp → Prop
  | [] => True
  | op :: ops => (match op with
      | .acquire t size => t ≠ .area ∧ b.used t + size < 2 ^ 63
      | .release t size => t ≠ .area ∧ size ≤ b.used t
      | .setLimit _ l => l < 2 ^ 63 ∨ l = resourceInfinity) ∧ Books.Fits (b.step op).2 ops

/-- The books at the start. -/
def Books.initial : Books where
  used := fun _ => 0
  limit := fun t => if t = .disk then none else some (initialResources.limit t)

/-- The request would be granted: nothing wraps, and the amount stays below the limit. -/
structure Granted (s : ResourceInfo) (t : Resource) (length : Nat) : Prop where
  nonneg : 0 ≤ s.used t
  small : s.used t + length < 2 ^ 63
  limit : s.limit t = resourceInfinity ∨ (s.limit t < 2 ^ 63 ∧ s.used t + length < s.limit t)

/-- A request refused by the limit. -/
structure Refused (s : ResourceInfo) (t : Resource) (length : Nat) : Prop where
  nonneg : 0 ≤ s.used t
  small : s.used t + length < 2 ^ 63
  limit : s.limit t < 2 ^ 63 ∧ s.limit t ≤ s.used t + length

/-- The counters of memory, map and disk. -/
def SameBooks (s s' : ResourceInfo) : Prop := ∀ t, t = .memory ∨ t = .map ∨ t = .disk → getResource s' t = getResource s t

end Wizard.Spec.Ledger

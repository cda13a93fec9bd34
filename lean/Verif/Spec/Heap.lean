import Verif.Model.Heap
/-! What clients of the memory pool do. -/
namespace Wizard.Spec.Pool
open Wizard Wizard.Pool

/-- The call returns this, however the walks along the lists go. -/
def Returns {α} (call : Nat → Res α) (x : α) : Prop := ∃ N, ∀ fuel, N ≤ fuel → call fuel = .ok x

/-- The call neither returns nor ends the process in an orderly way: an assertion fails or memory outside is touched. -/
def Crashes {α} (call : Nat → Res α) : Prop := ∃ N, ∀ fuel, N ≤ fuel → call fuel = .ub

/-- What the system grants: aligned memory that it has not granted before. -/
structure Grant (mapped : List (Nat × Nat)) (base len : Nat) : Prop where
  pos : 0 < base
  aligned : base % 16 = 0
  fits : base + len < sizeMax
  apart : ∀ g ∈ mapped, base + len ≤ g.1 ∨ g.1 + g.2 ≤ base

/-- A request that the pool could in principle meet: it leaves room for one more segment in the address space. -/
def Sensible (n : Nat) : Prop := n + 97 + 2097152 < sizeMax

/-- The lengths of segments: the least multiple of 2 MiB with 96 bytes beside the request. -/
def segmentOf (n : Nat) : Nat := (max n 1 + 96 + 2097151) / 2097152 * 2097152

/-- What can have happened: calls with sensible requests, releases and resizes of blocks that are allocated, and writes inside of such blocks.
`live` are the blocks that are allocated, with the sizes that were asked for.  The pool has not yet used up its 1024 segments. -/
inductive Reach : Heap → List (Nat × Nat) → Prop
  | start (mem) : Reach (start mem) []
  | acquire {h live n grant r h'} : Reach h live → Sensible n → h.segments.length < 1024 → (∀ base, grant = some base → Grant h.mapped base (segmentOf n)) →
      Returns (fun fuel => acquire fuel h n grant) (r, h') → Reach h' (if r = 0 then live else (r, n) :: live)
  | relinquish {h live p n h'} : Reach h live → (p, n) ∈ live → Returns (fun fuel => relinquish fuel h p) h' → Reach h' (live.filter (fun b => b.1 ≠ p))
  | resize {h live p m n grant r h'} : Reach h live → (p, m) ∈ live → Sensible n → h.segments.length < 1024 → (∀ base, grant = some base → Grant h.mapped base (segmentOf n)) →
      Returns (fun fuel => resize fuel h p n grant) (r, h') → Reach h' ((r, n) :: live.filter (fun b => b.1 ≠ p))
  | write {h live p n a v} : Reach h live → (p, n) ∈ live → p ≤ a → a < p + n → Reach (poke h a v) live
  | destroy {h live} : Reach h live → Reach (destroy h).2 []

/-- The blocks do not overlap. -/
def Disjoint (live : List (Nat × Nat)) : Prop := live.Pairwise (fun a b => a.1 ≠ b.1 ∧ (a.1 + a.2 ≤ b.1 ∨ b.1 + b.2 ≤ a.1))

/-- The block holds the same bytes. -/
def SameBytes (h h' : Heap) (p n : Nat) : Prop := ∀ i, i < n → h'.mem (p + i) = h.mem (p + i)

end Wizard.Spec.Pool

import Verif.Model.Key
/-! What a store of keys by id does. -/
namespace Wizard.Spec.Key
open Wizard

/-- The calls; the random bytes are those of the padding. -/
inductive KeyOp where
  | store (id key : StringInfo) (random : Nat → Byte)
  | get (id : StringInfo) (random : Nat → Byte)

/-- The keys by id. -/
abbrev Store := List Byte → Option (List Byte)

/-- The intended effect of a call: what it returns (`none` for a store; a get of an id that was never stored is an error). -/
def Store.step (s : Store) : KeyOp → Option (Option (List Byte) × Store)
  | .store id key _ => some (none, fun x => if x = id.bytes then some key.bytes else s x)
  | .get id _ => (s id.bytes).map (fun v => (some v, s))

/-- A history of calls: what they return, up to the first get of an id never stored. -/
def Store.run (s : Store) : List KeyOp → Option (List (Option (List Byte)))
  | [] => some []
  | op :: ops => (s.step op).bind (fun r => (Store.run r.2 ops).map (fun o => r.1 :: o))

/-- The calls on the library's object. -/
def exec (k : KeyInfo) : KeyOp → Res (Option (List Byte) × KeyInfo)
  | .store id key random => do
    let k ← setKeyInfo k random id key
    .ok (none, k)
  | .get id random => do
    let r ← getKeyInfo k random id
    .ok (some r.1.bytes, r.2)

/-- A history of calls on the library's object. -/
def run (k : KeyInfo) : List KeyOp → Res (List (Option (List Byte)))
  | [] => .ok []
  | op :: ops => do
    let r ← exec k op
    let o ← run r.2 ops
    .ok (r.1 :: o)

/-- The store after a history. -/
def Store.after (s : Store) : List KeyOp → Option Store
  | [] => some s
  | op :: ops => (s.step op).bind (fun r => Store.after r.2 ops)

/-- The library's object after a history. -/
def after (k : KeyInfo) : List KeyOp → Res KeyInfo
  | [] => .ok k
  | op :: ops => do
    let r ← exec k op
    after r.2 ops

/-- The bytes the object keeps in memory under an id: what someone reading the memory of the process sees. -/
def inMemory (k : KeyInfo) (id : StringInfo) : Res (List Byte) := do
  let heap := k.heap ++ [id]
  let g ← getFromSplay (some (compareAt heap)) k.map heap.length
  if g.1 = 0 then .fatal else .ok (stringAt heap g.1).bytes

/-- The byte strings of a call are well formed and a copy of them fits the address space. -/
def KeyOp.OK : KeyOp → Prop
  | .store id key _ => id.WF ∧ key.WF ∧ id.length + 128 < 2 ^ 64 ∧ key.length + 128 < 2 ^ 64
  | .get id _ => id.WF ∧ id.length + 128 < 2 ^ 64

/-- The id of a call. -/
def KeyOp.id : KeyOp → List Byte
  | .store id _ _ => id.bytes
  | .get id _ => id.bytes

end Wizard.Spec.Key

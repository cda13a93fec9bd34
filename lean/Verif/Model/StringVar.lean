import Verif.Model.StringOps
import Verif.Model.Xml

/-! String variables: string.c `AcquireString`, `CloneString`, `ConcatenateString` and `DestroyString` over memory in which
`realloc` may move a block or leave it where it is.  Memory suffices. -/
namespace Wizard

/-- The blocks that are allocated, the number of the next one, and the variables (`char *`), which are NULL or point at the
start of a block. -/
structure StrWorld where
  block : Nat → Option (List Byte)
  fresh : Nat
  var : Nat → Option Nat

/-- What a call is given as its source: NULL, a text elsewhere, or a place in the string of a variable. -/
inductive StrSource where
  | null
  | text (s : List Byte)
  | inVar (u k : Nat)
  deriving DecidableEq

/-- The pointer that is passed. -/
inductive StrPtr where
  | null
  | const (s : List Byte)
  | mem (b k : Nat)
  deriving DecidableEq

/-- The pointer of a source. -/
def StrWorld.pointer (w : StrWorld) : StrSource → StrPtr
  | .null => .null
  | .text s => .const s
  | .inVar u k => match w.var u with
    | none => .null
    | some b => .mem b k

/-- `strlen` of a pointer. -/
def StrWorld.strlen (w : StrWorld) : StrPtr → Res Nat
  | .null => .ub
  | .const s => .ok s.length
  | .mem b k => match w.block b with
    | none => .ub
    | some m => strlenMem (m.drop k)

/-- The bytes that `memcpy` reads. -/
def StrWorld.read (w : StrWorld) (n : Nat) : StrPtr → Res (List Byte)
  | .null => .ub
  | .const s => .ok (s.take n)
  | .mem b k => match w.block b with
    | none => .ub
    | some m => rdN m k n

/-- A block is set. -/
def StrWorld.setBlock (w : StrWorld) (b : Nat) (m : Option (List Byte)) : StrWorld :=
  { w with block := fun c => if c = b then m else w.block c }

/-- A variable is set. -/
def StrWorld.setVar (w : StrWorld) (v : Nat) (b : Option Nat) : StrWorld := { w with var := fun u => if u = v then b else w.var u }

/-- A new block. -/
def StrWorld.alloc (w : StrWorld) (m : List Byte) : StrWorld := { w with block := fun c => if c = w.fresh then some m else w.block c, fresh := w.fresh + 1 }

/-- string.c:830-833 `DestroyString` of a variable: the block is given up; NULL is not. -/
def destroyVar (w : StrWorld) (v : Nat) : Res StrWorld :=
  match w.var v with
  | none => .ok w
  | some b => match w.block b with
    | none => .ub
    | some _ => .ok ((w.setBlock b none).setVar v none)

/-- string.c:133-155 `AcquireString`, to a variable. -/
def acquireVar (w : StrWorld) (v : Nat) (p : StrPtr) (junk : Nat → Byte) : Res StrWorld := do
  let n ← (if p = .null then Res.ok 0 else w.strlen p : Res Nat)
  if sizeMax ≤ n + wizardPathExtent then .fatal
  else do
    let m ← wr ((List.range (n + wizardPathExtent)).map junk) 0 0
    let s ← (if p = .null then Res.ok [] else w.read n p : Res (List Byte))
    let m ← wrN m 0 s
    let m ← wr m n 0
    .ok ((w.alloc m).setVar v (some w.fresh))

/-- memory.c:1236-1250 `ResizeQuantumMemory` of a variable's block: it moves, and the old place is given up, or stays. -/
def resizeVar (w : StrWorld) (v b size : Nat) (move : Bool) (junk : Nat → Byte) : Res StrWorld :=
  match w.block b with
  | none => .ub
  | some m =>
    if move then .ok (((w.setBlock b none).alloc (reallocMem m size junk)).setVar v (some w.fresh))
    else .ok (w.setBlock b (some (reallocMem m size junk)))

/-- Do `n` bytes from a pointer and `n` bytes at offset `d` of a block overlap? -/
def overlaps (p : StrPtr) (c d n : Nat) : Bool :=
  match p with
  | .mem b k => b == c && decide (k < d + n) && decide (d < k + n)
  | _ => false

/-- `memcpy` of `n` bytes from a pointer to offset `d` of a variable's block; it is undefined if the bytes overlap. -/
def copyIn (w : StrWorld) (v d n : Nat) (p : StrPtr) : Res StrWorld :=
  match w.var v with
  | none => .ub
  | some c => match w.block c with
    | none => .ub
    | some m =>
      if n = 0 then .ok w
      else do
        let s ← w.read n p
        if overlaps p c d n then .ub
        else do
          let m ← wrN m d s
          .ok (w.setBlock c (some m))

/-- The NUL at the end. -/
def endVar (w : StrWorld) (v n : Nat) : Res StrWorld :=
  match w.var v with
  | none => .ub
  | some c => match w.block c with
    | none => .ub
    | some m => do
      let m ← wr m n 0
      .ok (w.setBlock c (some m))

/-- string.c:280-308 `CloneString`. -/
def cloneVar (w : StrWorld) (v : Nat) (p : StrPtr) (move : Bool) (junk : Nat → Byte) : Res StrWorld :=
  if p = .null then destroyVar w v
  else match w.var v with
    | none => acquireVar w v p junk
    | some b => do
      let n ← w.strlen p
      if sizeMax ≤ n + wizardPathExtent then .fatal
      else do
        let w ← resizeVar w v b (n + wizardPathExtent) move junk
        let w ← copyIn w v 0 n p
        endVar w v n

/-- memory-private.h:53: the loop; ten turns reach 131072. -/
def doubling : Nat → Nat → Nat → Nat
  | 0, extent, _ => extent
  | k + 1, extent, length => if extent < length then doubling k (2 * extent) length else extent

/-- memory-private.h:43-55 `OverAllocateMemory`. -/
def overAllocate (length : Nat) : Nat := if length < 131072 then doubling 10 256 length else length

/-- string.c:417-447 `ConcatenateString`. -/
def appendVar (w : StrWorld) (v : Nat) (p : StrPtr) (move : Bool) (junk : Nat → Byte) : Res StrWorld :=
  match w.var v with
  | none => acquireVar w v p junk
  | some b => do
    let d ← w.strlen (.mem b 0)
    let n ← w.strlen p
    if sizeMax ≤ d + n then .fatal
    else if sizeMax ≤ d + n + wizardPathExtent then .fatal
    else do
      let w ← resizeVar w v b (overAllocate (d + n + wizardPathExtent)) move junk
      let w ← copyIn w v d n p
      endVar w v (d + n)

/-- A call. -/
inductive StrCall where
  | clone (v : Nat) (src : StrSource)
  | append (v : Nat) (src : StrSource)
  | destroy (v : Nat)
  deriving DecidableEq

/-- A call, with what the allocator does in it. -/
def strCall (w : StrWorld) (c : StrCall) (move : Bool) (junk : Nat → Byte) : Res StrWorld :=
  match c with
  | .clone v src => cloneVar w v (w.pointer src) move junk
  | .append v src => appendVar w v (w.pointer src) move junk
  | .destroy v => destroyVar w v

/-- Calls one after the other. -/
def strCalls : StrWorld → List (StrCall × Bool × (Nat → Byte)) → Res StrWorld
  | w, [] => .ok w
  | w, c :: cs => do
    let w ← strCall w c.1 c.2.1 c.2.2
    strCalls w cs

/-- No blocks, all variables NULL. -/
def StrWorld.empty : StrWorld := ⟨fun _ => none, 0, fun _ => none⟩

end Wizard

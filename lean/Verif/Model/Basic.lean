/-!
Shared vocabulary of the model: bytes, C strings, memory blocks and outcomes.
-/
namespace Wizard

/-- An `unsigned char`. -/
abbrev Byte := BitVec 8

/-- The byte of an ASCII character literal in the C source. -/
def asc (c : Char) : Byte := BitVec.ofNat 8 c.toNat

/-- Outcome of a C function: a value, undefined behaviour (an access outside the object it
belongs to, a NULL dereference, a failed `assert`), or the library's fatal error exit
(`ThrowFatalException` / `ThrowWizardFatalError`, exception-private.h). -/
inductive Res (α : Type) where
  | ok : α → Res α
  | ub : Res α
  | fatal : Res α
  deriving Repr, DecidableEq

namespace Res

/-- Sequencing: the first abnormal outcome wins. -/
def bind {α β : Type} : Res α → (α → Res β) → Res β
  | ok a, f => f a
  | ub, _ => ub
  | fatal, _ => fatal

instance : Monad Res where
  pure := Res.ok
  bind := Res.bind

@[simp] theorem ok_bind {α β : Type} (a : α) (f : α → Res β) : (Res.ok a >>= f) = f a := rfl
@[simp] theorem ub_bind {α β : Type} (f : α → Res β) : ((Res.ub : Res α) >>= f) = Res.ub := rfl
@[simp] theorem fatal_bind {α β : Type} (f : α → Res β) :
    ((Res.fatal : Res α) >>= f) = Res.fatal := rfl
@[simp] theorem pure_eq {α : Type} (a : α) : (pure a : Res α) = Res.ok a := rfl

end Res

/-- 2^64: `size_t` values are below it (LP64 target). -/
@[irreducible] def sizeMax : Nat := 2 ^ 64

/-- Read one byte of a memory block; outside the block is undefined behaviour. -/
def rd (mem : List Byte) (i : Nat) : Res Byte :=
  match mem[i]? with
  | some b => .ok b
  | none => .ub

/-- Write one byte of a memory block; outside the block is undefined behaviour. -/
def wr (mem : List Byte) (i : Nat) (b : Byte) : Res (List Byte) :=
  if i < mem.length then .ok (mem.set i b) else .ub

/-- Read `n` bytes at offset `off` (source side of `memcpy`, `memcmp`, ...). -/
def rdN (mem : List Byte) (off n : Nat) : Res (List Byte) :=
  if off + n ≤ mem.length then .ok ((mem.drop off).take n) else .ub

/-- Write `src` at offset `off` (destination side of `memcpy`, `memmove`, `memset`). -/
def wrN (mem : List Byte) (off : Nat) (src : List Byte) : Res (List Byte) :=
  if off + src.length ≤ mem.length then
    .ok (mem.take off ++ src ++ mem.drop (off + src.length))
  else .ub

/-- `realloc`: the common prefix is kept, new bytes are uninitialised (`junk`). -/
def reallocMem (mem : List Byte) (n : Nat) (junk : Nat → Byte) : List Byte :=
  mem.take n ++ (List.range (n - mem.length)).map junk

@[simp] theorem reallocMem_length (mem : List Byte) (n : Nat) (junk : Nat → Byte) :
    (reallocMem mem n junk).length = n := by
  simp [reallocMem]; omega

end Wizard

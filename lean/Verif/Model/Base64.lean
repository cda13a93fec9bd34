import Verif.Model.Basic
import Verif.Model.StringOps
/-! Model of `Base64Decode` and `Base64Encode` (wizard/utility.c). -/
namespace Wizard

/-- utility.c:59 `Base64[]`. -/
def base64Table : List Byte :=
  "ABCDEFGHIJKLMNOPQRSTUVWXYZabcdefghijklmnopqrstuvwxyz0123456789+/".toList.map asc

/-- utility.c:167 `q=strchr(Base64,*p)`: the offset `q-Base64` (0..63), if any. The value fits a byte,
and every later use of it is truncated to `unsigned char`. -/
def b64Index (c : Byte) : Option Byte := (base64Table.findIdx? (· == c)).map (BitVec.ofNat 8)

/-- The loop variables of `Base64Decode`: output memory, `i` and `state`. -/
structure B64State where
  decode : List Byte
  i : Nat
  state : Nat

/-- utility.c:173-201: the `switch (state)` for the character of value `v`. -/
def b64Step (s : B64State) (v : Byte) : Res B64State :=
  match s.state with
  | 0 => do
    let d ← wr s.decode s.i (v <<< 2)
    pure ⟨d, s.i, 1⟩
  | 1 => do
    let x ← rd s.decode s.i
    let d ← wr s.decode s.i (x ||| (v >>> 4))
    let d ← wr d (s.i + 1) ((v &&& 0x0f) <<< 4)
    pure ⟨d, s.i + 1, 2⟩
  | 2 => do
    let x ← rd s.decode s.i
    let d ← wr s.decode s.i (x ||| (v >>> 2))
    let d ← wr d (s.i + 1) ((v &&& 0x03) <<< 6)
    pure ⟨d, s.i + 1, 3⟩
  | _ => do
    let x ← rd s.decode s.i
    let d ← wr s.decode s.i (x ||| v)
    pure ⟨d, s.i + 1, 0⟩

/-- utility.c:161-202: the main loop over the characters before the NUL. `none`: a character outside
the alphabet; otherwise the characters from the one that ended the loop (`=`, or none at the NUL). -/
def b64Loop : List Byte → B64State → Res (Option (List Byte × B64State))
  | [], s => .ok (some ([], s))
  | c :: r, s =>
    if isSpace c then b64Loop r s
    else if c = asc '=' then .ok (some (c :: r, s))
    else
      match b64Index c with
      | none => .ok none
      | some v => do
        let s ← b64Step s v
        b64Loop r s

/-- utility.c:242-253: only white space may follow, and the pending byte must be zero. -/
def b64Tail (r : List Byte) (s : B64State) : Res (Option (List Byte)) :=
  if r.all isSpace then do
    let x ← rd s.decode s.i
    if x ≠ 0 then pure none
    else do
      let out ← rdN s.decode 0 s.i
      pure (some out)
  else .ok none

/-- utility.c:136-260 `Base64Decode` on the text `s` (the bytes before the NUL). `junk` is the content
of the fresh allocation of `3*((strlen+3)/4)` bytes; an empty text asks for 0 quanta, for which
`AcquireQuantumMemory` returns NULL. The returned buffer is represented by its first `*length`
bytes. -/
def base64Decode (junk : Nat → Byte) (s : List Byte) : Res (Option (List Byte)) :=
  if s.length = 0 then .ok none
  else do
    let mem := (List.range ((s.length + 3) / 4 * 3)).map junk
    match ← b64Loop s ⟨mem, 0, 0⟩ with
    | none => pure none
    | some ([], st) =>
      if st.state ≠ 0 then pure none
      else do
        let out ← rdN st.decode 0 st.i
        pure (some out)
    | some (_ :: r, st) =>
      match st.state with
      | 0 => pure none
      | 1 => pure none
      | 2 =>
        match r.dropWhile isSpace with
        | [] => pure none
        | c :: r => if c ≠ asc '=' then pure none else b64Tail r st
      | _ => b64Tail r st

/-- `Base64[k]`. -/
def b64Char (k : Nat) : Res Byte := rd base64Table k

/-- utility.c:318-346: the characters stored in `encode[0..i)`. The index expressions are `int`
arithmetic on promoted bytes, i.e. exact. (For a 1-byte blob the loop test forms the pointer
`blob-1`, which is outside the object; the comparison is taken to be false as on every target.) -/
def b64EncodeChars : List Byte → Res (List Byte)
  | [] => .ok []
  | [x] => do
    let c0 ← b64Char (x.toNat / 4)
    let c1 ← b64Char (x.toNat % 4 * 16 + 0 / 16)
    pure [c0, c1, asc '=', asc '=']
  | [x, y] => do
    let c0 ← b64Char (x.toNat / 4)
    let c1 ← b64Char (x.toNat % 4 * 16 + y.toNat / 16)
    let c2 ← b64Char (y.toNat % 16 * 4 + 0 / 64)
    pure [c0, c1, c2, asc '=']
  | x :: y :: z :: r => do
    let c0 ← b64Char (x.toNat / 4)
    let c1 ← b64Char (x.toNat % 4 * 16 + y.toNat / 16)
    let c2 ← b64Char (y.toNat % 16 * 4 + z.toNat / 64)
    let c3 ← b64Char (z.toNat % 64)
    let r ← b64EncodeChars r
    pure (c0 :: c1 :: c2 :: c3 :: r)

/-- utility.c:292-351 `Base64Encode`: the text before the NUL. All stores are at consecutive offsets,
so they are inside the `quantum=4*n/3+4` bytes allocated iff text and NUL fit (`4*n` is taken not to
wrap). An empty blob fails the `assert`. -/
def base64Encode (blob : List Byte) : Res (List Byte) :=
  if blob.length = 0 then .ub
  else do
    let out ← b64EncodeChars blob
    if out.length + 1 ≤ 4 * blob.length / 3 + 4 then pure out else .ub

end Wizard

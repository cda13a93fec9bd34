import Verif.Model.Basic
/-! C-string operations of string.c. A string in memory is its bytes followed by a NUL. -/
namespace Wizard

/-! ### CopyWizardString -/

/-- string.c:778-781 (and each repetition, 798-801): `*q=(*p++); if (*q == '\0') return; q++;`.
`i` is the common offset of `p` and `q`. `inl` is the return, with value `p-source-1 = i`. -/
def copyStep (src buf : List Byte) (i : Nat) : Res (Sum (List Byte × Nat) (List Byte × Nat)) := do
  let c ← rd src i
  let buf ← wr buf i c
  if c = 0 then pure (.inl (buf, i)) else pure (.inr (buf, i + 1))

/-- `k` consecutive copy steps. -/
def copySteps (src : List Byte) : Nat → List Byte → Nat →
    Res (Sum (List Byte × Nat) (List Byte × Nat))
  | 0, buf, i => .ok (.inr (buf, i))
  | k + 1, buf, i => do
    match ← copyStep src buf i with
    | .inl r => pure (.inl r)
    | .inr (buf, i) => copySteps src k buf i

/-- string.c:776-794: the loop unrolled by four, `for (n=length; n > 4; n-=4)`. On fall-through the
remaining `n` is returned as well. -/
def copyLoop4 (src : List Byte) (n : Nat) (buf : List Byte) (i : Nat) :
    Res (Sum (List Byte × Nat) ((List Byte × Nat) × Nat)) :=
  if n > 4 then do
    match ← copySteps src 4 buf i with
    | .inl r => pure (.inl r)
    | .inr (buf, i) => copyLoop4 src (n - 4) buf i
  else .ok (.inr ((buf, i), n))
termination_by n

/-- string.c:762-806 `CopyWizardString`: the new destination buffer and the return value. -/
def copyWizardString (dst src : List Byte) (length : Nat) : Res (List Byte × Nat) := do
  match ← copyLoop4 src length dst 0 with
  | .inl r => pure r
  | .inr ((buf, i), n) =>
    match ← (if n ≠ 0 then copySteps src (n - 1) buf i else .ok (.inr (buf, i))) with
    | .inl r => pure r
    | .inr (buf, i) => do
      let buf ← if length ≠ 0 then wr buf i 0 else .ok buf
      pure (buf, (i + sizeMax - 1) % sizeMax)

/-! ### ConcatenateWizardString (the code used when the C library has no `strlcat`) -/

/-- string.c:499-502: skip at most `i` non-NUL bytes; the result is `q-destination`. -/
def catFindEnd (dst : List Byte) : Nat → Nat → Res Nat
  | 0, q => .ok q
  | i + 1, q => do
    let c ← rd dst q
    if c ≠ 0 then catFindEnd dst i (q + 1) else pure q

/-- string.c:506-515: copy while `i != 1`, count the whole source. `p` is the rest of the source
memory. Returns the buffer, `q` and the number of source bytes passed. -/
def catCopy : List Byte → List Byte → Nat → Nat → Nat → Res (List Byte × Nat × Nat)
  | [], _, _, _, _ => .ub
  | c :: p, buf, q, i, n =>
    if c = 0 then .ok (buf, q, n)
    else if i ≠ 1 then do
      let buf ← wr buf q c
      catCopy p buf (q + 1) (i - 1) (n + 1)
    else catCopy p buf q i (n + 1)

/-- `strlen` on string memory. -/
def strlenMem : List Byte → Res Nat
  | [] => .ub
  | c :: p => if c = 0 then .ok 0 else do
    let n ← strlenMem p
    pure (n + 1)

/-- string.c:478-520 `ConcatenateWizardString`. -/
def concatenateWizardString (dst src : List Byte) (length : Nat) : Res (List Byte × Nat) :=
  if length < 1 then .ub   -- line 496: assert
  else do
    let count ← catFindEnd dst length 0
    let i := length - count
    if i = 0 then do
      let n ← strlenMem src
      pure (dst, count + n)
    else do
      let (buf, q, n) ← catCopy src dst count i 0
      let buf ← wr buf q 0
      pure (buf, count + n)

/-! ### Case-insensitive comparison -/

/-- string.c:79-104 `AsciiMap`. -/
def asciiMapTable : List Byte :=
  [
   0x00, 0x01, 0x02, 0x03, 0x04, 0x05, 0x06, 0x07, 0x08, 0x09, 0x0a, 0x0b, 0x0c, 0x0d, 0x0e, 0x0f,
   0x10, 0x11, 0x12, 0x13, 0x14, 0x15, 0x16, 0x17, 0x18, 0x19, 0x1a, 0x1b, 0x1c, 0x1d, 0x1e, 0x1f,
   0x20, 0x21, 0x22, 0x23, 0x24, 0x25, 0x26, 0x27, 0x28, 0x29, 0x2a, 0x2b, 0x2c, 0x2d, 0x2e, 0x2f,
   0x30, 0x31, 0x32, 0x33, 0x34, 0x35, 0x36, 0x37, 0x38, 0x39, 0x3a, 0x3b, 0x3c, 0x3d, 0x3e, 0x3f,
   0x40, 0x61, 0x62, 0x63, 0x64, 0x65, 0x66, 0x67, 0x68, 0x69, 0x6a, 0x6b, 0x6c, 0x6d, 0x6e, 0x6f,
   0x70, 0x71, 0x72, 0x73, 0x74, 0x75, 0x76, 0x77, 0x78, 0x79, 0x7a, 0x5b, 0x5c, 0x5d, 0x5e, 0x5f,
   0x60, 0x61, 0x62, 0x63, 0x64, 0x65, 0x66, 0x67, 0x68, 0x69, 0x6a, 0x6b, 0x6c, 0x6d, 0x6e, 0x6f,
   0x70, 0x71, 0x72, 0x73, 0x74, 0x75, 0x76, 0x77, 0x78, 0x79, 0x7a, 0x7b, 0x7c, 0x7d, 0x7e, 0x7f,
   0x80, 0x81, 0x82, 0x83, 0x84, 0x85, 0x86, 0x87, 0x88, 0x89, 0x8a, 0x8b, 0x8c, 0x8d, 0x8e, 0x8f,
   0x90, 0x91, 0x92, 0x93, 0x94, 0x95, 0x96, 0x97, 0x98, 0x99, 0x9a, 0x9b, 0x9c, 0x9d, 0x9e, 0x9f,
   0xa0, 0xa1, 0xa2, 0xa3, 0xa4, 0xa5, 0xa6, 0xa7, 0xa8, 0xa9, 0xaa, 0xab, 0xac, 0xad, 0xae, 0xaf,
   0xb0, 0xb1, 0xb2, 0xb3, 0xb4, 0xb5, 0xb6, 0xb7, 0xb8, 0xb9, 0xba, 0xbb, 0xbc, 0xbd, 0xbe, 0xbf,
   0xc0, 0xe1, 0xe2, 0xe3, 0xe4, 0xc5, 0xe6, 0xe7, 0xe8, 0xe9, 0xea, 0xeb, 0xec, 0xed, 0xee, 0xef,
   0xf0, 0xf1, 0xf2, 0xf3, 0xf4, 0xf5, 0xf6, 0xf7, 0xf8, 0xf9, 0xfa, 0xdb, 0xdc, 0xdd, 0xde, 0xdf,
   0xe0, 0xe1, 0xe2, 0xe3, 0xe4, 0xe5, 0xe6, 0xe7, 0xe8, 0xe9, 0xea, 0xeb, 0xec, 0xed, 0xee, 0xef,
   0xf0, 0xf1, 0xf2, 0xf3, 0xf4, 0xf5, 0xf6, 0xf7, 0xf8, 0xf9, 0xfa, 0xfb, 0xfc, 0xfd, 0xfe, 0xff]

/-- `AsciiMap[c]` (the table has 256 entries, so the default is never used). -/
def asciiMap (c : Byte) : Byte := asciiMapTable.getD c.toNat 0

/-- What `strcasecmp` folds in the "C" locale. -/
def cLocaleLower (c : Byte) : Byte := if asc 'A' ≤ c ∧ c ≤ asc 'Z' then c + 0x20 else c

/-- string.c:1526-1535, over the bytes before the NUL. The folding is a parameter: `asciiMap` for the
code in the repository, `cLocaleLower` for the build that calls `strcasecmp` (line 1519). If a
non-NUL byte folds like NUL the loop would run past the end of the other string. -/
def localeCompareLoop (fold : Byte → Byte) : List Byte → List Byte → Res Int
  | [], [] => .ok (((fold 0).toNat : Int) - (fold 0).toNat)
  | [], d :: _ => .ok (((fold 0).toNat : Int) - (fold d).toNat)
  | c :: _, [] =>
    if c = 0 ∨ fold c ≠ fold 0 then .ok (((fold c).toNat : Int) - (fold 0).toNat) else .ub
  | c :: p, d :: q =>
    if c = 0 ∨ fold c ≠ fold d then .ok (((fold c).toNat : Int) - (fold d).toNat)
    else localeCompareLoop fold p q

/-- string.c:1510-1538 `LocaleCompare`; `none` is the NULL pointer. -/
def localeCompare (fold : Byte → Byte) : Option (List Byte) → Option (List Byte) → Res Int
  | none, none => .ok 0
  | none, some _ => .ok (-1)
  | some _, none => .ok 1
  | some p, some q => localeCompareLoop fold p q

/-- string.c:1627-1638. -/
def localeNCompareLoop (fold : Byte → Byte) : Nat → List Byte → List Byte → Res Int
  | 0, _, _ => .ok 0
  | _ + 1, [], [] => .ok 0
  | _ + 1, [], d :: _ =>
    if fold 0 ≠ fold d then .ok (((fold 0).toNat : Int) - (fold d).toNat) else .ok 0
  | _ + 1, c :: _, [] =>
    if fold c ≠ fold 0 then .ok (((fold c).toNat : Int) - (fold 0).toNat)
    else if c = 0 then .ok 0 else .ub
  | i + 1, c :: p, d :: q =>
    if fold c ≠ fold d then .ok (((fold c).toNat : Int) - (fold d).toNat)
    else if c = 0 then .ok 0 else localeNCompareLoop fold i p q

/-- string.c:1608-1641 `LocaleNCompare`. -/
def localeNCompare (fold : Byte → Byte) :
    Option (List Byte) → Option (List Byte) → Nat → Res Int
  | none, none, _ => .ok 0
  | none, some _, _ => .ok (-1)
  | some _, none, _ => .ok 1
  | some p, some q, n => localeNCompareLoop fold n p q

/-! ### SubstituteString -/

/-- `strchr(s+p,c)` for a non-NUL `c`, as an offset into `s` (bytes before the NUL). -/
def strchrFrom (s : List Byte) (p : Nat) (c : Byte) : Option Nat :=
  ((s.drop p).findIdx? (· == c)).map (· + p)

/-- string.c:2315-2349: the loop of `SubstituteString` on the bytes before the NUL, entered with the
result `p` of the latest `strchr`. The C loop is unbounded, so the model takes fuel; `none` means
that the fuel ran out. Buffer growth (2327-2340) is `realloc` and does not change the text; the
moves (2344-2347) replace `search_extent` bytes at `p` by the replacement. With an empty search
string `*search` is the NUL, which `strchr` finds at the end of the string. -/
def substituteLoop (search replace : List Byte) :
    Nat → List Byte → Option Nat → Bool → Option (List Byte × Bool)
  | _, s, none, st => some (s, st)
  | 0, _, some _, _ => none
  | f + 1, s, some p, st =>
    if search.isPrefixOf (s.drop p) then
      let s' := s.take p ++ replace ++ s.drop (p + search.length)
      substituteLoop search replace f s' (substituteNext search s' (p + replace.length)) true
    else substituteLoop search replace f s (substituteNext search s (p + 1)) st
where
  /-- `strchr(p,*search)`. -/
  substituteNext (search s : List Byte) (p : Nat) : Option Nat :=
    match search with
    | c :: _ => strchrFrom s p c
    | [] => if p ≤ s.length then some s.length else none

/-- string.c:2295-2351 `SubstituteString`: the new text and the returned status. -/
def substituteString (fuel : Nat) (s search replace : List Byte) : Option (List Byte × Bool) :=
  substituteLoop search replace fuel s (substituteLoop.substituteNext search s 0) false

/-! ### StripString -/

/-- `isspace` in the "C" locale. -/
def isSpace (c : Byte) : Bool := c == 0x20 || (0x09 ≤ c && c ≤ 0x0d)

/-- string.c:2249 and 2255. -/
def isQuote (c : Byte) : Bool := c == asc '\'' || c == asc '"'

/-- string.c:2247-2248: `while (isspace(*p)) p++`. -/
def stripFwd (m : List Byte) : Nat → Nat → Res Nat
  | 0, p => .ok p
  | f + 1, p => do
    let c ← rd m p
    if isSpace c then stripFwd m f (p + 1) else pure p

/-- string.c:2252-2253: `while (isspace(*q) && (q > p)) q--`. -/
def stripBwd (m : List Byte) (p : Nat) : Nat → Res Nat
  | 0 => do
    let _ ← rd m 0
    pure 0
  | q + 1 => do
    let c ← rd m (q + 1)
    if isSpace c ∧ q + 1 > p then stripBwd m p q else pure (q + 1)

/-- string.c:2258-2260: a line feed becomes a blank. -/
def nlToSpace (c : Byte) : Byte := if c = asc '\n' then asc ' ' else c

/-- string.c:2233-2262 `StripString` on the memory `m` of the string (bytes, NUL, and whatever
follows): returns the new memory. `q - p + 1` is never negative because `p ≤ q + 1`. -/
def stripString (m : List Byte) : Res (List Byte) := do
  let c ← rd m 0
  if c = 0 then pure m
  else do
    let length ← strlenMem m
    let p ← stripFwd m m.length 0
    let c ← rd m p
    let p := if isQuote c then p + 1 else p
    let q ← stripBwd m p (length - 1)
    let q ← if q > p then do
        let c ← rd m q
        pure (if isQuote c then q - 1 else q)
      else pure q
    let n := q + 1 - p
    let body ← rdN m p n
    let m ← wrN m 0 body
    let m ← wr m n 0
    wrN m 0 (body.map nlToSpace)

end Wizard

import Verif.Model.AESTables
/-! The ChaCha cipher of wizard/chacha.c. A block is a list of 64 bytes. -/
namespace Wizard

/-- chacha.c:52 `key[16]`: the sixteen words of the state. -/
structure ChachaInfo where
  (x0 : Word)
  (x1 : Word)
  (x2 : Word)
  (x3 : Word)
  (x4 : Word)
  (x5 : Word)
  (x6 : Word)
  (x7 : Word)
  (x8 : Word)
  (x9 : Word)
  (x10 : Word)
  (x11 : Word)
  (x12 : Word)
  (x13 : Word)
  (x14 : Word)
  (x15 : Word)
  deriving DecidableEq, Repr

/-- chacha.c:71-75 `PushChachaWord(p + k)`. -/
def pushChachaWord (p : List Byte) (k : Nat) : Word :=
  (p.getD k 0).setWidth 32 ||| ((p.getD (k + 1) 0).setWidth 32 <<< 8) |||
  ((p.getD (k + 2) 0).setWidth 32 <<< 16) ||| ((p.getD (k + 3) 0).setWidth 32 <<< 24)

/-- chacha.c:216-222 `PopChachaWord`: the four bytes written. -/
def popChachaWord (v : Word) : List Byte :=
  [((v >>> 0) &&& 0xff).setWidth 8, ((v >>> 8) &&& 0xff).setWidth 8,
   ((v >>> 16) &&& 0xff).setWidth 8, ((v >>> 24) &&& 0xff).setWidth 8]

/-- chacha.c:214-215 `ChachaRotate`. -/
def chachaRotate (v : Word) (n : Nat) : Word := (v <<< n) ||| (v >>> (32 - n))

/-- chacha.c:207-213 `ChachaQuarterRound`; the words after it, in argument order. -/
def chachaQuarterRound (a b c d : Word) : Word × Word × Word × Word :=
  let a := a + b
  let d := chachaRotate (d ^^^ a) 16
  let c := c + d
  let b := chachaRotate (b ^^^ c) 12
  let a := a + b
  let d := chachaRotate (d ^^^ a) 8
  let c := c + d
  let b := chachaRotate (b ^^^ c) 7
  (a, b, c, d)

/-- chacha.c:266-273: the body of the round loop. -/
def chachaDoubleRound : ChachaInfo → ChachaInfo
  | ⟨x0, x1, x2, x3, x4, x5, x6, x7,
     x8, x9, x10, x11, x12, x13, x14, x15⟩ =>
    let (x0, x4, x8, x12) := chachaQuarterRound x0 x4 x8 x12
    let (x1, x5, x9, x13) := chachaQuarterRound x1 x5 x9 x13
    let (x2, x6, x10, x14) := chachaQuarterRound x2 x6 x10 x14
    let (x3, x7, x11, x15) := chachaQuarterRound x3 x7 x11 x15
    let (x0, x5, x10, x15) := chachaQuarterRound x0 x5 x10 x15
    let (x1, x6, x11, x12) := chachaQuarterRound x1 x6 x11 x12
    let (x2, x7, x8, x13) := chachaQuarterRound x2 x7 x8 x13
    let (x3, x4, x9, x14) := chachaQuarterRound x3 x4 x9 x14
    ⟨x0, x1, x2, x3, x4, x5, x6, x7, x8, x9, x10, x11, x12, x13, x14, x15⟩

/-- chacha.c:264-274: `n` turns of the round loop. -/
def chachaRounds : Nat → ChachaInfo → ChachaInfo
  | 0, x => x
  | n + 1, x => chachaRounds n (chachaDoubleRound x)

/-- chacha.c:203-328 `EncipherChachaBlock`: the 64 bytes written to `ciphertext`. All reads of
`plaintext` (291-306) precede the writes (307-322), so the call works in place. -/
def encipherChachaBlock (k : ChachaInfo) (p : List Byte) : List Byte :=
  let x := chachaRounds 10 k
  popChachaWord ((x.x0 + k.x0) ^^^ pushChachaWord p 0) ++
  popChachaWord ((x.x1 + k.x1) ^^^ pushChachaWord p 4) ++
  popChachaWord ((x.x2 + k.x2) ^^^ pushChachaWord p 8) ++
  popChachaWord ((x.x3 + k.x3) ^^^ pushChachaWord p 12) ++
  popChachaWord ((x.x4 + k.x4) ^^^ pushChachaWord p 16) ++
  popChachaWord ((x.x5 + k.x5) ^^^ pushChachaWord p 20) ++
  popChachaWord ((x.x6 + k.x6) ^^^ pushChachaWord p 24) ++
  popChachaWord ((x.x7 + k.x7) ^^^ pushChachaWord p 28) ++
  popChachaWord ((x.x8 + k.x8) ^^^ pushChachaWord p 32) ++
  popChachaWord ((x.x9 + k.x9) ^^^ pushChachaWord p 36) ++
  popChachaWord ((x.x10 + k.x10) ^^^ pushChachaWord p 40) ++
  popChachaWord ((x.x11 + k.x11) ^^^ pushChachaWord p 44) ++
  popChachaWord ((x.x12 + k.x12) ^^^ pushChachaWord p 48) ++
  popChachaWord ((x.x13 + k.x13) ^^^ pushChachaWord p 52) ++
  popChachaWord ((x.x14 + k.x14) ^^^ pushChachaWord p 56) ++
  popChachaWord ((x.x15 + k.x15) ^^^ pushChachaWord p 60)

/-- chacha.c:138-142 `DecipherChachaBlock`. -/
def decipherChachaBlock (k : ChachaInfo) (p : List Byte) : List Byte := encipherChachaBlock k p

/-- chacha.c:95-108 `AcquireChachaInfo`: all words zero. -/
def acquireChachaInfo : ChachaInfo := ⟨0, 0, 0, 0, 0, 0, 0, 0, 0, 0, 0, 0, 0, 0, 0, 0⟩

/-- chacha.c:391-393: "expand 32-byte k" and "expand 16-byte k". -/
def chachaSigma : List Byte := "expand 32-byte k".toList.map asc
def chachaTau : List Byte := "expand 16-byte k".toList.map asc

/-- chacha.c:386-437 `SetChachaKey` on a key whose bytes are `key`. -/
def setChachaKey (k : ChachaInfo) (key : List Byte) : ChachaInfo :=
  let n := key.length
  let x4 := if n ≥ 4 then pushChachaWord key 0 else k.x4
  let x5 := if n ≥ 8 then pushChachaWord key 4 else k.x5
  let x6 := if n ≥ 12 then pushChachaWord key 8 else k.x6
  let x7 := if n ≥ 16 then pushChachaWord key 12 else k.x7
  let (datum, constants) := if 8 * n = 256 then (key.drop 16, chachaSigma) else (key, chachaTau)
  let x8 := if n ≥ 4 then pushChachaWord datum 0 else k.x8
  let x9 := if n ≥ 8 then pushChachaWord datum 4 else k.x9
  let x10 := if n ≥ 12 then pushChachaWord datum 8 else k.x10
  let x11 := if n ≥ 16 then pushChachaWord datum 12 else k.x11
  ⟨pushChachaWord constants 0, pushChachaWord constants 4, pushChachaWord constants 8,
   pushChachaWord constants 12, x4, x5, x6, x7, x8, x9, x10, x11, 0, 0, 0, 0⟩

/-- chacha.c:468-477 `SetChachaNonce`; a NULL counter is `none`. -/
def setChachaNonce (k : ChachaInfo) (nonce : List Byte) (counter : Option (List Byte)) : ChachaInfo :=
  { k with
    x12 := match counter with | none => 0 | some c => pushChachaWord c 0
    x13 := match counter with | none => 0 | some c => pushChachaWord c 4
    x14 := pushChachaWord nonce 0
    x15 := pushChachaWord nonce 4 }

end Wizard

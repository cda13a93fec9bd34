import Verif.Model.AESTables
/-! ChaCha20 as published (D. J. Bernstein, "ChaCha, a variant of Salsa20", 2008), on a 4x4 matrix of
32-bit words numbered 0..15 row by row. -/
namespace Wizard.Spec.Chacha

abbrev State := Fin 16 → Word

/-- Assignment to one word. -/
def put (x : State) (i : Fin 16) (v : Word) : State := fun j => if j = i then v else x j

/-- `a += b; d ^= a; d <<<= r` on the words numbered `a`, `b`, `d`. -/
def line (a b d : Fin 16) (r : Nat) (x : State) : State :=
  let x := put x a (x a + x b)
  let x := put x d (x d ^^^ x a)
  put x d ((x d).rotateLeft r)

/-- The quarter-round. -/
def quarterRound (a b c d : Fin 16) (x : State) : State :=
  line c d b 7 (line a b d 8 (line c d b 12 (line a b d 16 x)))

/-- A round on the four columns and a round on the four diagonals. -/
def doubleRound (x : State) : State :=
  let x := quarterRound 0 4 8 12 x
  let x := quarterRound 1 5 9 13 x
  let x := quarterRound 2 6 10 14 x
  let x := quarterRound 3 7 11 15 x
  let x := quarterRound 0 5 10 15 x
  let x := quarterRound 1 6 11 12 x
  let x := quarterRound 2 7 8 13 x
  quarterRound 3 4 9 14 x

def doubleRounds : Nat → State → State
  | 0, x => x
  | n + 1, x => doubleRounds n (doubleRound x)

/-- Little-endian word `i` of a byte string, as a number. -/
def word (b : List Byte) (i : Nat) : Word :=
  BitVec.ofNat 32 ((b.getD (4 * i) 0).toNat + 2 ^ 8 * (b.getD (4 * i + 1) 0).toNat +
    2 ^ 16 * (b.getD (4 * i + 2) 0).toNat + 2 ^ 24 * (b.getD (4 * i + 3) 0).toNat)

/-- Byte `j` of the little-endian serialization of the matrix. -/
def byte (x : State) (j : Nat) : Byte :=
  BitVec.ofNat 8 ((if h : j / 4 < 16 then (x ⟨j / 4, h⟩).toNat else 0) / 2 ^ (8 * (j % 4)))

/-- The initial matrix: constants, key, 64-bit block counter, 64-bit nonce. -/
def initial (constants : String) (key counter nonce : List Byte) : State := fun i =>
  if i.val < 4 then word (constants.toList.map asc) i.val
  else if i.val < 12 then word key (i.val - 4)
  else if i.val < 14 then word counter (i.val - 12)
  else word nonce (i.val - 14)

/-- The initial matrix for a 256-bit key. -/
def initial256 (key counter nonce : List Byte) : State := initial "expand 32-byte k" key counter nonce

/-- The initial matrix for a 128-bit key, which is used twice. -/
def initial128 (key counter nonce : List Byte) : State :=
  initial "expand 16-byte k" (key ++ key) counter nonce

/-- The 64 bytes of keystream of an initial matrix, 20 rounds. -/
def keystream (x : State) : List Byte :=
  (List.range 64).map (byte fun i => doubleRounds 10 x i + x i)

end Wizard.Spec.Chacha

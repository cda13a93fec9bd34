import Verif.Model.TwofishTables
import Verif.Model.StringInfo
/-! twofish.c.  The arithmetic on `unsigned int` is that of `BitVec 32`; `(byte) << 24`, which C99 leaves
undefined for bytes above 127 (the byte is promoted to `int`), is taken to wrap around as every compiler
does. -/
namespace Wizard

/-- twofish.c:50-63 `struct _TwofishInfo`, without the signature; `s0` to `s3` are `sbox[0]` to `sbox[3]`. -/
structure TwofishInfo where
  k : List Word
  s0 : List Word
  s1 : List Word
  s2 : List Word
  s3 : List Word
  w : List Word
  deriving DecidableEq, Repr

/-- The local variables `alpha`, `beta`, `gamma`, `delta` of the block functions. -/
structure TwofishRegs where
  alpha : Word
  beta : Word
  gamma : Word
  delta : Word
  deriving DecidableEq, Repr

/-- twofish.c:68-72 `G1`. -/
def twofishG1 (t : TwofishInfo) (a : Word) : Word :=
  t.s0.getD (a &&& 0xFF).toNat 0 ^^^ t.s1.getD ((a >>> 8) &&& 0xFF).toNat 0
    ^^^ t.s2.getD ((a >>> 16) &&& 0xFF).toNat 0 ^^^ t.s3.getD (a >>> 24).toNat 0

/-- twofish.c:73-77 `G2`. -/
def twofishG2 (t : TwofishInfo) (b : Word) : Word :=
  t.s1.getD (b &&& 0xFF).toNat 0 ^^^ t.s2.getD ((b >>> 8) &&& 0xFF).toNat 0
    ^^^ t.s3.getD ((b >>> 16) &&& 0xFF).toNat 0 ^^^ t.s0.getD (b >>> 24).toNat 0

/-- twofish.c:286-292 `EncipherRound(alpha,beta,gamma,delta,i)`. -/
def twofishEncipherStep (t : TwofishInfo) (i : Nat) (r : TwofishRegs) : TwofishRegs :=
  let rho := twofishG1 t r.alpha
  let sigma := twofishG2 t r.beta
  let rho := rho + sigma
  let sigma := sigma + (rho + t.k.getD (2 * i + 1) 0)
  let gamma := r.gamma ^^^ (rho + t.k.getD (2 * i) 0)
  let gamma := (gamma >>> 1) + (gamma <<< 31)
  let delta := ((r.delta <<< 1) + (r.delta >>> 31)) ^^^ sigma
  ⟨r.alpha, r.beta, gamma, delta⟩

/-- twofish.c:158-163 `DecipherRound(alpha,beta,gamma,delta,i)`. -/
def twofishDecipherStep (t : TwofishInfo) (i : Nat) (r : TwofishRegs) : TwofishRegs :=
  let rho := twofishG1 t r.alpha
  let sigma := twofishG2 t r.beta
  let rho := rho + sigma
  let sigma := sigma + rho
  let delta := r.delta ^^^ (sigma + t.k.getD (2 * i + 1) 0)
  let delta := (delta >>> 1) + (delta <<< 31)
  let gamma := (r.gamma <<< 1) + (r.gamma >>> 31)
  let gamma := gamma ^^^ (rho + t.k.getD (2 * i) 0)
  ⟨r.alpha, r.beta, gamma, delta⟩

/-- The registers renamed: the macro called as `Round(gamma,delta,alpha,beta,i)`. -/
def TwofishRegs.swap (r : TwofishRegs) : TwofishRegs := ⟨r.gamma, r.delta, r.alpha, r.beta⟩

/-- A round macro called with (alpha,beta,gamma,delta) (`false`) or (gamma,delta,alpha,beta) (`true`). -/
def twofishRound (f : Nat → TwofishRegs → TwofishRegs) (r : TwofishRegs) (c : Bool × Nat) : TwofishRegs :=
  if c.1 then (f c.2 r.swap).swap else f c.2 r

/-- twofish.c:316-331 the calls of `EncipherRound`, in order: arguments swapped, and `i`. -/
def twofishEncipherRounds : List (Bool × Nat) :=
  [(false, 0), (true, 1), (false, 2), (true, 3),
   (false, 4), (true, 5), (false, 6), (true, 7),
   (false, 8), (true, 9), (false, 10), (true, 11),
   (false, 12), (true, 13), (false, 14), (true, 15)]

/-- twofish.c:187-202 the calls of `DecipherRound`, in order. -/
def twofishDecipherRounds : List (Bool × Nat) :=
  [(true, 15), (false, 14), (true, 13), (false, 12),
   (true, 11), (false, 10), (true, 9), (false, 8),
   (true, 7), (false, 6), (true, 5), (false, 4),
   (true, 3), (false, 2), (true, 1), (false, 0)]

/-- twofish.c:307-315, 178-186: four bytes joined by `^`. -/
def twofishRead32 (b : List Byte) (i : Nat) : Word :=
  (b.getD (4 * i) 0).setWidth 32 ^^^ (b.getD (4 * i + 1) 0).setWidth 32 <<< 8
    ^^^ (b.getD (4 * i + 2) 0).setWidth 32 <<< 16 ^^^ (b.getD (4 * i + 3) 0).setWidth 32 <<< 24

/-- twofish.c:86-92 `Write32Bits`. -/
def twofishWrite32 (w : Word) : List Byte :=
  [w.setWidth 8, (w >>> 8).setWidth 8, (w >>> 16).setWidth 8, (w >>> 24).setWidth 8]

/-- twofish.c:283-350 `EncipherTwofishBlock`: the 16 bytes written to `ciphertext`. -/
def encipherTwofishBlock (t : TwofishInfo) (b : List Byte) : List Byte :=
  let r : TwofishRegs :=
    ⟨twofishRead32 b 0 ^^^ t.w.getD 0 0, twofishRead32 b 1 ^^^ t.w.getD 1 0,
     twofishRead32 b 2 ^^^ t.w.getD 2 0, twofishRead32 b 3 ^^^ t.w.getD 3 0⟩
  let r := twofishEncipherRounds.foldl (twofishRound (twofishEncipherStep t)) r
  let gamma := r.gamma ^^^ t.w.getD 4 0
  let delta := r.delta ^^^ t.w.getD 5 0
  let alpha := r.alpha ^^^ t.w.getD 6 0
  let beta := r.beta ^^^ t.w.getD 7 0
  twofishWrite32 gamma ++ twofishWrite32 delta ++ twofishWrite32 alpha ++ twofishWrite32 beta

/-- twofish.c:155-221 `DecipherTwofishBlock`: the 16 bytes written to `plaintext`. -/
def decipherTwofishBlock (t : TwofishInfo) (b : List Byte) : List Byte :=
  let r : TwofishRegs :=
    ⟨twofishRead32 b 2 ^^^ t.w.getD 6 0, twofishRead32 b 3 ^^^ t.w.getD 7 0,
     twofishRead32 b 0 ^^^ t.w.getD 4 0, twofishRead32 b 1 ^^^ t.w.getD 5 0⟩
  let r := twofishDecipherRounds.foldl (twofishRound (twofishDecipherStep t)) r
  let alpha := r.alpha ^^^ t.w.getD 0 0
  let beta := r.beta ^^^ t.w.getD 1 0
  let gamma := r.gamma ^^^ t.w.getD 2 0
  let delta := r.delta ^^^ t.w.getD 3 0
  twofishWrite32 alpha ++ twofishWrite32 beta ++ twofishWrite32 gamma ++ twofishWrite32 delta

/-! ### SetTwofishKey -/

/-- `q0[x]`. -/
def tq0 (x : Byte) : Byte := twofishQ0.getD x.toNat 0
/-- `q1[x]`. -/
def tq1 (x : Byte) : Byte := twofishQ1.getD x.toNat 0
/-- `sbox[i]` (twofish.c:582-631). -/
def tsb (i : Nat) : Byte := twofishSbox512.getD i 0

/-- `mds[0][x] ^ mds[1][y] ^ mds[2][z] ^ mds[3][u]`. -/
def tmds (x y z u : Byte) : Word :=
  twofishMds0.getD x.toNat 0 ^^^ twofishMds1.getD y.toNat 0 ^^^ twofishMds2.getD z.toNat 0
    ^^^ twofishMds3.getD u.toNat 0

/-- twofish.c:429-433 `Q128`; `c` is `crypt_key`. -/
def twofishQ128 (c : List Byte) (a b g d : Byte) (i : Nat) : Word :=
  tmds (tq0 (a ^^^ c.getD (i + 8) 0) ^^^ c.getD i 0) (tq0 (b ^^^ c.getD (i + 9) 0) ^^^ c.getD (i + 1) 0)
    (tq1 (g ^^^ c.getD (i + 10) 0) ^^^ c.getD (i + 2) 0) (tq1 (d ^^^ c.getD (i + 11) 0) ^^^ c.getD (i + 3) 0)

/-- twofish.c:434-436 `Q192`. -/
def twofishQ192 (c : List Byte) (a b g d : Byte) (i : Nat) : Word :=
  twofishQ128 c (tq0 (a ^^^ c.getD (i + 16) 0)) (tq1 (b ^^^ c.getD (i + 17) 0))
    (tq0 (g ^^^ c.getD (i + 18) 0)) (tq1 (d ^^^ c.getD (i + 19) 0)) i

/-- twofish.c:437-439 `Q256`. -/
def twofishQ256 (c : List Byte) (a b : Byte) (i : Nat) : Word :=
  twofishQ192 c (tq1 (b ^^^ c.getD (i + 24) 0)) (tq1 (a ^^^ c.getD (i + 25) 0))
    (tq0 (a ^^^ c.getD (i + 26) 0)) (tq0 (b ^^^ c.getD (i + 27) 0)) i

/-- The second and third lines of twofish.c:410-427 `K128`, `K192`, `K256`: the two words stored. -/
def twofishKPair (rho sigma : Word) : List Word :=
  let sigma := (sigma <<< 8) + (sigma >>> 24)
  let rho := rho + sigma
  let sigma := sigma + rho
  [rho, (sigma <<< 9) + (sigma >>> 23)]

/-- twofish.c:410-415 `K128(x,j,k,l,m,n)`: the words stored in `x[j]` and `x[j+1]`. -/
def twofishK128 (c : List Byte) (r : Byte × Byte × Byte × Byte) : List Word :=
  twofishKPair (twofishQ128 c r.1 r.2.1 r.1 r.2.1 0) (twofishQ128 c r.2.2.1 r.2.2.2 r.2.2.1 r.2.2.2 4)

/-- twofish.c:416-421 `K192`. -/
def twofishK192 (c : List Byte) (r : Byte × Byte × Byte × Byte) : List Word :=
  twofishKPair (twofishQ192 c r.2.1 r.2.1 r.1 r.1 0) (twofishQ192 c r.2.2.2 r.2.2.2 r.2.2.1 r.2.2.1 4)

/-- twofish.c:422-427 `K256`. -/
def twofishK256 (c : List Byte) (r : Byte × Byte × Byte × Byte) : List Word :=
  twofishKPair (twofishQ256 c r.1 r.2.1 0) (twofishQ256 c r.2.2.1 r.2.2.2 4)

/-- twofish.c:440-450 `Sbox(alpha,beta,gamma,delta,i,w,x,y,z)`. -/
def twofishSboxStep (c : List Byte) (s : Byte × Byte × Byte × Byte) (r : Nat × Nat × Nat × Nat × Nat) :
    Byte × Byte × Byte × Byte :=
  if c.getD r.1 0 = 0 then s else
    let xi := (twofishPolynomialToExponent.getD ((c.getD r.1 0).toNat - 1) 0).toNat
    (s.1 ^^^ twofishExponentToPolynomial.getD (xi + r.2.1) 0,
     s.2.1 ^^^ twofishExponentToPolynomial.getD (xi + r.2.2.1) 0,
     s.2.2.1 ^^^ twofishExponentToPolynomial.getD (xi + r.2.2.2.1) 0,
     s.2.2.2 ^^^ twofishExponentToPolynomial.getD (xi + r.2.2.2.2) 0)

/-- twofish.c:919-963 the variables `s[4*n]` to `s[4*n+3]` after the eight lines that update them. -/
def twofishS (c : List Byte) (n : Nat) : Byte × Byte × Byte × Byte :=
  ((twofishRSRows.drop (8 * n)).take 8).foldl (twofishSboxStep c) (0, 0, 0, 0)

/-- twofish.c:894-902 the 32 bytes of `crypt_key`. -/
def twofishCryptKey (key : List Byte) : List Byte :=
  let p := key.take 32
  let p := if p.length < 32 then p ++ [1] else p
  p ++ List.replicate (32 - p.length) 0

/-- twofish.c:408-1092 `SetTwofishKey`: the new contents, which do not depend on the old ones.  Each K-line
is executed once, in increasing order of its target, so `w` and `k` are the concatenated pairs.  Lengths
whose multiple by 8 wraps around (2^61 and more) are not modelled. -/
def setTwofishKey (key : StringInfo) : TwofishInfo :=
  let c := twofishCryptKey key.bytes
  let a := twofishS c 0
  let b := twofishS c 1
  if 8 * key.length ≥ 256 then
    let d := twofishS c 2
    let e := twofishS c 3
    { s0 := (List.range 256).map fun i => twofishMds0.getD
        (tq0 (tq0 (tq1 (tsb (2 * i + 1) ^^^ a.1) ^^^ b.1) ^^^ d.1) ^^^ e.1).toNat 0
      s1 := (List.range 256).map fun i => twofishMds1.getD
        (tq0 (tq1 (tq1 (tsb (2 * i) ^^^ a.2.1) ^^^ b.2.1) ^^^ d.2.1) ^^^ e.2.1).toNat 0
      s2 := (List.range 256).map fun i => twofishMds2.getD
        (tq1 (tq0 (tq0 (tsb (2 * i) ^^^ a.2.2.1) ^^^ b.2.2.1) ^^^ d.2.2.1) ^^^ e.2.2.1).toNat 0
      s3 := (List.range 256).map fun i => twofishMds3.getD
        (tq1 (tq1 (tq0 (tsb (2 * i + 1) ^^^ a.2.2.2) ^^^ b.2.2.2) ^^^ d.2.2.2) ^^^ e.2.2.2).toNat 0
      w := (twofishK256Rows.take 4).flatMap (twofishK256 c)
      k := (twofishK256Rows.drop 4).flatMap (twofishK256 c) }
  else if 8 * key.length ≥ 192 then
    let d := twofishS c 2
    { s0 := (List.range 256).map fun i => twofishMds0.getD
        (tq0 (tq0 (tsb (2 * i + 1) ^^^ a.1) ^^^ b.1) ^^^ d.1).toNat 0
      s1 := (List.range 256).map fun i => twofishMds1.getD
        (tq0 (tq1 (tsb (2 * i + 1) ^^^ a.2.1) ^^^ b.2.1) ^^^ d.2.1).toNat 0
      s2 := (List.range 256).map fun i => twofishMds2.getD
        (tq1 (tq0 (tsb (2 * i) ^^^ a.2.2.1) ^^^ b.2.2.1) ^^^ d.2.2.1).toNat 0
      s3 := (List.range 256).map fun i => twofishMds3.getD
        (tq1 (tq1 (tsb (2 * i) ^^^ a.2.2.2) ^^^ b.2.2.2) ^^^ d.2.2.2).toNat 0
      w := (twofishK192Rows.take 4).flatMap (twofishK192 c)
      k := (twofishK192Rows.drop 4).flatMap (twofishK192 c) }
  else
    { s0 := (List.range 256).map fun i => twofishMds0.getD (tq0 (tsb (2 * i) ^^^ a.1) ^^^ b.1).toNat 0
      s1 := (List.range 256).map fun i => twofishMds1.getD (tq0 (tsb (2 * i + 1) ^^^ a.2.1) ^^^ b.2.1).toNat 0
      s2 := (List.range 256).map fun i => twofishMds2.getD
        (tq1 (tsb (2 * i) ^^^ a.2.2.1) ^^^ b.2.2.1).toNat 0
      s3 := (List.range 256).map fun i => twofishMds3.getD
        (tq1 (tsb (2 * i + 1) ^^^ a.2.2.2) ^^^ b.2.2.2).toNat 0
      w := (twofishK128Rows.take 4).flatMap (twofishK128 c)
      k := (twofishK128Rows.drop 4).flatMap (twofishK128 c) }

end Wizard

import Verif.Model.Basic

/-! Numbers with units (locale.c, string.c, string-private.h), as `-chunksize` takes them.  Values are exact: that a `double` rounds is left out.  Texts are the bytes before the
terminating NUL. -/
namespace Wizard

/-- A value: a sign, a number, a power of ten, and a power of two whose exponent counts thirds. -/
structure SiNum where
  neg : Bool
  mant : Nat
  ten : Int
  thirds : Nat
  deriving DecidableEq, Repr

/-- The digits that a text begins with, and the rest. -/
def spanDigits : List Byte → List Byte × List Byte
  | [] => ([], [])
  | b :: t => if 48 ≤ b.toNat ∧ b.toNat ≤ 57 then let r := spanDigits t; (b :: r.1, r.2) else ([], b :: t)

/-- The number that digits stand for. -/
def digitsValue (n : Nat) : List Byte → Nat
  | [] => n
  | b :: t => digitsValue (10 * n + (b.toNat - 48)) t

/-- C library `strtod`: the sign. -/
def spanSign : List Byte → Bool × List Byte
  | [] => (false, [])
  | b :: t => if b = asc '-' then (true, t) else if b = asc '+' then (false, t) else (false, b :: t)

/-- C library `strtod`: the exponent, if there are digits after `e` and a sign; else nothing of it is read. -/
def spanExponent (t : List Byte) : Int × List Byte :=
  match t with
  | [] => (0, [])
  | b :: u =>
    if b = asc 'e' ∨ b = asc 'E' then
      let s := spanSign u
      let d := spanDigits s.2
      if d.1 = [] then (0, t) else ((if s.1 then -(digitsValue 0 d.1 : Int) else (digitsValue 0 d.1 : Int)), d.2)
    else (0, t)

/-- C library `strtod`: the fraction. -/
def spanFraction (t : List Byte) : List Byte × List Byte :=
  match t with
  | [] => ([], [])
  | b :: u => if b = asc '.' then spanDigits u else ([], t)

/-- locale.c:981-992 `strtod_l` in the C locale, of decimal numbers; nothing if no number was read.  White space before the number, infinities, NaNs and hexadecimal numbers with a sign are
left out. -/
def readDecimal (t : List Byte) : Option (SiNum × List Byte) :=
  let s := spanSign t
  let w := spanDigits s.2
  let f := spanFraction w.2
  if w.1 = [] ∧ f.1 = [] then none
  else
    let e := spanExponent f.2
    some (⟨s.1, digitsValue 0 (w.1 ++ f.1), e.1 - f.1.length, 0⟩, e.2)

/-- The value of a hexadecimal digit. -/
def hexValue (b : Byte) : Option Nat :=
  if 48 ≤ b.toNat ∧ b.toNat ≤ 57 then some (b.toNat - 48)
  else if 97 ≤ b.toNat ∧ b.toNat ≤ 102 then some (b.toNat - 87)
  else if 65 ≤ b.toNat ∧ b.toNat ≤ 70 then some (b.toNat - 55)
  else none

/-- C library `strtoul` of base 16, after `0x`. -/
def readHexDigits (n : Nat) : List Byte → Nat × List Byte
  | [] => (n, [])
  | b :: t => match hexValue b with
    | some v => readHexDigits (16 * n + v) t
    | none => (n, b :: t)

/-- locale.c:969-997 `InterpretLocaleValue`; `strtoul` stops at the largest number, and reads the zero alone if no digit follows `0x`. -/
def interpretLocale (t : List Byte) : Option (SiNum × List Byte) :=
  match t with
  | a :: x :: u =>
    if a = asc '0' ∧ (x = asc 'x' ∨ x = asc 'X') then
      match u with
      | [] => some (⟨false, 0, 0, 0⟩, [x])
      | b :: _ => if (hexValue b).isSome then let r := readHexDigits 0 u; some (⟨false, min r.1 (2 ^ 64 - 1), 0, 0⟩, r.2) else some (⟨false, 0, 0, 0⟩, x :: u)
    else readDecimal t
  | _ => readDecimal t

/-- string.c:1434-1457 -/
def prefixExponent (b : Byte) : Int :=
  if b = asc 'y' then -24 else if b = asc 'z' then -21 else if b = asc 'a' then -18 else if b = asc 'f' then -15 else if b = asc 'p' then -12 else if b = asc 'n' then -9
  else if b = asc 'u' then -6 else if b = asc 'm' then -3 else if b = asc 'c' then -2 else if b = asc 'd' then -1 else if b = asc 'h' then 2 else if b = asc 'k' then 3
  else if b = asc 'K' then 3 else if b = asc 'M' then 6 else if b = asc 'G' then 9 else if b = asc 'T' then 12 else if b = asc 'P' then 15 else if b = asc 'E' then 18
  else if b = asc 'Z' then 21 else if b = asc 'Y' then 24 else 0

/-- string.c:1429-1471: the prefix; `pow(2.0,e/0.3)` is two to the power of ten thirds of `e`.  Prefixes with negative exponents are not `>= WizardEpsilon` (1458). -/
def interpretPrefix (v : SiNum) (q : List Byte) : SiNum × List Byte :=
  match q with
  | [] => (v, [])
  | b :: u =>
    if 69 ≤ b.toNat ∧ b.toNat ≤ 122 then
      let e := prefixExponent b
      if 1 ≤ e then
        match u with
        | [] => ({ v with ten := v.ten + e }, [])
        | i :: w => if i = asc 'i' then ({ v with thirds := v.thirds + 10 * e.toNat }, w) else ({ v with ten := v.ten + e }, i :: w)
      else (v, q)
    else (v, q)

/-- string.c:1472-1473 -/
def skipUnit (q : List Byte) : List Byte :=
  match q with
  | [] => []
  | b :: u => if b = asc 'B' ∨ b = asc 'P' then u else q

/-- string.c:1418-1478 `InterpretSiPrefixValue`: the value, and what was not read. -/
def interpretSi (t : List Byte) : SiNum × List Byte :=
  match interpretLocale t with
  | none => (⟨false, 0, 0, 0⟩, t)
  | some r => let p := interpretPrefix r.1 r.2; (p.1, skipUnit p.2)

/-- string-private.h:32-45 `StringToDoubleInterval` with the interval 100, as in encipher.c:303 and decipher.c:302: a percent sign makes no difference. -/
def interpretSize (t : List Byte) : SiNum × List Byte := interpretSi t

end Wizard

import Verif.Model.Xml
/-! string.c and utility.c: timestamps.  The C library's broken-down times, `strtod` and `mktime` are parameters. -/
namespace Wizard

/-- `struct tm` (`year` since 1900, `mon` from 0). -/
structure Tm where
  year : Int := 0
  mon : Int := 0
  mday : Int := 0
  hour : Int := 0
  min : Int := 0
  sec : Int := 0
  yday : Int := 0
  deriving DecidableEq, Repr

/-- string.c:1143-1146 and utility.c:987-990: the hours from `gm` to `local`. -/
def zoneHours (l g : Tm) : Int :=
  Int.tdiv (l.min - g.min) 60 + l.hour - g.hour + 24 * (if l.year - g.year ≠ 0 then l.year - g.year else l.yday - g.yday)

/-- `%d` of a number that is not negative. -/
def numeral (n : Nat) : List Byte :=
  if n < 10 then [BitVec.ofNat 8 (48 + n)] else numeral (n / 10) ++ [BitVec.ofNat 8 (48 + n % 10)]
termination_by n

/-- `%0<width>d`, and with `plus` `%+0<width>d`: the sign is part of the width. -/
def printPadded (plus : Bool) (width : Nat) (n : Int) : List Byte :=
  let sign := if n < 0 then [asc '-'] else if plus then [asc '+'] else []
  let digits := numeral n.natAbs
  sign ++ List.replicate (width - sign.length - digits.length) (asc '0') ++ digits

/-- string.c:1105-1152 `FormatWizardTime`, into a long enough buffer; `l` is `localtime` and `g` is `gmtime` of the time. -/
def formatWizardTime (l g : Tm) : List Byte :=
  printPadded false 4 (l.year + 1900) ++ [asc '-'] ++ printPadded false 2 (l.mon + 1) ++ [asc '-'] ++ printPadded false 2 l.mday ++ [asc 'T'] ++
  printPadded false 2 l.hour ++ [asc ':'] ++ printPadded false 2 l.min ++ [asc ':'] ++ printPadded false 2 l.sec ++
  printPadded true 3 (zoneHours l g) ++ [asc ':', asc '0', asc '0']

/-- utility.c:968-969 `separators`, with its end. -/
def timeSeparators : List Byte := [asc '-', asc '-', asc 'T', asc ':', asc ':', asc '-', asc ':', 0]

/-- utility.c:993-1013: the loop, from `p` on, with the separators that are left: the values of the fields whose separator was found, and
the text `p` ends at.  `num` is `strtod`, rounded by `(int) (value+0.5)`, and how much it read. -/
def timeFields (num : List Byte → Int × Nat) : List Byte → List Byte → List Int × List Byte
  | [], p => ([], p)
  | s :: ss, p =>
    let v := num p
    let q := p.drop v.2
    if q.head?.getD 0 ≠ s then ([], p)
    else if q = [] then ([v.1], q)
    else
      let r := timeFields num ss (q.drop 1)
      (v.1 :: r.1, r.2)

/-- An `int`. -/
def inInt (v : Int) : Bool := decide (-2147483648 ≤ v ∧ v < 2147483648)

/-- utility.c:991, 998-1008: the time of the fields. -/
def fieldsTm (fs : List Int) : Tm :=
  { year := match fs[0]? with | some v => v - 1900 | none => 0
    mon := match fs[1]? with | some v => v - 1 | none => 0
    mday := fs[2]?.getD 0
    hour := fs[3]?.getD 0
    min := fs[4]?.getD 0
    sec := fs[5]?.getD 0 }

/-- utility.c:951-1016 `ParseWizardTime`, where `l` and `g` are `localtime` and `gmtime` of the present: the time and the text at which the
result points.  A conversion that does not fit an `int`, or a subtraction that leaves it, is undefined. -/
def parseWizardTime (num : List Byte → Int × Nat) (mktime : Tm → Int) (l g : Tm) (text : List Byte) : Res (Int × List Byte) :=
  let r := timeFields num timeSeparators text
  if r.1.all inInt ∧ inInt (fieldsTm r.1).year ∧ inInt (fieldsTm r.1).mon then
    .ok (mktime (fieldsTm r.1) - 3600 * (zoneHours l g + r.1[6]?.getD 0), r.2)
  else .ub

end Wizard

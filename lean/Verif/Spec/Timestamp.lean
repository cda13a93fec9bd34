import Verif.Model.Timestamp
/-! The calendar, and what a timestamp says (RFC 3339). -/
namespace Wizard.Spec.Time
open Wizard

/-- A leap year. -/
def leap (y : Int) : Bool := y % 4 = 0 && (y % 100 ≠ 0 || y % 400 = 0)

def monthLengths (isLeap : Bool) : List Nat := [31, if isLeap then 29 else 28, 31, 30, 31, 30, 31, 31, 30, 31, 30, 31]

/-- The days of year `y` before its month `m` (from 1). -/
def daysBeforeMonth (isLeap : Bool) (m : Nat) : Nat := ((monthLengths isLeap).take (m - 1)).sum

/-- The days from 1 January 1970 to 1 January of year `y`. -/
def daysBeforeYear (y : Int) : Int := 365 * (y - 1970) + ((y - 1) / 4 - (y - 1) / 100 + (y - 1) / 400 - 477)

/-- A date and a time of day. -/
structure Civil where
  year : Int
  month : Nat
  day : Nat
  hour : Nat
  minute : Nat
  second : Nat

def Civil.valid (c : Civil) : Prop :=
  1 ≤ c.month ∧ c.month ≤ 12 ∧ 1 ≤ c.day ∧ c.day ≤ (monthLengths (leap c.year)).getD (c.month - 1) 0 ∧ c.hour < 24 ∧ c.minute < 60 ∧ c.second < 60

/-- The seconds from the epoch to it, were it in UTC. -/
def Civil.seconds (c : Civil) : Int :=
  86400 * (daysBeforeYear c.year + (daysBeforeMonth (leap c.year) c.month + c.day - 1 : Int)) + (3600 * c.hour + 60 * c.minute + c.second : Int)

/-- `tm` is the broken-down time of `t` seconds since the epoch (what `gmtime` returns; for `localtime` add the offset to `t`). -/
def IsTm (tm : Tm) (t : Int) : Prop :=
  ∃ c : Civil, c.valid ∧ c.seconds = t ∧
    tm = ⟨c.year - 1900, c.month - 1, c.day, c.hour, c.minute, c.second, daysBeforeMonth (leap c.year) c.month + c.day - 1⟩

/-- A decimal number. -/
def number (ds : List Byte) : Option Nat :=
  if ds.all (fun b => 48 ≤ b.toNat && b.toNat ≤ 57) then some (ds.foldl (fun a b => 10 * a + (b.toNat - 48)) 0) else none

/-- The seconds before which the zone `+hh:mm`, `-hh:mm` or `Z` is ahead. -/
def zone : List Byte → Option Int
  | [z] => if z = asc 'Z' then some 0 else none
  | [s, a, b, colon, c, d] =>
    match number [a, b], number [c, d] with
    | some h, some m =>
      if colon ≠ asc ':' then none
      else if s = asc '+' then some (3600 * h + 60 * m) else if s = asc '-' then some (-(3600 * h + 60 * m : Int)) else none
    | _, _ => none
  | _ => none

/-- The date and time of `yyyy-mm-ddThh:mm:ss`. -/
def civil : List Byte → Option Civil
  | [a, b, c, d, s1, e, f, s2, g, h, s3, i, j, s4, k, l, s5, m, n] =>
    match number [a, b, c, d], number [e, f], number [g, h], number [i, j], number [k, l], number [m, n] with
    | some y, some mo, some dd, some hh, some mi, some ss =>
      if s1 = asc '-' ∧ s2 = asc '-' ∧ s3 = asc 'T' ∧ s4 = asc ':' ∧ s5 = asc ':' then some ⟨y, mo, dd, hh, mi, ss⟩ else none
    | _, _, _, _, _, _ => none
  | _ => none

/-- The instant a timestamp denotes. -/
def instant (text : List Byte) : Option Int :=
  match civil (text.take 19), zone (text.drop 19) with
  | some c, some z => some (c.seconds - z)
  | _, _ => none

end Wizard.Spec.Time

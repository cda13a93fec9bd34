import Verif.Spec.Timestamp
/-! C129 and C130: timestamps. -/
namespace Wizard.Props
open Wizard Wizard.Spec.Time

/-! ### Decimals -/

def dig (n : Nat) : Byte := BitVec.ofNat 8 (48 + n)
def two (n : Nat) : List Byte := [dig (n / 10), dig (n % 10)]
def four (n : Nat) : List Byte := [dig (n / 1000), dig (n / 100 % 10), dig (n / 10 % 10), dig (n % 10)]

theorem dig_zero : asc '0' = dig 0 := by decide

theorem numeral_small {n : Nat} (h : n < 10) : numeral n = [dig n] := by rw [numeral, if_pos h]; rfl
theorem numeral_big {n : Nat} (h : 10 ≤ n) : numeral n = numeral (n / 10) ++ [dig (n % 10)] := by rw [numeral, if_neg (by omega)]; rfl

theorem numeral_len : ∀ (k n : Nat), n < 10 ^ (k + 1) → (numeral n).length ≤ k + 1
  | 0, n, h => by rw [numeral_small (by simpa using h)]; simp
  | k + 1, n, h => by
    by_cases h1 : n < 10
    · rw [numeral_small h1]; simp
    · rw [numeral_big (by omega)]
      have := numeral_len k (n / 10) (by rw [Nat.pow_succ] at h; exact Nat.div_lt_of_lt_mul (by omega))
      simp; omega

theorem pad_two {n : Nat} (h : n < 100) : List.replicate (2 - (numeral n).length) (asc '0') ++ numeral n = two n := by
  by_cases h1 : n < 10
  · rw [numeral_small h1, two, show n / 10 = 0 by omega, show n % 10 = n by omega]; rfl
  · rw [numeral_big (by omega), numeral_small (by omega)]; rfl

theorem pad_four {n : Nat} (h : n < 10000) : List.replicate (4 - (numeral n).length) (asc '0') ++ numeral n = four n := by
  by_cases h1 : n < 10
  · rw [numeral_small h1, four, show n / 1000 = 0 by omega, show n / 100 = 0 by omega, show n / 10 = 0 by omega, show n % 10 = n by omega]; rfl
  · rw [numeral_big (by omega)]
    by_cases h2 : n < 100
    · rw [numeral_small (by omega), four, show n / 1000 = 0 by omega, show n / 100 = 0 by omega, show n / 10 % 10 = n / 10 by omega]; rfl
    · rw [numeral_big (by omega)]
      by_cases h3 : n < 1000
      · rw [numeral_small (by omega), four, show n / 1000 = 0 by omega, show n / 100 % 10 = n / 10 / 10 by omega]; rfl
      · rw [numeral_big (by omega), numeral_small (by omega), four, show n / 1000 = n / 10 / 10 / 10 by omega, show n / 100 % 10 = n / 10 / 10 % 10 by omega]; rfl

theorem print_two {n : Nat} (h : n < 100) : printPadded false 2 (n : Int) = two n := by
  simp only [printPadded, if_neg (show ¬ ((n : Int) < 0) by omega), Int.natAbs_natCast, Bool.false_eq_true, if_false, List.nil_append, List.length_nil, Nat.sub_zero]
  exact pad_two h

theorem print_four {n : Nat} (h : n < 10000) : printPadded false 4 (n : Int) = four n := by
  simp only [printPadded, if_neg (show ¬ ((n : Int) < 0) by omega), Int.natAbs_natCast, Bool.false_eq_true, if_false, List.nil_append, List.length_nil, Nat.sub_zero]
  exact pad_four h

theorem print_zone {z : Int} (h : z.natAbs < 100) : printPadded true 3 z = (if z < 0 then asc '-' else asc '+') :: two z.natAbs := by
  by_cases hz : z < 0
  · simp only [printPadded, if_pos hz, List.length_cons, List.length_nil, List.append_assoc]
    rw [show 3 - (0 + 1) = 2 from rfl, pad_two h]; rfl
  · simp only [printPadded, if_neg hz, List.length_cons, List.length_nil, List.append_assoc, if_true]
    rw [show 3 - (0 + 1) = 2 from rfl, pad_two h]; rfl

theorem dig_val {n : Nat} (h : n < 10) : (dig n).toNat = 48 + n := by
  rw [dig, BitVec.toNat_ofNat]; omega

theorem number_two {n : Nat} (h : n < 100) : number [dig (n / 10), dig (n % 10)] = some n := by
  have h1 := dig_val (show n / 10 < 10 by omega)
  have h2 := dig_val (show n % 10 < 10 by omega)
  simp only [number, List.all_cons, List.all_nil, h1, h2, List.foldl_cons, List.foldl_nil]
  rw [if_pos (by simp; omega)]
  congr 1; omega

theorem number_four {n : Nat} (h : n < 10000) : number [dig (n / 1000), dig (n / 100 % 10), dig (n / 10 % 10), dig (n % 10)] = some n := by
  have h1 := dig_val (show n / 1000 < 10 by omega)
  have h2 := dig_val (show n / 100 % 10 < 10 by omega)
  have h3 := dig_val (show n / 10 % 10 < 10 by omega)
  have h4 := dig_val (show n % 10 < 10 by omega)
  simp only [number, List.all_cons, List.all_nil, h1, h2, h3, h4, List.foldl_cons, List.foldl_nil]
  rw [if_pos (by simp; omega)]
  congr 1; omega

/-! ### The calendar -/

theorem year_succ (y : Int) : daysBeforeYear (y + 1) = daysBeforeYear y + (if leap y then 366 else 365) := by
  simp only [daysBeforeYear, leap, Bool.and_eq_true, decide_eq_true_eq, Bool.or_eq_true, ne_eq, decide_not, Bool.not_eq_true', decide_eq_false_iff_not]
  split <;> omega

theorem year_le {a b : Int} (h : a ≤ b) : daysBeforeYear a + 365 * (b - a) ≤ daysBeforeYear b := by
  simp only [daysBeforeYear]; omega

/-- The day of the year. -/
def dayOfYear (c : Civil) : Int := daysBeforeMonth (leap c.year) c.month + c.day - 1

theorem months_ok : ∀ (l : Bool) (m : Fin 12) (d : Fin 31), d.val + 1 ≤ (monthLengths l).getD m.val 0 →
    daysBeforeMonth l (m.val + 1) + d.val < (if l then 366 else 365) := by decide +kernel

theorem dayOfYear_lt {c : Civil} (h : c.valid) : 0 ≤ dayOfYear c ∧ dayOfYear c < (if leap c.year then 366 else 365) := by
  obtain ⟨h1, h2, h3, h4, _⟩ := h
  have h5 : c.day ≤ 31 := by
    refine Nat.le_trans h4 ?_
    have : ∀ (l : Bool) (m : Fin 12), (monthLengths l).getD m.val 0 ≤ 31 := by decide +kernel
    exact this _ ⟨c.month - 1, by omega⟩
  have := months_ok (leap c.year) ⟨c.month - 1, by omega⟩ ⟨c.day - 1, by omega⟩ (by simpa [Nat.sub_add_cancel h3] using h4)
  simp only [Nat.sub_add_cancel h1] at this
  simp only [dayOfYear]
  refine ⟨by omega, ?_⟩
  split <;> rename_i e <;> simp only [e] at this ⊢ <;> simp at this ⊢ <;> omega

/-- Every instant has a broken-down time. -/
theorem exists_tm (t : Int) : ∃ tm, IsTm tm t := by
  have hy : ∀ d : Int, ∃ y, daysBeforeYear y ≤ d ∧ d < daysBeforeYear (y + 1) := by
    have up : ∀ n : Nat, ∃ y, daysBeforeYear y ≤ (n : Int) ∧ (n : Int) < daysBeforeYear (y + 1) := by
      intro n
      induction n with
      | zero => exact ⟨1970, by decide, by decide⟩
      | succ n ih =>
        obtain ⟨y, h1, h2⟩ := ih
        by_cases h : ((n + 1 : Nat) : Int) < daysBeforeYear (y + 1)
        · exact ⟨y, by omega, h⟩
        · have := year_le (show y + 1 ≤ y + 1 + 1 by omega)
          exact ⟨y + 1, by omega, by omega⟩
    have down : ∀ n : Nat, ∃ y, daysBeforeYear y ≤ -(n : Int) ∧ -(n : Int) < daysBeforeYear (y + 1) := by
      intro n
      induction n with
      | zero => exact ⟨1970, by decide, by decide⟩
      | succ n ih =>
        obtain ⟨y, h1, h2⟩ := ih
        by_cases h : daysBeforeYear y ≤ -((n + 1 : Nat) : Int)
        · exact ⟨y, h, by omega⟩
        · have := year_le (show y - 1 ≤ y by omega)
          refine ⟨y - 1, by omega, ?_⟩
          rw [Int.sub_add_cancel]; omega
    intro d
    rcases Int.le_total 0 d with h | h
    · have := up d.toNat; rwa [Int.toNat_of_nonneg h] at this
    · have := down (-d).toNat; rw [Int.toNat_of_nonneg (by omega)] at this; simpa using this
  have hm : ∀ (l : Bool) (n : Fin (if l then 366 else 365)), ∃ (m : Fin 12) (d : Fin 31), d.val + 1 ≤ (monthLengths l).getD m.val 0 ∧ daysBeforeMonth l (m.val + 1) + d.val = n.val := by
    decide +kernel
  obtain ⟨y, h1, h2⟩ := hy (t / 86400)
  rw [year_succ] at h2
  obtain ⟨m, d, h3, h4⟩ := hm (leap y) ⟨(t / 86400 - daysBeforeYear y).toNat, by split <;> rename_i e <;> simp only [e] at h2 <;> simp at h2 <;> omega⟩
  simp only at h4
  refine ⟨_, ⟨y, m.val + 1, d.val + 1, (t % 86400 / 3600).toNat, (t % 3600 / 60).toNat, (t % 60).toNat⟩, ⟨by simp, by simp; omega, by simp, by simpa using h3, ?_, ?_, ?_⟩, ?_, rfl⟩
  · simp; omega
  · simp; omega
  · simp; omega
  · simp only [Civil.seconds]; omega

/-- The day differences the code works out are the real ones, when the times are at most a day apart. -/
theorem day_diff {a b : Civil} (ha : a.valid) (hb : b.valid) (h : (daysBeforeYear b.year + dayOfYear b) - (daysBeforeYear a.year + dayOfYear a) ≤ 1)
    (h' : -1 ≤ (daysBeforeYear b.year + dayOfYear b) - (daysBeforeYear a.year + dayOfYear a)) :
    (if b.year - 1900 - (a.year - 1900) ≠ 0 then b.year - 1900 - (a.year - 1900) else dayOfYear b - dayOfYear a) =
      (daysBeforeYear b.year + dayOfYear b) - (daysBeforeYear a.year + dayOfYear a) := by
  have da := dayOfYear_lt ha
  have db := dayOfYear_lt hb
  have sa := year_succ a.year
  have sb := year_succ b.year
  rcases Int.lt_trichotomy a.year b.year with hy | hy | hy
  · rw [if_pos (by omega)]
    have := year_le (show a.year + 1 ≤ b.year by omega)
    omega
  · rw [if_neg (by omega), hy]; omega
  · rw [if_pos (by omega)]
    have := year_le (show b.year + 1 ≤ a.year by omega)
    omega

theorem seconds_eq (c : Civil) : c.seconds = 86400 * (daysBeforeYear c.year + dayOfYear c) + (3600 * c.hour + 60 * c.minute + c.second : Int) := rfl

/-- The tm of a civil time. -/
def Civil.tm (c : Civil) : Tm := ⟨c.year - 1900, c.month - 1, c.day, c.hour, c.minute, c.second, dayOfYear c⟩

/-- The hours the code works out. -/
theorem zoneHours_eq {a b : Civil} (ha : a.valid) (hb : b.valid) {off : Int} (h : b.seconds = a.seconds + off) (h1 : -86400 ≤ off) (h2 : off ≤ 86400) :
    3600 * zoneHours (Civil.tm b) (Civil.tm a) = off - (60 * (b.minute - a.minute : Int) + (b.second - a.second : Int)) := by
  have a5 := ha.2.2.2.2
  have b5 := hb.2.2.2.2
  rw [seconds_eq, seconds_eq] at h
  have hd := day_diff ha hb (by omega) (by omega)
  have ht : Int.tdiv ((b.minute : Int) - a.minute) 60 = 0 := by
    rcases Int.le_total 0 ((b.minute : Int) - a.minute) with h | h
    · exact Int.tdiv_eq_zero_of_lt h (by omega)
    · rw [show (b.minute : Int) - a.minute = -((a.minute : Int) - b.minute) by omega, Int.neg_tdiv, Int.tdiv_eq_zero_of_lt (by omega) (by omega)]; rfl
  show 3600 * (Int.tdiv ((b.minute : Int) - a.minute) 60 + b.hour - a.hour +
    24 * (if b.year - 1900 - (a.year - 1900) ≠ 0 then b.year - 1900 - (a.year - 1900) else dayOfYear b - dayOfYear a)) = _
  rw [ht, hd]
  omega

/-- The text of a civil time and a zone. -/
def stamp (c : Civil) (sign : Byte) (h m : Nat) : List Byte :=
  four c.year.toNat ++ [asc '-'] ++ two c.month ++ [asc '-'] ++ two c.day ++ [asc 'T'] ++ two c.hour ++ [asc ':'] ++ two c.minute ++ [asc ':'] ++ two c.second ++
  (sign :: two h ++ [asc ':'] ++ two m)

/-- The years that have four digits. -/
def FourDigits (c : Civil) : Prop := 0 ≤ c.year ∧ c.year ≤ 9999

theorem civil_stamp {c : Civil} (hc : c.valid) (hy : FourDigits c) (rest : List Byte) :
    civil ((four c.year.toNat ++ [asc '-'] ++ two c.month ++ [asc '-'] ++ two c.day ++ [asc 'T'] ++ two c.hour ++ [asc ':'] ++ two c.minute ++ [asc ':'] ++ two c.second ++ rest).take 19) = some c := by
  obtain ⟨h1, h2, h3, h4, h5, h6, h7⟩ := hc
  have h8 : c.day ≤ 31 := by
    refine Nat.le_trans h4 ?_
    have : ∀ (l : Bool) (m : Fin 12), (monthLengths l).getD m.val 0 ≤ 31 := by decide +kernel
    exact this _ ⟨c.month - 1, by omega⟩
  simp only [four, two, List.cons_append, List.nil_append, List.take_succ_cons, List.take_zero, civil]
  rw [number_four (by have := hy.2; omega), number_two (by omega), number_two (by omega), number_two (by omega), number_two (by omega), number_two (by omega)]
  simp only [and_self, if_true]
  obtain ⟨y, mo, d, h, mi, s⟩ := c
  simp only [Option.some.injEq, Civil.mk.injEq, and_self, and_true]
  exact Int.toNat_of_nonneg hy.1

theorem instant_stamp {c : Civil} (hc : c.valid) (hy : FourDigits c) {h m : Nat} (hh : h < 100) (hm : m < 100) {sign : Byte} (hs : sign = asc '+' ∨ sign = asc '-') :
    instant (stamp c sign h m) = some (c.seconds - (if sign = asc '+' then 1 else -1) * (3600 * h + 60 * m : Int)) := by
  simp only [instant, stamp]
  rw [civil_stamp hc hy]
  simp only [four, two, List.cons_append, List.nil_append, List.drop_succ_cons, List.drop_zero, zone]
  rw [number_two hh, number_two hm]
  rcases hs with rfl | rfl
  · simp
  · simp only [ne_eq, not_true_eq_false, if_false, show ¬ asc '-' = asc '+' by decide, if_true, Option.some.injEq]
    omega

theorem format_stamp {c : Civil} (hc : c.valid) (hy : FourDigits c) {g : Tm} (hz : (zoneHours (Civil.tm c) g).natAbs < 100) :
    formatWizardTime (Civil.tm c) g = stamp c (if zoneHours (Civil.tm c) g < 0 then asc '-' else asc '+') (zoneHours (Civil.tm c) g).natAbs 0 := by
  obtain ⟨h1, h2, h3, h4, h5, h6, h7⟩ := hc
  have h8 : c.day ≤ 31 := by
    refine Nat.le_trans h4 ?_
    have : ∀ (l : Bool) (m : Fin 12), (monthLengths l).getD m.val 0 ≤ 31 := by decide +kernel
    exact this _ ⟨c.month - 1, by omega⟩
  have hy1 := hy.1
  have hy2 := hy.2
  rw [formatWizardTime, print_zone hz, stamp]
  have e1 : (Civil.tm c).year + 1900 = (c.year.toNat : Int) := by simp only [Civil.tm]; omega
  have e2 : (Civil.tm c).mon + 1 = (c.month : Int) := by simp only [Civil.tm]; omega
  rw [e1, e2, print_four (by omega), print_two (n := c.month) (by omega)]
  simp only [Civil.tm]
  rw [print_two (n := c.day) (by omega), print_two (n := c.hour) (by omega), print_two (n := c.minute) (by omega), print_two (n := c.second) (by omega)]
  simp only [List.append_assoc, List.cons_append, List.nil_append]
  rfl

/-- The instant of a formatted time, whatever the zone. -/
theorem format_instant {t off : Int} {l g : Tm} (hl : IsTm l (t + off)) (hg : IsTm g t) (hy : 0 ≤ l.year + 1900 ∧ l.year + 1900 ≤ 9999) (h1 : -86400 ≤ off) (h2 : off ≤ 86400) :
    instant (formatWizardTime l g) = some (t + off - 3600 * zoneHours l g) := by
  obtain ⟨b, hb, sb, rfl⟩ := hl
  obtain ⟨a, ha, sa, rfl⟩ := hg
  have hy' : FourDigits b := by simp only [FourDigits] at *; omega
  have hz := zoneHours_eq ha hb (by rw [sa, sb]) h1 h2
  have a5 := ha.2.2.2.2
  have b5 := hb.2.2.2.2
  show instant (formatWizardTime (Civil.tm b) (Civil.tm a)) = some (t + off - 3600 * zoneHours (Civil.tm b) (Civil.tm a))
  generalize hzz : zoneHours (Civil.tm b) (Civil.tm a) = z at hz ⊢
  rw [format_stamp hb hy' (by rw [hzz]; omega), hzz, instant_stamp hb hy' (by omega) (by omega) (by split <;> simp), sb]
  split
  · rename_i e; rw [if_neg (by decide)]; congr 1; omega
  · rw [if_pos rfl]; congr 1; omega

/-- **C129** In a zone of whole hours, at most a day away from UTC, the timestamp of every instant of the years 0 to 9999 denotes that
instant. -/
theorem C129_whole_partial {t : Int} {hours : Int} (hh : -24 ≤ hours ∧ hours ≤ 24) {l g : Tm} (hl : IsTm l (t + 3600 * hours)) (hg : IsTm g t)
    (hy : 0 ≤ l.year + 1900 ∧ l.year + 1900 ≤ 9999) : instant (formatWizardTime l g) = some t := by
  rw [format_instant hl hg hy (by omega) (by omega)]
  obtain ⟨b, hb, sb, rfl⟩ := hl
  obtain ⟨a, ha, sa, rfl⟩ := hg
  have hz := zoneHours_eq ha hb (by rw [sa, sb]) (by omega) (by omega)
  have a5 := ha.2.2.2.2
  have b5 := hb.2.2.2.2
  rw [seconds_eq] at sa sb
  congr 1
  show t + 3600 * hours - 3600 * zoneHours (Civil.tm b) (Civil.tm a) = t
  rw [hz]
  omega

/-- Every instant has such broken-down times. -/
example (t hours : Int) : ∃ l g, IsTm l (t + 3600 * hours) ∧ IsTm g t :=
  ⟨_, _, (exists_tm _).choose_spec, (exists_tm _).choose_spec⟩

/-- 31 December 1969, 19:00 in New York. -/
example : IsTm ⟨69, 11, 31, 19, 0, 0, 364⟩ (0 + 3600 * -5) ∧ IsTm ⟨70, 0, 1, 0, 0, 0, 0⟩ 0 ∧
    formatWizardTime ⟨69, 11, 31, 19, 0, 0, 364⟩ ⟨70, 0, 1, 0, 0, 0, 0⟩ = ascText "1969-12-31T19:00:00-05:00" := by
  have h : Civil.valid ⟨1969, 12, 31, 19, 0, 0⟩ := by simp [Civil.valid, leap, monthLengths]
  refine ⟨⟨⟨1969, 12, 31, 19, 0, 0⟩, h, by decide +kernel, by decide +kernel⟩,
    ⟨⟨1970, 1, 1, 0, 0, 0⟩, by simp [Civil.valid, leap, monthLengths], by decide +kernel, by decide +kernel⟩, ?_⟩
  exact (format_stamp (c := ⟨1969, 12, 31, 19, 0, 0⟩) (g := ⟨70, 0, 1, 0, 0, 0, 0⟩) h (by simp [FourDigits]) (by decide +kernel)).trans (by decide +kernel)

/-- **C129 is false** in every zone that is not a number of whole hours from UTC, such as those of India: the timestamp of every instant
denotes another. -/
theorem C129_minutes_violated {t : Int} {off : Int} (hoff : off % 3600 ≠ 0) (h1 : -86400 ≤ off) (h2 : off ≤ 86400) {l g : Tm} (hl : IsTm l (t + off)) (hg : IsTm g t)
    (hy : 0 ≤ l.year + 1900 ∧ l.year + 1900 ≤ 9999) : ∃ t', instant (formatWizardTime l g) = some t' ∧ t' ≠ t := by
  refine ⟨_, format_instant hl hg hy h1 h2, ?_⟩
  omega

/-! ### Reading timestamps -/

/-- `strtod` and rounding, on a decimal number before one of the separators of timestamps or the end. -/
def ReadsNumbers (num : List Byte → Int × Nat) : Prop :=
  ∀ ds rest n, ds ≠ [] → ds.length ≤ 4 → number ds = some n → (∀ b, rest.head? = some b → b ∈ [asc '-', asc 'T', asc ':', asc '+', asc 'Z']) → num (ds ++ rest) = ((n : Int), ds.length)

/-- `mktime`, where local time is `std` seconds ahead of UTC. -/
def MakesTimes (std : Int) (mktime : Tm → Int) : Prop := ∀ c : Civil, c.valid → ∀ tm : Tm, { tm with yday := 0 } = { Civil.tm c with yday := 0 } → mktime tm = c.seconds - std

theorem read_two {num : List Byte → Int × Nat} (hn : ReadsNumbers num) {n : Nat} (h : n < 100) {rest : List Byte}
    (hr : ∀ b, rest.head? = some b → b ∈ [asc '-', asc 'T', asc ':', asc '+', asc 'Z']) : num (dig (n / 10) :: dig (n % 10) :: rest) = ((n : Int), 2) :=
  hn [dig (n / 10), dig (n % 10)] rest n (by simp) (by simp) (number_two h) hr

theorem read_four {num : List Byte → Int × Nat} (hn : ReadsNumbers num) {n : Nat} (h : n < 10000) {rest : List Byte}
    (hr : ∀ b, rest.head? = some b → b ∈ [asc '-', asc 'T', asc ':', asc '+', asc 'Z']) :
    num (dig (n / 1000) :: dig (n / 100 % 10) :: dig (n / 10 % 10) :: dig (n % 10) :: rest) = ((n : Int), 4) :=
  hn [dig (n / 1000), dig (n / 100 % 10), dig (n / 10 % 10), dig (n % 10)] rest n (by simp) (by simp) (number_four h) hr

theorem field_step (num : List Byte → Int × Nat) (s : Byte) (ss p q : List Byte) (v : Int) (k : Nat) (h : num p = (v, k)) (hq : p.drop k = s :: q) :
    timeFields num (s :: ss) p = (v :: (timeFields num ss q).1, (timeFields num ss q).2) := by
  simp [timeFields, h, hq]

theorem field_stop (num : List Byte → Int × Nat) (s : Byte) (ss p : List Byte) (h : (p.drop (num p).2).head?.getD 0 ≠ s) :
    timeFields num (s :: ss) p = ([], p) := by
  rw [timeFields]; exact if_pos h

theorem valid_day {c : Civil} (h : c.valid) : c.day ≤ 31 := by
  refine Nat.le_trans h.2.2.2.1 ?_
  have : ∀ (l : Bool) (m : Fin 12), (monthLengths l).getD m.val 0 ≤ 31 := by decide +kernel
  exact this _ ⟨c.month - 1, by have := h.1; have := h.2.1; omega⟩

/-- The first five fields. -/
theorem fields_five {num : List Byte → Int × Nat} (hn : ReadsNumbers num) {c : Civil} (hc : c.valid) (hy : FourDigits c) (tail : List Byte) :
    timeFields num timeSeparators (four c.year.toNat ++ [asc '-'] ++ two c.month ++ [asc '-'] ++ two c.day ++ [asc 'T'] ++ two c.hour ++ [asc ':'] ++ two c.minute ++ [asc ':'] ++ tail) =
      (c.year :: (c.month : Int) :: (c.day : Int) :: (c.hour : Int) :: (c.minute : Int) :: (timeFields num [asc '-', asc ':', 0] tail).1, (timeFields num [asc '-', asc ':', 0] tail).2) := by
  have hd := valid_day hc
  obtain ⟨h1, h2, h3, h4, h5, h6, h7⟩ := hc
  have hy1 := hy.1
  have hy2 := hy.2
  simp only [timeSeparators, four, two, List.cons_append, List.nil_append]
  rw [field_step num _ _ _ _ _ _ (read_four hn (n := c.year.toNat) (by omega) (by simp)) rfl,
    field_step num _ _ _ _ _ _ (read_two hn (n := c.month) (by omega) (by simp)) rfl,
    field_step num _ _ _ _ _ _ (read_two hn (n := c.day) (by omega) (by simp)) rfl,
    field_step num _ _ _ _ _ _ (read_two hn (n := c.hour) (by omega) (by simp)) rfl,
    field_step num _ _ _ _ _ _ (read_two hn (n := c.minute) (by omega) (by simp)) rfl, Int.toNat_of_nonneg hy1]

theorem parse_fields {num : List Byte → Int × Nat} {mktime : Tm → Int} {std : Int} (hm : MakesTimes std mktime) {c : Civil} (hc : c.valid) (hy : FourDigits c)
    (l g : Tm) {text rest : List Byte} {more : List Int} {s : Nat} (hs : s < 60) (hmore : ∀ v ∈ more, 0 ≤ v ∧ v < 100) (hsec : more[0]?.getD 0 = (s : Int))
    (h : timeFields num timeSeparators text = (c.year :: (c.month : Int) :: (c.day : Int) :: (c.hour : Int) :: (c.minute : Int) :: more, rest)) :
    parseWizardTime num mktime l g text = .ok (c.seconds - c.second + s - std - 3600 * (zoneHours l g + more[1]?.getD 0), rest) := by
  have hd := valid_day hc
  have hv := hc
  obtain ⟨h1, h2, h3, h4, h5, h6, h7⟩ := hc
  have hy1 := hy.1
  have hy2 := hy.2
  simp only [parseWizardTime, h]
  have hin : more.all inInt = true := by
    rw [List.all_eq_true]; intro v hv; have := hmore v hv; simp [inInt]; omega
  rw [if_pos]
  · have := hm { c with second := s } ⟨h1, h2, h3, h4, h5, h6, hs⟩ (fieldsTm (c.year :: (c.month : Int) :: (c.day : Int) :: (c.hour : Int) :: (c.minute : Int) :: more)) (by simp [fieldsTm, Civil.tm, hsec])
    rw [this]
    simp only [Res.ok.injEq, Prod.mk.injEq, List.getElem?_cons_succ, and_true]
    simp only [Civil.seconds]
    omega
  · refine ⟨?_, ?_, ?_⟩
    · simp only [List.all_cons, hin, inInt]; simp; omega
    · simp [inInt, fieldsTm]; omega
    · simp [inInt, fieldsTm]; omega

/-- What the parser makes of a timestamp with a zone behind UTC. -/
theorem parse_west {num : List Byte → Int × Nat} {mktime : Tm → Int} {std : Int} (hn : ReadsNumbers num) (hm : MakesTimes std mktime) {c : Civil} (hc : c.valid) (hy : FourDigits c)
    (l g : Tm) {h m : Nat} (hh : h < 100) (hmm : m < 100) :
    parseWizardTime num mktime l g (stamp c (asc '-') h m) = .ok (c.seconds - std - 3600 * (zoneHours l g + h), []) := by
  have := parse_fields hm hc hy l g (text := stamp c (asc '-') h m) (rest := []) (more := [(c.second : Int), h, m]) (s := c.second) hc.2.2.2.2.2.2
    (by have := hc.2.2.2.2.2.2; intro v hv; simp at hv; omega) (by simp) (by
      rw [stamp, List.append_assoc (_ ++ [asc ':']), fields_five hn hc hy]
      simp only [two, List.cons_append, List.nil_append]
      rw [field_step num _ _ _ _ _ _ (read_two hn (n := c.second) (by have := hc.2.2.2.2.2.2; omega) (by simp)) rfl,
        field_step num _ _ _ _ _ _ (read_two hn (n := h) hh (by simp)) rfl]
      have e := read_two hn (n := m) hmm (rest := []) (by simp)
      simp [timeFields, e])
  rw [this]
  simp only [List.getElem?_cons_succ, List.getElem?_cons_zero, Option.getD_some, Int.sub_add_cancel]

/-- What the parser makes of any other zone. -/
theorem parse_other {num : List Byte → Int × Nat} {mktime : Tm → Int} {std : Int} (hn : ReadsNumbers num) (hm : MakesTimes std mktime) {c : Civil} (hc : c.valid) (hy : FourDigits c)
    (l g : Tm) {z : Byte} (hz : z = asc '+' ∨ z = asc 'Z') (rest : List Byte) :
    parseWizardTime num mktime l g (four c.year.toNat ++ [asc '-'] ++ two c.month ++ [asc '-'] ++ two c.day ++ [asc 'T'] ++ two c.hour ++ [asc ':'] ++ two c.minute ++ [asc ':'] ++ two c.second ++ (z :: rest)) =
      .ok (c.seconds - c.second - std - 3600 * zoneHours l g, two c.second ++ (z :: rest)) := by
  have := parse_fields hm hc hy l g (text := four c.year.toNat ++ [asc '-'] ++ two c.month ++ [asc '-'] ++ two c.day ++ [asc 'T'] ++ two c.hour ++ [asc ':'] ++ two c.minute ++ [asc ':'] ++ two c.second ++ (z :: rest))
    (rest := two c.second ++ (z :: rest)) (more := []) (s := 0) (by omega) (by simp) (by simp) (by
      rw [List.append_assoc (_ ++ [asc ':']), fields_five hn hc hy, field_stop]
      simp only [two, List.cons_append, List.nil_append]
      rw [read_two hn (n := c.second) (by have := hc.2.2.2.2.2.2; omega) (by rcases hz with rfl | rfl <;> simp)]
      rcases hz with rfl | rfl <;> simp <;> decide)
  rw [this]
  simp

/-- **C130** A timestamp written in a zone some whole hours behind UTC, and read there, is read as the instant it denotes, and all of it is
read. -/
theorem C130_west_partial {num : List Byte → Int × Nat} {mktime : Tm → Int} (hn : ReadsNumbers num) {h : Nat} (hh : h < 100) (hm : MakesTimes (-(3600 * h : Int)) mktime)
    {l g : Tm} (hz : zoneHours l g = -(h : Int)) {c : Civil} (hc : c.valid) (hy : FourDigits c) :
    ∃ t, instant (stamp c (asc '-') h 0) = some t ∧ parseWizardTime num mktime l g (stamp c (asc '-') h 0) = .ok (t, []) := by
  refine ⟨_, instant_stamp hc hy hh (by omega) (.inr rfl), ?_⟩
  rw [parse_west hn hm hc hy l g hh (by omega), hz, if_neg (by decide)]
  congr 2
  omega

/-- **C130** In such a zone, reading what was written gives the same instant. -/
theorem C130_roundtrip_partial {num : List Byte → Int × Nat} {mktime : Tm → Int} (hn : ReadsNumbers num) {h : Nat} (h1 : 1 ≤ h) (h2 : h ≤ 24) (hm : MakesTimes (-(3600 * h : Int)) mktime)
    {t now : Int} {l g l' g' : Tm} (hl : IsTm l (t - 3600 * h)) (hg : IsTm g t) (hl' : IsTm l' (now - 3600 * h)) (hg' : IsTm g' now)
    (hy : 0 ≤ l.year + 1900 ∧ l.year + 1900 ≤ 9999) : parseWizardTime num mktime l' g' (formatWizardTime l g) = .ok (t, []) := by
  have zone : ∀ {t : Int} {a b : Civil}, a.valid → b.valid → a.seconds = t → b.seconds = t - 3600 * h → zoneHours (Civil.tm b) (Civil.tm a) = -(h : Int) := by
    intro t a b ha hb sa sb
    have hz := zoneHours_eq ha hb (off := -(3600 * h : Int)) (by rw [sa, sb]; omega) (by omega) (by omega)
    have a5 := ha.2.2.2.2
    have b5 := hb.2.2.2.2
    rw [seconds_eq] at sa sb
    omega
  obtain ⟨b, hb, sb, rfl⟩ := hl
  obtain ⟨a, ha, sa, rfl⟩ := hg
  obtain ⟨b', hb', sb', rfl⟩ := hl'
  obtain ⟨a', ha', sa', rfl⟩ := hg'
  have z1 := zone ha hb sa sb
  have z2 := zone ha' hb' sa' sb'
  show parseWizardTime num mktime (Civil.tm b') (Civil.tm a') (formatWizardTime (Civil.tm b) (Civil.tm a)) = _
  have hy' : FourDigits b := by simp only [FourDigits] at *; omega
  rw [format_stamp hb hy' (by rw [z1]; omega), z1, if_pos (by omega), parse_west hn hm hb hy' _ _ (by omega) (by omega), z2, sb]
  congr 2
  omega

/-- A reader of decimals is a `strtod` as above. -/
example : ReadsNumbers (fun p => let ds := p.takeWhile (fun b => 48 ≤ b.toNat && b.toNat ≤ 57); (((number ds).getD 0 : Nat), ds.length)) := by
  intro ds rest n _ _ hn hr
  have hd : ds.all (fun b => 48 ≤ b.toNat && b.toNat ≤ 57) = true := by
    simp only [number] at hn
    split at hn
    · assumption
    · cases hn
  have ht : (ds ++ rest).takeWhile (fun b => 48 ≤ b.toNat && b.toNat ≤ 57) = ds := by
    rw [List.takeWhile_append_of_pos (by simpa using hd)]
    cases rest with
    | nil => simp
    | cons b rest =>
      have hb := hr b rfl
      rw [List.takeWhile_cons_of_neg, List.append_nil]
      simp only [List.mem_cons, List.not_mem_nil, or_false] at hb
      rcases hb with rfl | rfl | rfl | rfl | rfl <;> decide
  simp [ht, hn]

/-- The seconds of a `struct tm` are a `mktime` as above. -/
example (std : Int) : MakesTimes std (fun tm => (Civil.mk (tm.year + 1900) (tm.mon + 1).toNat tm.mday.toNat tm.hour.toNat tm.min.toNat tm.sec.toNat).seconds - std) := by
  intro c hc tm h
  simp only [Civil.tm, Tm.mk.injEq] at h
  obtain ⟨h1, h2, h3, h4, h5, h6, _⟩ := h
  have := hc.1
  simp only [h1, h2, h3, h4, h5, h6, Int.sub_add_cancel, Int.toNat_natCast]

/-- **C130 is false** ahead of UTC: a timestamp read in the very zone it names loses its seconds and comes out `h` hours early; at UTC, where
the library writes `+00:00`, it loses its seconds. -/
theorem C130_east_violated {num : List Byte → Int × Nat} {mktime : Tm → Int} (hn : ReadsNumbers num) {h : Nat} (hh : h < 100) (hm : MakesTimes (3600 * h) mktime)
    {l g : Tm} (hz : zoneHours l g = (h : Int)) {c : Civil} (hc : c.valid) (hy : FourDigits c) :
    ∃ t, instant (stamp c (asc '+') h 0) = some t ∧
      parseWizardTime num mktime l g (stamp c (asc '+') h 0) = .ok (t - c.second - 3600 * h, two c.second ++ (asc '+' :: two h ++ [asc ':'] ++ two 0)) := by
  refine ⟨_, instant_stamp hc hy hh (by omega) (.inl rfl), ?_⟩
  rw [stamp, List.cons_append, List.cons_append, parse_other hn hm hc hy l g (.inl rfl), hz, if_pos rfl]
  congr 2
  omega

/-- **C130 is false** of timestamps of another zone: read at UTC, one written `h` hours behind UTC comes out `2h` hours early, and the minutes
of the zone do not count. -/
theorem C130_elsewhere_violated {num : List Byte → Int × Nat} {mktime : Tm → Int} (hn : ReadsNumbers num) (hm : MakesTimes 0 mktime) {l g : Tm} (hz : zoneHours l g = 0)
    {h m : Nat} (hh : h < 100) (hmm : m < 100) {c : Civil} (hc : c.valid) (hy : FourDigits c) :
    ∃ t, instant (stamp c (asc '-') h m) = some t ∧ parseWizardTime num mktime l g (stamp c (asc '-') h m) = .ok (t - 7200 * h - 60 * m, []) := by
  refine ⟨_, instant_stamp hc hy hh hmm (.inr rfl), ?_⟩
  rw [parse_west hn hm hc hy l g hh hmm, hz, if_neg (by decide)]
  congr 2
  omega

/-- **C130 is false** of numbers an `int` cannot hold: reading them is undefined. -/
theorem C130_huge_violated {num : List Byte → Int × Nat} (mktime : Tm → Int) (l g : Tm) {ds rest : List Byte} {v : Int} (hv : 2147483648 ≤ v)
    (hn : num (ds ++ asc '-' :: rest) = (v, ds.length)) : parseWizardTime num mktime l g (ds ++ asc '-' :: rest) = .ub := by
  have h := field_step num (asc '-') (timeSeparators.drop 1) (ds ++ asc '-' :: rest) rest v ds.length hn (by simp)
  rw [parseWizardTime, show timeSeparators = asc '-' :: timeSeparators.drop 1 from rfl, h]
  simp only []
  rw [if_neg]
  simp [inInt]
  omega

end Wizard.Props

import Verif.Spec.SiPrefix

/-! C178: numbers with units. -/
namespace Wizard.Props
open Wizard Wizard.Spec.SiPrefix

namespace SiPrefix

theorem digit_byte (d : Fin 10) : (BitVec.ofNat 8 (48 + d.val) : Byte).toNat = 48 + d.val := by
  have := d.isLt
  rw [BitVec.toNat_ofNat]; omega

/-- The text does not begin with a digit. -/
def NoDigit (t : List Byte) : Prop := ∀ b, t.head? = some b → ¬(48 ≤ b.toNat ∧ b.toNat ≤ 57)

theorem span_written (ds : Digits) (t : List Byte) (h : NoDigit t) : spanDigits (written ds ++ t) = (written ds, t) := by
  induction ds with
  | nil =>
    show spanDigits t = ([], t)
    cases t with
    | nil => rfl
    | cons b u => rw [spanDigits, if_neg (h b rfl)]
  | cons d ds ih =>
    show spanDigits (BitVec.ofNat 8 (48 + d.val) :: (written ds ++ t)) = _
    have := d.isLt
    rw [spanDigits, if_pos (by rw [digit_byte]; omega), ih]
    rfl

theorem value_written (ds : Digits) (n : Nat) : digitsValue n (written ds) = ds.foldl (fun n d => 10 * n + d.val) n := by
  induction ds generalizing n with
  | nil => rfl
  | cons d ds ih =>
    show digitsValue (10 * n + ((BitVec.ofNat 8 (48 + d.val) : Byte).toNat - 48)) (written ds) = _
    rw [digit_byte, ih]
    simp

/-- What follows the prefix. -/
def after (unit : Bool) (rest : List Byte) : List Byte := (if unit then [asc 'B'] else []) ++ rest

/-- What the unit and what follows it are to the reader. -/
structure Tail (u : List Char) (k : Nat) (unit : Bool) (rest tail : List Byte) (a c : Nat) : Prop where
  exponent : spanExponent tail = (0, tail)
  digit : NoDigit tail
  point : spanFraction tail = ([], tail)
  hex : ∀ b, tail.head? = some b → b ≠ asc 'x' ∧ b ≠ asc 'X'
  value : ∀ v, interpretPrefix v tail = ({ v with ten := v.ten + a, thirds := v.thirds + 3 * c }, after unit rest)
  factor : k = 2 ^ c * 10 ^ a

theorem after_head (unit : Bool) (rest : List Byte) (hr : Ends rest) (b : Byte) (hb : (after unit rest).head? = some b) : b = asc 'B' ∨ b.toNat < 43 := by
  cases unit with
  | true => exact Or.inl (Option.some.inj hb).symm
  | false => exact Or.inr (hr b hb)

theorem skip_rest (unit : Bool) (rest : List Byte) (hr : Ends rest) : skipUnit (after unit rest) = rest := by
  cases unit with
  | true => show (if asc 'B' = asc 'B' ∨ asc 'B' = asc 'P' then rest else asc 'B' :: rest) = rest; exact if_pos (Or.inl rfl)
  | false =>
    show skipUnit rest = rest
    cases rest with
    | nil => rfl
    | cons b t =>
      have := hr b rfl
      refine if_neg ?_
      rintro (rfl | rfl) <;> revert this <;> decide

/-- A byte that no reader takes. -/
def Plain (b : Byte) : Prop :=
  b ≠ asc 'e' ∧ b ≠ asc 'E' ∧ b ≠ asc '.' ∧ b ≠ asc 'x' ∧ b ≠ asc 'X' ∧ b ≠ asc 'i' ∧ b ≠ asc '-' ∧ b ≠ asc '+' ∧ ¬(48 ≤ b.toNat ∧ b.toNat ≤ 57) ∧ ¬(69 ≤ b.toNat ∧ b.toNat ≤ 122)

theorem plain_of (b : Byte) : b = asc 'B' ∨ b.toNat < 43 → Plain b := by
  unfold Plain
  revert b
  decide +kernel

/-- The reader of exponents takes nothing before a byte that is neither a digit nor a sign. -/
theorem exponent_none (p : Byte) (t : List Byte) (hd : NoDigit t) (hs : ∀ b, t.head? = some b → b ≠ asc '-' ∧ b ≠ asc '+') : spanExponent (p :: t) = (0, p :: t) := by
  have h1 : spanSign t = (false, t) := by
    cases t with
    | nil => rfl
    | cons b u => rw [spanSign, if_neg (hs b rfl).1, if_neg (hs b rfl).2]
  have h2 : (spanDigits t).1 = [] := by
    have := span_written [] t hd
    rw [show written [] ++ t = t from rfl] at this
    rw [this]; rfl
  simp only [spanExponent, h1, h2, if_true, ite_self]

/-- The letters of prefixes that multiply, and their exponents. -/
def letters : List (Char × Nat) := [('h', 2), ('k', 3), ('K', 3), ('M', 6), ('G', 9), ('T', 12), ('P', 15), ('E', 18), ('Z', 21), ('Y', 24)]

theorem letter_facts : ∀ x ∈ letters, (69 ≤ (asc x.1).toNat ∧ (asc x.1).toNat ≤ 122) ∧ prefixExponent (asc x.1) = (x.2 : Int) ∧ 1 ≤ x.2 ∧ asc x.1 ≠ asc '.' ∧ asc x.1 ≠ asc 'x' ∧
    asc x.1 ≠ asc 'X' := by decide +kernel

theorem factor_forms : ∀ y ∈ factor, y = ([], 1) ∨ (∃ x ∈ letters, y = ([x.1], 10 ^ x.2)) ∨ (∃ x ∈ letters, x.2 % 3 = 0 ∧ y = ([x.1, 'i'], 2 ^ (10 * (x.2 / 3)))) := by decide +kernel

theorem tail_ok (u : List Char) (k : Nat) (hu : (u, k) ∈ factor) (unit : Bool) (rest : List Byte) (hr : Ends rest) :
    ∃ a c, Tail u k unit rest (u.map asc ++ after unit rest) a c := by
  have hp : ∀ b, (after unit rest).head? = some b → Plain b := fun b hb => plain_of b (after_head unit rest hr b hb)
  generalize hs : after unit rest = s at *
  have hnd : NoDigit s := fun b hb => (hp b hb).2.2.2.2.2.2.2.2.1
  have hsg : ∀ b, s.head? = some b → b ≠ asc '-' ∧ b ≠ asc '+' := fun b hb => ⟨(hp b hb).2.2.2.2.2.2.1, (hp b hb).2.2.2.2.2.2.2.1⟩
  rcases factor_forms _ hu with h | ⟨x, hx, h⟩ | ⟨x, hx, h3, h⟩
  · cases h
    refine ⟨0, 0, ?_, hnd, ?_, fun b hb => ⟨(hp b hb).2.2.2.1, (hp b hb).2.2.2.2.1⟩, fun v => ?_, rfl⟩
    · show spanExponent s = (0, s)
      cases s with
      | nil => rfl
      | cons b t => rw [spanExponent.eq_def]; exact if_neg (by rintro (h | h); exact (hp b rfl).1 h; exact (hp b rfl).2.1 h)
    · show spanFraction s = ([], s)
      cases s with
      | nil => rfl
      | cons b t => exact if_neg (hp b rfl).2.2.1
    · show interpretPrefix v s = (_, after unit rest)
      rw [hs]
      have hv : ({ v with ten := v.ten + ((0 : Nat) : Int), thirds := v.thirds + 3 * 0 } : SiNum) = v := by cases v; simp
      rw [hv]
      cases s with
      | nil => rfl
      | cons b t => exact if_neg (hp b rfl).2.2.2.2.2.2.2.2.2
  · obtain ⟨f1, f2, f3, f4, f5, f6⟩ := letter_facts x hx
    cases h
    refine ⟨x.2, 0, exponent_none _ _ hnd hsg, ?_, if_neg f4, ?_, fun v => ?_, by simp⟩
    · intro b hb
      cases hb
      omega
    · intro b hb
      cases hb
      exact ⟨f5, f6⟩
    · show interpretPrefix v (asc x.1 :: s) = (_, after unit rest)
      rw [hs, interpretPrefix.eq_def]
      simp only []
      rw [if_pos f1, f2, if_pos (by omega)]
      cases s with
      | nil => rfl
      | cons b t => exact if_neg (hp b rfl).2.2.2.2.2.1
  · obtain ⟨f1, f2, f3, f4, f5, f6⟩ := letter_facts x hx
    cases h
    refine ⟨0, 10 * (x.2 / 3), exponent_none _ _ ?_ ?_, ?_, if_neg f4, ?_, fun v => ?_, by simp⟩
    · intro b hb
      cases hb
      decide
    · intro b hb
      cases hb
      decide
    · intro b hb
      cases hb
      omega
    · intro b hb
      cases hb
      exact ⟨f5, f6⟩
    · show interpretPrefix v (asc x.1 :: asc 'i' :: s) = (_, after unit rest)
      rw [hs, interpretPrefix.eq_def]
      simp only []
      rw [if_pos f1, f2, if_pos (by omega), if_pos trivial]
      have : 10 * (x.2 : Int).toNat = 3 * (10 * (x.2 / 3)) := by omega
      rw [this]
      simp

end SiPrefix

open SiPrefix

/-- **C178** (partial: numbers in decimal notation without an exponent, prefixes that multiply).  A number with or without a sign and a fraction, then a prefix that multiplies or none,
then `B` or not, means the number times what the prefix stands for, and is read as a whole and no further. -/
theorem C178_value_partial (sign : Option Bool) (w f : Digits) (hw : w ≠ []) (u : List Char) (k : Nat) (hu : (u, k) ∈ factor) (unit : Bool) (rest : List Byte) (hr : Ends rest) :
    ∃ v, interpretSi ((match sign with | none => [] | some true => [asc '-'] | some false => [asc '+']) ++ written w ++ (if f = [] then [] else asc '.' :: written f) ++ u.map asc ++
        (if unit then [asc 'B'] else []) ++ rest) = (v, rest) ∧
      Is v ((if sign = some true then -1 else 1) * (number (w ++ f) : Int) * k) (10 ^ f.length) := by
  obtain ⟨a, c, tl⟩ := tail_ok u k hu unit rest hr
  have htext : ∀ s : List Byte, s ++ written w ++ (if f = [] then [] else asc '.' :: written f) ++ u.map asc ++ (if unit then [asc 'B'] else []) ++ rest =
      s ++ (written w ++ ((if f = [] then [] else asc '.' :: written f) ++ (u.map asc ++ after unit rest))) := fun s => by simp only [after, List.append_assoc]
  rw [htext]
  generalize hT : u.map asc ++ after unit rest = T at *
  -- the digits before the point
  have hnd : NoDigit ((if f = [] then [] else asc '.' :: written f) ++ T) := by
    by_cases hf : f = []
    · rw [if_pos hf]; exact tl.digit
    · rw [if_neg hf]
      intro b hb
      cases hb
      decide
  have hfr : spanFraction ((if f = [] then [] else asc '.' :: written f) ++ T) = (written f, T) := by
    by_cases hf : f = []
    · rw [if_pos hf, hf]; exact tl.point
    · rw [if_neg hf]
      show (if asc '.' = asc '.' then spanDigits (written f ++ T) else ([], asc '.' :: (written f ++ T))) = _
      rw [if_pos rfl]
      exact span_written f T tl.digit
  have hw' : written w ≠ [] := fun h => hw (List.map_eq_nil_iff.1 h)
  have hdec : ∀ (s : List Byte) (n : Bool), spanSign (s ++ (written w ++ ((if f = [] then [] else asc '.' :: written f) ++ T))) =
        (n, written w ++ ((if f = [] then [] else asc '.' :: written f) ++ T)) →
      readDecimal (s ++ (written w ++ ((if f = [] then [] else asc '.' :: written f) ++ T))) = some (⟨n, number (w ++ f), 0 - f.length, 0⟩, T) := by
    intro s n h
    simp only [readDecimal, h, span_written w _ hnd, hfr, tl.exponent]
    rw [if_neg (fun h => hw' h.1)]
    have : digitsValue 0 (written w ++ written f) = number (w ++ f) := by
      rw [show written w ++ written f = written (w ++ f) by simp [written], value_written]; rfl
    rw [this, show (written f).length = f.length by simp [written]]
  -- no hexadecimal number
  have hloc : ∀ (s : List Byte), (s = [] ∨ s = [asc '-'] ∨ s = [asc '+']) →
      interpretLocale (s ++ (written w ++ ((if f = [] then [] else asc '.' :: written f) ++ T))) = readDecimal (s ++ (written w ++ ((if f = [] then [] else asc '.' :: written f) ++ T))) := by
    intro s hs
    have hx : ∀ (z : Byte) (y : List Byte), (∀ b, y.head? = some b → z = asc '0' → b ≠ asc 'x' ∧ b ≠ asc 'X') → interpretLocale (z :: y) = readDecimal (z :: y) := by
      intro z y hy
      cases y with
      | nil => rfl
      | cons b t =>
        rw [interpretLocale.eq_def]
        simp only []
        refine if_neg ?_
        rintro ⟨hz, hb | hb⟩
        · exact (hy b rfl hz).1 hb
        · exact (hy b rfl hz).2 hb
    rcases hs with rfl | rfl | rfl
    · cases w with
      | nil => exact absurd rfl hw
      | cons d ds =>
        refine hx (BitVec.ofNat 8 (48 + d.val)) (written ds ++ ((if f = [] then [] else asc '.' :: written f) ++ T)) (fun b hb _ => ?_)
        cases ds with
        | cons e es =>
          cases hb
          have hd : ∀ d : Fin 10, (BitVec.ofNat 8 (48 + d.val) : Byte) ≠ asc 'x' ∧ (BitVec.ofNat 8 (48 + d.val) : Byte) ≠ asc 'X' := by decide +kernel
          exact hd e
        | nil =>
          by_cases hf : f = []
          · rw [if_pos hf] at hb
            exact tl.hex b hb
          · rw [if_neg hf] at hb
            cases hb
            decide
    · exact hx _ _ (fun b _ h => absurd h (by decide))
    · exact hx _ _ (fun b _ h => absurd h (by decide))
  have hfirst : spanSign (written w ++ ((if f = [] then [] else asc '.' :: written f) ++ T)) = (false, written w ++ ((if f = [] then [] else asc '.' :: written f) ++ T)) := by
    cases w with
    | nil => exact absurd rfl hw
    | cons d ds =>
      have hd : ∀ d : Fin 10, (BitVec.ofNat 8 (48 + d.val) : Byte) ≠ asc '-' ∧ (BitVec.ofNat 8 (48 + d.val) : Byte) ≠ asc '+' := by decide +kernel
      rw [show written (d :: ds) = BitVec.ofNat 8 (48 + d.val) :: written ds from rfl, List.cons_append, spanSign, if_neg (hd d).1, if_neg (hd d).2]
  have fin : ∀ (s : List Byte) (n : Bool), (s = [] ∨ s = [asc '-'] ∨ s = [asc '+']) → spanSign (s ++ (written w ++ ((if f = [] then [] else asc '.' :: written f) ++ T))) =
        (n, written w ++ ((if f = [] then [] else asc '.' :: written f) ++ T)) →
      ∃ v, interpretSi (s ++ (written w ++ ((if f = [] then [] else asc '.' :: written f) ++ T))) = (v, rest) ∧
        Is v ((if n then -1 else 1) * (number (w ++ f) : Int) * k) (10 ^ f.length) := by
    intro s n hs h
    refine ⟨⟨n, number (w ++ f), 0 - f.length + a, 0 + 3 * c⟩, ?_, ?_, ?_⟩
    · rw [interpretSi, hloc s hs, hdec s n h]
      simp only []
      rw [tl.value]
      exact Prod.ext rfl (skip_rest unit rest hr)
    · show (0 + 3 * c) % 3 = 0
      omega
    · show (if n then -1 else 1) * (number (w ++ f) : Int) * 2 ^ ((0 + 3 * c) / 3) * 10 ^ (0 - (f.length : Int) + a).toNat * ((10 ^ f.length : Nat) : Int) =
        (if n then -1 else 1) * (number (w ++ f) : Int) * k * 10 ^ (-(0 - (f.length : Int) + a)).toNat
      rw [show (0 + 3 * c) / 3 = c by omega, tl.factor]
      have e : (10 : Int) ^ (0 - (f.length : Int) + a).toNat * (10 : Int) ^ f.length = (10 : Int) ^ a * (10 : Int) ^ (-(0 - (f.length : Int) + a)).toNat := by
        rw [← Int.pow_add, ← Int.pow_add]
        congr 1
        omega
      push_cast
      rw [Int.mul_assoc _ ((10 : Int) ^ (0 - (f.length : Int) + a).toNat), e]
      simp only [Int.mul_assoc]
  cases sign with
  | none => simpa using fin [] false (Or.inl rfl) hfirst
  | some b =>
    cases b with
    | true => simpa using fin [asc '-'] true (Or.inr (Or.inl rfl)) rfl
    | false => simpa using fin [asc '+'] false (Or.inr (Or.inr rfl)) rfl

/-- The letters of prefixes that divide are none that a reader of numbers takes. -/
theorem small_facts : ∀ y ∈ divisor, asc y.1 ≠ asc 'e' ∧ asc y.1 ≠ asc 'E' ∧ asc y.1 ≠ asc '.' ∧ asc y.1 ≠ asc 'x' ∧ asc y.1 ≠ asc 'X' ∧ asc y.1 ≠ asc 'B' ∧ asc y.1 ≠ asc 'P' ∧
    ¬(48 ≤ (asc y.1).toNat ∧ (asc y.1).toNat ≤ 57) ∧ ¬1 ≤ prefixExponent (asc y.1) ∧ 2 ≤ y.2 := by decide +kernel

/-- The plain number before a letter that is not read. -/
theorem plain_number (w : Digits) (hw : w ≠ []) (b : Byte) (t : List Byte) (h : b ≠ asc 'e' ∧ b ≠ asc 'E' ∧ b ≠ asc '.' ∧ b ≠ asc 'x' ∧ b ≠ asc 'X' ∧
    ¬(48 ≤ b.toNat ∧ b.toNat ≤ 57)) : interpretLocale (written w ++ b :: t) = some (⟨false, number w, 0, 0⟩, b :: t) := by
  obtain ⟨h1, h2, h3, h4, h5, h6⟩ := h
  have hd : ∀ d : Fin 10, (BitVec.ofNat 8 (48 + d.val) : Byte) ≠ asc '-' ∧ (BitVec.ofNat 8 (48 + d.val) : Byte) ≠ asc '+' ∧ (BitVec.ofNat 8 (48 + d.val) : Byte) ≠ asc 'x' ∧
      (BitVec.ofNat 8 (48 + d.val) : Byte) ≠ asc 'X' := by decide +kernel
  have hr : readDecimal (written w ++ b :: t) = some (⟨false, number w, 0, 0⟩, b :: t) := by
    have hs : spanSign (written w ++ b :: t) = (false, written w ++ b :: t) := by
      cases w with
      | nil => exact absurd rfl hw
      | cons d ds => rw [show written (d :: ds) = BitVec.ofNat 8 (48 + d.val) :: written ds from rfl, List.cons_append, spanSign, if_neg (hd d).1, if_neg (hd d).2.1]
    have hf : spanFraction (b :: t) = ([], b :: t) := if_neg h3
    have he : spanExponent (b :: t) = (0, b :: t) := by
      rw [spanExponent.eq_def]
      exact if_neg (by rintro (h | h); exact h1 h; exact h2 h)
    simp only [readDecimal, hs, span_written w (b :: t) (fun c hc => by cases hc; exact h6), hf, he]
    rw [if_neg (fun h => hw (List.map_eq_nil_iff.1 h.1)), List.append_nil, value_written]
    rfl
  cases w with
  | nil => exact absurd rfl hw
  | cons d ds =>
    rw [← hr]
    show interpretLocale (BitVec.ofNat 8 (48 + d.val) :: (written ds ++ b :: t)) = readDecimal (BitVec.ofNat 8 (48 + d.val) :: (written ds ++ b :: t))
    cases ds with
    | nil =>
      rw [interpretLocale.eq_def]
      exact if_neg (by rintro ⟨-, h | h⟩; exact h4 h; exact h5 h)
    | cons e es =>
      rw [interpretLocale.eq_def]
      exact if_neg (by rintro ⟨-, h | h⟩; exact (hd e).2.2.1 h; exact (hd e).2.2.2 h)

/-- **C178** (violated).  Prefixes that divide, which the table has, are neither applied nor read: `5m` is 5, whatever the number and whatever follows; `-chunksize` then takes the number as
it is and ignores the rest. -/
theorem C178_small_violated (w : Digits) (hw : w ≠ []) (c : Char) (k : Nat) (hc : (c, k) ∈ divisor) (rest : List Byte) (hn : number w ≠ 0) :
    interpretSi (written w ++ asc c :: rest) = (⟨false, number w, 0, 0⟩, asc c :: rest) ∧ ¬Is ⟨false, number w, 0, 0⟩ (number w) k := by
  obtain ⟨h1, h2, h3, h4, h5, h6, h7, h8, h9, h10⟩ := small_facts _ hc
  refine ⟨?_, ?_⟩
  · rw [interpretSi, plain_number w hw _ _ ⟨h1, h2, h3, h4, h5, h8⟩]
    have hp : interpretPrefix ⟨false, number w, 0, 0⟩ (asc c :: rest) = (⟨false, number w, 0, 0⟩, asc c :: rest) := by
      rw [interpretPrefix.eq_def]
      simp only []
      rw [if_neg h9, ite_self]
    simp only [hp]
    exact Prod.ext rfl (if_neg (by rintro (h | h); exact h6 h; exact h7 h))
  · rintro ⟨-, h⟩
    have h' : (number w : Int) * k = number w := by simpa using h
    have h'' : number w * k = number w * 1 := by rw [Nat.mul_one]; exact_mod_cast h'
    have := Nat.eq_of_mul_eq_mul_left (Nat.pos_of_ne_zero hn) h''
    have h10' : 2 ≤ k := h10
    omega

/-- **C178** (violated).  With `hi`, which is no prefix, a number is multiplied with two to the power of twenty thirds, and a `P` after a prefix is taken for the unit. -/
theorem C178_odd_violated (w : Digits) (hw : w ≠ []) (rest : List Byte) (hr : Ends rest) :
    interpretSi (written w ++ asc 'h' :: asc 'i' :: rest) = (⟨false, number w, 0, 20⟩, rest) ∧ (∀ p q, ¬Is ⟨false, number w, 0, 20⟩ p q) ∧
      interpretSi (written w ++ asc 'K' :: asc 'P' :: rest) = (⟨false, number w, 3, 0⟩, rest) := by
  refine ⟨?_, fun p q h => absurd (show 20 % 3 = 0 from h.1) (by decide), ?_⟩
  · rw [interpretSi, plain_number w hw _ _ (by decide)]
    have hp : interpretPrefix ⟨false, number w, 0, 0⟩ (asc 'h' :: asc 'i' :: rest) = (⟨false, number w, 0, 20⟩, rest) := rfl
    simp only [hp]
    exact Prod.ext rfl (skip_rest false rest hr)
  · rw [interpretSi, plain_number w hw _ _ (by decide)]
    rfl

/-- A fraction of mebibytes, as `-chunksize` takes it. -/
example : interpretSi ([49, 46, 53] ++ [asc 'M', asc 'i', asc 'B']) = (⟨false, 15, -1, 60⟩, []) ∧ Is ⟨false, 15, -1, 60⟩ (15 * 1024 ^ 2) 10 := by
  refine ⟨by decide +kernel, rfl, by decide +kernel⟩

end Wizard.Props

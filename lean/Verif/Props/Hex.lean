import Verif.Model.Hex
/-! C01: hexadecimal text round trip. -/
namespace Wizard.Props
open Wizard

/-- Lower-case hexadecimal digits, as the user sees them. -/
def IsLowerHex (c : Byte) : Prop :=
  (asc '0' ≤ c ∧ c ≤ asc '9') ∨ (asc 'a' ≤ c ∧ c ≤ asc 'f')

instance (c : Byte) : Decidable (IsLowerHex c) := by unfold IsLowerHex; infer_instance

/-- Upper-case of an ASCII letter. -/
def asciiUpper (c : Byte) : Byte :=
  if asc 'a' ≤ c ∧ c ≤ asc 'z' then c - 0x20 else c

/-- Lower-case of an ASCII letter. -/
def asciiLower (c : Byte) : Byte :=
  if asc 'A' ≤ c ∧ c ≤ asc 'Z' then c + 0x20 else c

/-- A hexadecimal digit in either case. -/
def IsHex (c : Byte) : Prop := IsLowerHex (asciiLower c)

instance (c : Byte) : Decidable (IsHex c) := by unfold IsHex; infer_instance

theorem hex_byte_in_out : ∀ b : Byte,
    (hexDigitIn (hexDigitOut ((b >>> 4) &&& 0x0f)) <<< 4) |||
      hexDigitIn (hexDigitOut (b &&& 0x0f)) = b := by decide +kernel

theorem hex_byte_upper : ∀ b : Byte,
    (hexDigitIn (asciiUpper (hexDigitOut ((b >>> 4) &&& 0x0f))) <<< 4) |||
      hexDigitIn (asciiUpper (hexDigitOut (b &&& 0x0f))) = b := by decide +kernel

theorem hex_out_lower : ∀ b : Byte, IsLowerHex (hexDigitOut ((b >>> 4) &&& 0x0f)) ∧
    IsLowerHex (hexDigitOut (b &&& 0x0f)) := by decide +kernel

/-- **C01** Text back to bytes returns the original bytes. -/
theorem C01_hex_round_trip (s : List Byte) :
    hexStringToStringInfo (stringInfoToHexString s) = s := by
  induction s with
  | nil => rfl
  | cons b bs ih => simp only [stringInfoToHexString, hexStringToStringInfo, ih, hex_byte_in_out]

/-- **C01** Upper-casing the text does not change what it decodes to. -/
theorem C01_hex_upper_case (s : List Byte) :
    hexStringToStringInfo ((stringInfoToHexString s).map asciiUpper) = s := by
  induction s with
  | nil => rfl
  | cons b bs ih => simp only [stringInfoToHexString, List.map_cons, hexStringToStringInfo, ih, hex_byte_upper]

/-- **C01** Two lower-case digits per byte. -/
theorem C01_hex_text_shape (s : List Byte) :
    (stringInfoToHexString s).length = 2 * s.length ∧
      ∀ c ∈ stringInfoToHexString s, IsLowerHex c := by
  induction s with
  | nil => simp [stringInfoToHexString]
  | cons b bs ih =>
    refine ⟨by simp [stringInfoToHexString, ih.1]; omega, ?_⟩
    intro c hc
    simp only [stringInfoToHexString, List.mem_cons] at hc
    rcases hc with h | h | h
    · exact h ▸ (hex_out_lower b).1
    · exact h ▸ (hex_out_lower b).2
    · exact ih.2 c h

theorem hex_digit_value : ∀ c : Byte, IsHex c →
    (hexDigitIn c).toNat < 16 ∧ hexDigitOut (hexDigitIn c) = asciiLower c := by decide +kernel

theorem hex_nibbles : ∀ b : Byte, b.toNat < 16 → ((b <<< 4) >>> 4) &&& 0x0f = b ∧
    (b <<< 4) &&& 0x0f = 0 ∧ b &&& 0x0f = b ∧ (b >>> 4) = 0 := by decide +kernel

/-- **C01** Conversely a text of an even number of hex digits (either case) is, up to lower-casing,
the text of the bytes it decodes to. -/
theorem C01_hex_text_round_trip (t : List Byte) (heven : t.length % 2 = 0)
    (hhex : ∀ c ∈ t, IsHex c) :
    stringInfoToHexString (hexStringToStringInfo t) = t.map asciiLower := by
  fun_induction hexStringToStringInfo t with
  | case1 a b rest ih =>
    have ha := hex_digit_value a (hhex a (by simp))
    have hb := hex_digit_value b (hhex b (by simp))
    have na := hex_nibbles _ ha.1
    have nb := hex_nibbles _ hb.1
    have h1 : ((hexDigitIn a <<< 4 ||| hexDigitIn b) >>> 4) &&& 0x0f = hexDigitIn a := by
      rw [BitVec.ushiftRight_or_distrib, nb.2.2.2]; simpa using na.1
    have h2 : (hexDigitIn a <<< 4 ||| hexDigitIn b) &&& 0x0f = hexDigitIn b := by
      have : ∀ x y z : Byte, (x ||| y) &&& z = (x &&& z) ||| (y &&& z) := by
        intro x y z; ext i; simp [Bool.and_or_distrib_right]
      rw [this, na.2.1, nb.2.2.1]; simp
    have hr : rest.length % 2 = 0 := by simp at heven; omega
    simp only [stringInfoToHexString, h1, h2, ha.2, hb.2, List.map_cons,
      ih hr (fun c hc => hhex c (by simp [hc]))]
  | case2 t hne =>
    match t, hne with
    | [], _ => rfl
    | [a], _ => simp at heven
    | a :: b :: r, hne => exact absurd rfl (hne a b r)

example : hexStringToStringInfo ([asc 'D', asc 'e'] ++ [asc 'A', asc 'd']) = [0xde, 0xad] := by
  decide
example : ([asc 'D', asc 'e', asc 'A', asc 'd'] : List Byte).length % 2 = 0 ∧
    ∀ c ∈ [asc 'D', asc 'e', asc 'A', asc 'd'], IsHex c := by decide

end Wizard.Props

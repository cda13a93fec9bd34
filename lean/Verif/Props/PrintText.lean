import Verif.Spec.PrintText
import Verif.Lemmas.Packet

/-! C179: printing strings. -/
namespace Wizard.Props
open Wizard Wizard.Spec.PrintText

namespace PrintText

theorem print_short (junk text : List Byte) (hj : junk.length = wizardPathExtent) (ht : text.length < wizardPathExtent) : printWizardString junk text = .ok text := by
  have h1 : text.take (wizardPathExtent - 1) = text := List.take_of_length_le (by omega)
  simp only [printWizardString, h1, rdN]
  rw [if_pos (by simp only [List.length_append, List.length_cons, List.length_nil, List.length_drop, hj]; omega)]
  simp

theorem text_iff (datum : List Byte) : datum.all textByte = true ↔ IsText datum := by
  have key : ∀ b : Byte, textByte b = true ↔ ((9 ≤ b.toNat ∧ b.toNat ≤ 13) ∨ (32 ≤ b.toNat ∧ b.toNat ≤ 127)) := by decide +kernel
  rw [List.all_eq_true]
  exact ⟨fun h b hb => (key b).1 (h b hb), fun h b hb => (key b).2 (h b hb)⟩

theorem pair_digits : ∀ b : Byte, hexPair b = twoDigits b := by decide +kernel

theorem print_bytes (junk : List Byte) (hj : junk.length = wizardPathExtent) (form : Byte → List Byte) (hf : ∀ b, (form b).length ≤ 2) (datum : List Byte) :
    printBytes junk form datum = .ok (datum.flatMap form) := by
  have hw : wizardPathExtent = 4096 := rfl
  induction datum with
  | nil => rfl
  | cons b t ih =>
    have := hf b
    rw [printBytes, print_short junk (form b) hj (by omega), ih]
    rfl

theorem flatMap_self (l : List Byte) : (l.flatMap fun b => [b]) = l := by
  induction l with
  | nil => rfl
  | cons b t ih => rw [List.flatMap_cons, ih]; rfl

theorem header_length (id : List Byte) (n : Nat) (hn : n < 2 ^ 53) : (id ++ [asc '('] ++ decText n ++ [asc ')', asc ':', 10]).length ≤ id.length + 20 := by
  have := decText_length 15 n (by omega)
  simp only [List.length_append, List.length_cons, List.length_nil]
  omega

end PrintText

open PrintText

/-- **C179** (partial: names of fewer than 4076 bytes).  Of every string of any length and content its name, length and bytes are printed: as they are if they all are text, else as
hexadecimal digits. -/
theorem C179_shows_partial (junk id datum : List Byte) (hj : junk.length = wizardPathExtent) (hid : id.length + 20 < wizardPathExtent) (hn : datum.length < 2 ^ 53) :
    ∃ out, printStringInfo junk id datum = .ok out ∧ Shows id datum out := by
  have hh := header_length id datum.length hn
  have h1 := print_short junk _ hj (Nat.lt_of_le_of_lt hh hid)
  have h3 := print_short junk [10] hj (show 1 < 4096 by decide)
  by_cases ht : IsText datum
  · have h2 := print_bytes junk hj (fun b => [b]) (fun _ => Nat.le_succ 1) datum
    rw [flatMap_self] at h2
    refine ⟨_, ?_, .text ht⟩
    rw [printStringInfo, h1, if_pos ((text_iff datum).2 ht), h2, h3]
    rfl
  · have h2 := print_bytes junk hj hexPair (fun _ => Nat.le_refl 2) datum
    refine ⟨_, ?_, .bytes ht⟩
    rw [printStringInfo, h1, if_neg (fun h => ht ((text_iff datum).1 h)), h2, h3, show hexPair = twoDigits from funext pair_digits]
    rfl

namespace PrintText

/-- Before the first of a byte. -/
theorem split_first {c : Byte} {a b x y : List Byte} (ha : c ∉ a) (hb : c ∉ b) (h : a ++ c :: x = b ++ c :: y) : a = b ∧ x = y := by
  induction a generalizing b with
  | nil =>
    cases b with
    | nil => exact ⟨rfl, (List.cons.inj h).2⟩
    | cons e b => exact absurd ((List.cons.inj h).1 ▸ List.mem_cons_self) hb
  | cons d a ih =>
    cases b with
    | nil => exact absurd ((List.cons.inj h).1 ▸ List.mem_cons_self) ha
    | cons e b =>
      obtain ⟨h1, h2⟩ := List.cons.inj h
      obtain ⟨h3, h4⟩ := ih (fun hm => ha (List.mem_cons_of_mem _ hm)) (fun hm => hb (List.mem_cons_of_mem _ hm)) h2
      exact ⟨by rw [h1, h3], h4⟩

theorem two_inj : ∀ b : Byte, ((twoDigits b).map fun x => if x.toNat < 58 then x.toNat - 48 else x.toNat - 87).foldl (fun n d => 16 * n + d) 0 = b.toNat := by decide +kernel

theorem flat_inj (s t : List Byte) (h : s.flatMap twoDigits = t.flatMap twoDigits) : s = t := by
  induction s generalizing t with
  | nil =>
    cases t with
    | nil => rfl
    | cons b t => exact absurd h (by simp [twoDigits])
  | cons a s ih =>
    cases t with
    | nil => exact absurd h (by simp [twoDigits])
    | cons b t =>
      rw [List.flatMap_cons, List.flatMap_cons] at h
      obtain ⟨h1, h2⟩ := List.append_inj h rfl
      have hab : a = b := BitVec.eq_of_toNat_eq (by rw [← two_inj a, ← two_inj b, h1])
      rw [hab, ih t h2]

theorem flat_length (s : List Byte) : (s.flatMap twoDigits).length = 2 * s.length := by
  induction s with
  | nil => rfl
  | cons a s ih => rw [List.flatMap_cons, List.length_append, ih, List.length_cons, show (twoDigits a).length = 2 from rfl]; omega

theorem paren_not (n : Nat) : asc ')' ∉ decText n := fun h => absurd (decText_bytes n _ h).1 (by decide +kernel)

/-- The length and the bytes are told by what is printed. -/
theorem parts {id s t bs bt : List Byte} (h : id ++ [asc '('] ++ decText s.length ++ [asc ')', asc ':', 10] ++ bs ++ [10] =
    id ++ [asc '('] ++ decText t.length ++ [asc ')', asc ':', 10] ++ bt ++ [10]) : s.length = t.length ∧ bs = bt := by
  simp only [List.append_assoc] at h
  have h' := List.append_cancel_left (List.append_cancel_left h)
  obtain ⟨h1, h2⟩ := split_first (c := asc ')') (x := asc ':' :: 10 :: (bs ++ [10])) (y := asc ':' :: 10 :: (bt ++ [10])) (paren_not _) (paren_not _) h'
  refine ⟨?_, ?_⟩
  · rw [← decText_val s.length, h1, decText_val]
  · exact List.append_cancel_right (List.cons.inj (List.cons.inj h2).2).2

end PrintText

/-- **C179**.  Two strings of which the same is printed under one name are the same: hexadecimal digits are never taken for text. -/
theorem C179_tells (id s t out : List Byte) (hs : Shows id s out) (ht : Shows id t out) : s = t := by
  have hmix : ∀ x y : List Byte, x.length = y.length → x = y.flatMap twoDigits → x = y := by
    intro x y hl h
    have h2 := congrArg List.length h
    rw [flat_length] at h2
    have hx : x.length = 0 := by omega
    have hy : y.length = 0 := by omega
    rw [List.length_eq_zero_iff.1 hx, List.length_eq_zero_iff.1 hy]
  generalize hout : out = o at ht
  cases hs with
  | text _ =>
    cases ht with
    | text _ => exact (parts hout).2
    | bytes _ => obtain ⟨h1, h2⟩ := parts hout; exact hmix s t h1 h2
  | bytes _ =>
    cases ht with
    | text _ => obtain ⟨h1, h2⟩ := parts hout; exact (hmix t s h1.symm h2.symm).symm
    | bytes _ => exact flat_inj s t (parts hout).2

/-- **C179** (violated).  A name of 4096 bytes or more makes `PrintStringInfo` write bytes from behind the array that the text is formatted in: as many are written as the text has,
although only those that fit were formatted.  `PrintWizardString` does so with every text of more than 4096 bytes, and ends one of exactly 4096 with a NUL. -/
theorem C179_long_violated (junk id datum : List Byte) (hj : junk.length = wizardPathExtent) (hid : wizardPathExtent ≤ id.length) :
    printStringInfo junk id datum = .ub ∧ (∀ text : List Byte, wizardPathExtent < text.length → printWizardString junk text = .ub) ∧
      ∀ text : List Byte, text.length = wizardPathExtent → printWizardString junk text = .ok (text.take (wizardPathExtent - 1) ++ [0]) := by
  have hw : wizardPathExtent = 4096 := rfl
  have key : ∀ text : List Byte, wizardPathExtent < text.length → printWizardString junk text = .ub := by
    intro text ht
    refine if_neg ?_
    simp only [List.length_append, List.length_take, List.length_cons, List.length_nil, List.length_drop, hj]
    omega
  refine ⟨?_, key, fun text ht => ?_⟩
  · rw [printStringInfo, key _ (by simp only [List.length_append, List.length_cons, List.length_nil]; omega)]
    rfl
  · have hl : (text.take (wizardPathExtent - 1)).length = wizardPathExtent - 1 := by rw [List.length_take]; omega
    have hd : junk.drop ((text.take (wizardPathExtent - 1)).length + 1) = [] := List.drop_eq_nil_of_le (by omega)
    simp only [printWizardString, rdN, hd, List.append_nil, List.drop_zero]
    rw [if_pos (by simp only [List.length_append, List.length_cons, List.length_nil, hl]; omega)]
    exact congrArg Res.ok (List.take_of_length_le (by simp only [List.length_append, List.length_cons, List.length_nil, hl]; omega))

/-- A text of two lines, and a string that is none. -/
example : Shows [asc 'k'] [asc 'a', 10] ([asc 'k', asc '('] ++ decText 2 ++ [asc ')', asc ':', 10, asc 'a', 10, 10]) ∧ ¬IsText [0, 255] := by
  have h : IsText [asc 'a', 10] := by intro b hb; revert b; decide +kernel
  have h2 := Shows.text (id := [asc 'k']) h
  simp only [List.append_assoc] at h2 ⊢
  exact ⟨h2, fun h => absurd (h 0 (by simp)) (by decide)⟩

end Wizard.Props

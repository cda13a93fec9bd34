import Verif.Lemmas.Copy
/-! C05: bounded copy and append. -/
namespace Wizard.Props
open Wizard

/-- **C05** `CopyWizardString` into a buffer of at least `length > 0` bytes: no access outside the
source string or the buffer, the buffer starts with the longest prefix of the source that fits in
`length-1` bytes followed by a NUL, and every later byte is untouched. -/
theorem C05_copy (dst s t : List Byte) (length : Nat) (hs : (0 : Byte) ∉ s)
    (hpos : 0 < length) (hbuf : length ≤ dst.length) :
    ∃ ret, copyWizardString dst (s ++ 0 :: t) length =
      .ok (s.take (length - 1) ++ 0 :: dst.drop (min s.length (length - 1) + 1), ret) := by
  rw [copyWizardString_eq _ _ _ (by omega), copySteps_spec s t hs _ _ _ (by omega) (by omega)]
  split
  · rename_i h
    refine ⟨s.length, ?_⟩
    simp only [Res.ok_bind, Res.pure_eq]
    rw [List.take_of_length_le (by omega), Nat.min_eq_left (by omega)]
    simp [overwrite]
  · rename_i h
    simp only [Res.ok_bind, Res.pure_eq, Nat.zero_add]
    have hl : (overwrite dst 0 ((s.drop 0).take (length - 1))).length = dst.length := by
      simp [overwrite]; omega
    simp only [wr]
    rw [if_pos (by rw [hl]; omega)]
    refine ⟨(length - 1 + sizeMax - 1) % sizeMax, ?_⟩
    simp only [Res.ok_bind]
    congr 2
    simp only [overwrite, List.take_zero, List.nil_append, List.drop_zero, Nat.zero_add]
    rw [List.set_append_right _ _ (by simp; omega)]
    have e : (List.take (length - 1) s).length = length - 1 := by simp; omega
    rw [e, Nat.sub_self, Nat.min_eq_right (by omega),
      List.drop_eq_getElem_cons (show length - 1 < dst.length by omega), List.set_cons_zero]

/-- **C05** With `length = 0` nothing is written. -/
theorem C05_copy_zero (dst src : List Byte) :
    ∃ ret, copyWizardString dst src 0 = .ok (dst, ret) := by
  refine ⟨(0 + sizeMax - 1) % sizeMax, ?_⟩
  unfold copyWizardString copyLoop4
  simp only [gt_iff_lt, Nat.not_lt_zero, if_false, Res.ok_bind, ne_eq, not_true_eq_false,
    Res.pure_eq]

/-- The text seen through the NUL-terminated buffer after the copy. -/
theorem C05_copy_text (dst s t : List Byte) (length : Nat) (hs : (0 : Byte) ∉ s)
    (hpos : 0 < length) (hbuf : length ≤ dst.length) :
    ∃ buf ret, copyWizardString dst (s ++ 0 :: t) length = .ok (buf, ret) ∧
      buf.length = dst.length ∧ strlenMem buf = .ok (min s.length (length - 1)) ∧
      buf.take (min s.length (length - 1)) = s.take (length - 1) ∧
      buf.drop length = dst.drop length := by
  obtain ⟨ret, h⟩ := C05_copy dst s t length hs hpos hbuf
  refine ⟨_, ret, h, ?_, ?_, ?_, ?_⟩
  · simp; omega
  · rw [strlenMem_spec]
    · simp [Nat.min_comm]
    · exact fun h' => hs (List.mem_of_mem_take h')
  · rw [List.take_append_of_le_length (by simp; omega), List.take_take]
    rw [← List.take_take, List.take_take, List.take_eq_take_iff]; omega
  · rw [List.drop_append, List.drop_of_length_le (by simp; omega), List.nil_append]
    have : length - (List.take (length - 1) s).length =
        (length - 1 - min s.length (length - 1)) + 1 := by simp; omega
    rw [this, List.drop_succ_cons, List.drop_drop]
    congr 1; omega

/-- The documented return value ("the minimum of the source string length or the length
parameter") is wrong as soon as the source does not fit with a byte to spare: a source that fits
exactly reports one less than its length. -/
theorem C05_copy_return_violated (dst s t : List Byte) (hs : (0 : Byte) ∉ s) (hne : s ≠ [])
    (hbuf : s.length + 1 ≤ dst.length) (hsz : dst.length < sizeMax) :
    ∃ buf, copyWizardString dst (s ++ 0 :: t) (s.length + 1) = .ok (buf, s.length - 1) ∧
      s.length - 1 ≠ min s.length (s.length + 1) := by
  have hl : s.length ≠ 0 := by simpa using hne
  rw [copyWizardString_eq _ _ _ (by omega), copySteps_spec s t hs _ _ _ (by omega) (by omega),
    if_neg (by omega)]
  simp only [Res.ok_bind, Res.pure_eq, Nat.zero_add, Nat.add_sub_cancel, wr]
  rw [if_pos (by simp [overwrite]; omega)]
  refine ⟨(overwrite dst 0 (List.take s.length (List.drop 0 s))).set s.length 0, ?_, by omega⟩
  simp only [Res.ok_bind]
  rw [show s.length + sizeMax - 1 = s.length - 1 + sizeMax by omega, Nat.add_mod_right,
    Nat.mod_eq_of_lt (by omega)]

/-- **C05** `ConcatenateWizardString` onto a NUL-terminated text that ends inside the first `length`
bytes: no access outside the objects, the buffer holds the longest prefix of old text followed by
source that fits in `length-1` bytes, NUL-terminated, and the bytes from `length` on are untouched.
The return value is the length the untruncated text would have. -/
theorem C05_concatenate (d rest s t : List Byte) (length : Nat) (hd : (0 : Byte) ∉ d)
    (hs : (0 : Byte) ∉ s) (hfit : d.length < length) (hbuf : length ≤ (d ++ 0 :: rest).length) :
    ∃ buf, concatenateWizardString (d ++ 0 :: rest) (s ++ 0 :: t) length =
        .ok (buf, d.length + s.length) ∧
      buf = (d ++ s).take (length - 1) ++
        0 :: (d ++ 0 :: rest).drop (min (d.length + s.length) (length - 1) + 1) := by
  unfold concatenateWizardString
  rw [if_neg (by omega), catFindEnd_spec d rest hd _ _ (by omega) (by omega), Res.ok_bind]
  simp only
  rw [if_neg (by omega), catCopy_spec s t hs _ _ _ _ (by omega) (by omega), Res.ok_bind]
  simp only [wr]
  have hl : (overwrite (d ++ 0 :: rest) d.length (s.take (length - d.length - 1))).length =
      (d ++ 0 :: rest).length := by
    simp [overwrite]; simp at hbuf; omega
  rw [if_pos (by rw [hl]; omega)]
  simp only [Res.ok_bind, Res.pure_eq, Nat.zero_add]
  refine ⟨_, rfl, ?_⟩
  unfold overwrite
  rw [List.take_left, List.append_assoc, List.set_append_right _ _ (by omega),
    List.set_append_right _ _ (by simp; omega), List.take_append,
    List.take_of_length_le (show d.length ≤ length - 1 by omega), List.append_assoc]
  congr 1
  rw [Nat.sub_right_comm length]
  congr 1
  have e : d.length + min s.length (length - 1 - d.length) - d.length -
      (List.take (length - 1 - d.length) s).length = 0 := by simp; omega
  rw [e, List.drop_eq_getElem_cons (by simp at hbuf ⊢; omega), List.set_cons_zero]
  congr 2
  simp; omega

/-- **C05** If the buffer holds no NUL in its first `length` bytes nothing is written. -/
theorem C05_concatenate_full (dst s t : List Byte) (length : Nat) (hs : (0 : Byte) ∉ s)
    (hpos : 0 < length) (hbuf : length ≤ dst.length)
    (hz : ∀ j, (hj : j < length) → dst[j] ≠ 0) :
    concatenateWizardString dst (s ++ 0 :: t) length = .ok (dst, length + s.length) := by
  unfold concatenateWizardString
  rw [if_neg (by omega), catFindEnd_full dst _ _ (by omega) (by
    intro j _ h; exact hz j (by omega)), Res.ok_bind]
  simp only [Nat.zero_add, Nat.sub_self, if_true]
  rw [strlenMem_spec _ _ hs]
  simp

example : ∃ ret, copyWizardString [9, 9, 9, 9, 9, 9, 9, 9] [1, 2, 3, 4, 5, 6, 7, 0] 6 =
    .ok ([1, 2, 3, 4, 5, 0, 9, 9], ret) :=
  C05_copy [9, 9, 9, 9, 9, 9, 9, 9] [1, 2, 3, 4, 5, 6, 7] [] 6 (by decide) (by decide) (by decide)
example : concatenateWizardString [1, 2, 0, 9, 9, 9] [3, 4, 5, 6, 0] 5 =
    .ok ([1, 2, 3, 4, 0, 9], 6) := by decide +kernel
example : ((0 : Byte) ∉ [1, 2]) ∧ ((0 : Byte) ∉ [3, 4, 5, 6]) ∧ [1, 2].length < 5 ∧
    5 ≤ ([1, 2] ++ (0 : Byte) :: [9, 9, 9]).length := by decide

end Wizard.Props

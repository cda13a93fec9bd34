import Verif.Model.StringOps
import Verif.Lemmas.Mem
/-! Helper lemmas for the bounded copy and append. -/
namespace Wizard

theorem copySteps_add (src : List Byte) (a b : Nat) (buf : List Byte) (i : Nat) :
    copySteps src (a + b) buf i =
      (copySteps src a buf i >>= fun r => match r with
        | .inl r => pure (.inl r)
        | .inr (buf, i) => copySteps src b buf i) := by
  induction a generalizing buf i with
  | zero => simp [copySteps]
  | succ a ih =>
    rw [Nat.succ_add]
    simp only [copySteps]
    cases copyStep src buf i with
    | ok r =>
      cases r with
      | inl r => simp
      | inr r => simp [ih]
    | ub => simp
    | fatal => simp

/-- Writing `data` over `buf` at offset `i`. -/
def overwrite (buf : List Byte) (i : Nat) (data : List Byte) : List Byte :=
  buf.take i ++ data ++ buf.drop (i + data.length)

theorem overwrite_set (buf : List Byte) (i : Nat) (c : Byte) (data : List Byte)
    (h : i < buf.length) :
    overwrite (buf.set i c) (i + 1) data = overwrite buf i (c :: data) := by
  unfold overwrite
  rw [List.take_set, List.take_add_one, List.getElem?_eq_getElem h]
  rw [List.set_append_right _ _ (by simp; omega)]
  rw [List.drop_set_of_lt (by omega)]
  simp only [List.length_take, Nat.min_eq_left (Nat.le_of_lt h), Nat.sub_self]
  simp
  congr 1; omega

theorem rd_append_mid (s t : List Byte) (c : Byte) : rd (s ++ c :: t) s.length = .ok c := by
  simp [rd]

theorem rd_lt {s t : List Byte} {i : Nat} (h : i < s.length) : rd (s ++ t) i = .ok s[i] := by
  simp [rd, List.getElem?_append_left h, List.getElem?_eq_getElem h]

theorem mem_ne_zero {s : List Byte} (hs : (0 : Byte) ∉ s) (i : Nat) (h : i < s.length) :
    s[i] ≠ 0 := fun h' => hs (h' ▸ List.getElem_mem h)

theorem copySteps_spec (s t : List Byte) (hs : (0 : Byte) ∉ s) (k : Nat) (buf : List Byte)
    (i : Nat) (hi : i ≤ s.length) (hb : i + k ≤ buf.length) :
    copySteps (s ++ 0 :: t) k buf i =
      if s.length < i + k then .ok (.inl (overwrite buf i (s.drop i ++ [0]), s.length))
      else .ok (.inr (overwrite buf i ((s.drop i).take k), i + k)) := by
  induction k generalizing buf i with
  | zero =>
    rw [if_neg (by omega)]
    simp [copySteps, overwrite]
  | succ k ih =>
    unfold copySteps copyStep
    by_cases h : i < s.length
    · rw [rd_lt h, Res.ok_bind]
      simp only [wr, if_pos (show i < buf.length by omega), Res.ok_bind]
      rw [if_neg (mem_ne_zero hs i h)]
      simp only [Res.pure_eq, Res.ok_bind]
      rw [ih _ _ (by omega) (by simp; omega)]
      have e : s.drop i = s[i] :: s.drop (i + 1) := List.drop_eq_getElem_cons h
      have c : i + 1 + k = i + (k + 1) := by omega
      rw [c]
      split
      · rw [overwrite_set _ _ _ _ (by omega), e, List.cons_append]
      · rw [overwrite_set _ _ _ _ (by omega), e, List.take_succ_cons]
    · have hi' : i = s.length := by omega
      subst hi'
      rw [rd_append_mid, Res.ok_bind]
      simp only [wr, if_pos (show s.length < buf.length by omega), Res.ok_bind, if_true,
        Res.pure_eq]
      rw [if_pos (by omega)]
      have := overwrite_set buf s.length 0 [] (by omega)
      simp [overwrite] at this
      simp [overwrite, this]

theorem copyLoop4_spec (src : List Byte) (n : Nat) (buf : List Byte) (i : Nat) :
    copyLoop4 src n buf i = (copySteps src (4 * ((n - 1) / 4)) buf i >>= fun r => match r with
      | .inl r => pure (.inl r)
      | .inr (buf, i) => pure (.inr ((buf, i), n - 4 * ((n - 1) / 4)))) := by
  induction n using Nat.strongRecOn generalizing buf i with
  | _ n ih =>
    unfold copyLoop4
    split
    · rename_i h
      have e : 4 * ((n - 1) / 4) = 4 + 4 * ((n - 4 - 1) / 4) := by omega
      rw [e, copySteps_add]
      cases copySteps src 4 buf i with
      | ok r =>
        cases r with
        | inl r => simp
        | inr r =>
          simp only [Res.ok_bind]
          rw [ih (n - 4) (by omega)]
          congr 1
          funext r
          cases r with
          | inl r => rfl
          | inr r => simp only [Res.pure_eq]; congr 3; omega
      | ub => simp
      | fatal => simp
    · rename_i h
      have e : (n - 1) / 4 = 0 := by omega
      simp [e, copySteps]

/-- The unrolled loop plus the tail loop make `length-1` copy steps, then a NUL. -/
theorem copyWizardString_eq (dst src : List Byte) (length : Nat) (h : length ≠ 0) :
    copyWizardString dst src length =
      (copySteps src (length - 1) dst 0 >>= fun r => match r with
        | .inl r => pure r
        | .inr (buf, i) => do
          let buf ← wr buf i 0
          pure (buf, (i + sizeMax - 1) % sizeMax)) := by
  unfold copyWizardString
  rw [copyLoop4_spec]
  have e : length - 1 = 4 * ((length - 1) / 4) + (length - 4 * ((length - 1) / 4) - 1) := by omega
  conv => rhs; rw [e, copySteps_add]
  cases copySteps src (4 * ((length - 1) / 4)) dst 0 with
  | ok r =>
    cases r with
    | inl r => simp
    | inr r =>
      have hn : length - 4 * ((length - 1) / 4) ≠ 0 := by omega
      simp only [Res.ok_bind, Res.pure_eq]
      rw [if_pos hn]
      cases copySteps src (length - 4 * ((length - 1) / 4) - 1) r.1 r.2 with
      | ok r' =>
        cases r' with
        | inl r' => simp
        | inr r' => simp [h]
      | ub => simp
      | fatal => simp
  | ub => simp
  | fatal => simp

theorem catFindEnd_spec (d rest : List Byte) (hd : (0 : Byte) ∉ d) (i q : Nat)
    (hq : q ≤ d.length) (hi : d.length < q + i) :
    catFindEnd (d ++ 0 :: rest) i q = .ok d.length := by
  induction i generalizing q with
  | zero => omega
  | succ i ih =>
    unfold catFindEnd
    by_cases h : q < d.length
    · rw [rd_lt h, Res.ok_bind, if_pos (mem_ne_zero hd q h), ih _ (by omega) (by omega)]
    · have : q = d.length := by omega
      subst this
      rw [rd_append_mid]; simp

theorem catFindEnd_full (dst : List Byte) (i q : Nat) (h : q + i ≤ dst.length)
    (hz : ∀ j, q ≤ j → (hj : j < q + i) → dst[j] ≠ 0) :
    catFindEnd dst i q = .ok (q + i) := by
  induction i generalizing q with
  | zero => rfl
  | succ i ih =>
    unfold catFindEnd
    have : rd dst q = .ok dst[q] := by simp [rd, List.getElem?_eq_getElem (show q < dst.length by omega)]
    rw [this, Res.ok_bind, if_pos (hz q (Nat.le_refl _) (by omega)), ih _ (by omega)]
    · congr 1; omega
    · intro j h1 h2; exact hz j (by omega) (by omega)

theorem strlenMem_spec (s t : List Byte) (hs : (0 : Byte) ∉ s) :
    strlenMem (s ++ 0 :: t) = .ok s.length := by
  induction s with
  | nil => simp [strlenMem]
  | cons c s ih =>
    simp only [List.mem_cons, not_or] at hs
    simp only [List.cons_append, strlenMem, ih hs.2, if_neg (Ne.symm hs.1), Res.ok_bind,
      Res.pure_eq, List.length_cons]

theorem catCopy_spec (s t : List Byte) (hs : (0 : Byte) ∉ s) (buf : List Byte) (q i n : Nat)
    (hi : 1 ≤ i) (hb : q + i ≤ buf.length) :
    catCopy (s ++ 0 :: t) buf q i n =
      .ok (overwrite buf q (s.take (i - 1)), q + min s.length (i - 1), n + s.length) := by
  induction s generalizing buf q i n with
  | nil => simp [catCopy, overwrite]
  | cons c s ih =>
    simp only [List.mem_cons, not_or] at hs
    simp only [List.cons_append, catCopy]
    rw [if_neg (Ne.symm hs.1)]
    by_cases h1 : i = 1
    · subst h1
      simp only [ne_eq, not_true_eq_false, if_false]
      rw [ih hs.2 _ _ _ _ (by omega) hb]
      simp [overwrite]; omega
    · rw [if_pos h1]
      simp only [wr, if_pos (show q < buf.length by omega), Res.ok_bind]
      rw [ih hs.2 _ _ _ _ (by omega) (by simp; omega), overwrite_set _ _ _ _ (by omega)]
      have e : i - 1 = i - 1 - 1 + 1 := by omega
      conv => rhs; rw [e, List.take_succ_cons]
      simp; omega

end Wizard

import Verif.Model.StringInfo
/-! Helper lemmas about memory blocks. -/
namespace Wizard

theorem rdN_ok {m : List Byte} {o n : Nat} (h : o + n ≤ m.length) :
    rdN m o n = .ok ((m.drop o).take n) := by simp [rdN, h]

theorem wrN_ok {m : List Byte} {o : Nat} {s : List Byte} (h : o + s.length ≤ m.length) :
    wrN m o s = .ok (m.take o ++ s ++ m.drop (o + s.length)) := by
  unfold wrN; rw [if_pos h]

theorem wrN_length {m m' : List Byte} {o : Nat} {s : List Byte} (h : wrN m o s = .ok m') :
    m'.length = m.length := by
  unfold wrN at h
  split at h
  · injection h with h; subst h; simp; omega
  · cases h

theorem StringInfo.bytes_length {s : StringInfo} (h : s.WF) : s.bytes.length = s.length := by
  have : s.length + maxCipherBlocksize ≤ s.datum.length := h
  simp [StringInfo.bytes]; omega

theorem take_set_zero (d b : List Byte) (n k : Nat) (hb : b.length = k) (hk : k ≤ n)
    (_hn : n ≤ d.length) :
    ((b ++ (List.replicate n (0 : Byte) ++ d.drop n).drop k)).take n =
      b ++ List.replicate (n - k) 0 := by
  rw [List.take_append, hb, List.take_of_length_le (by omega), List.drop_append,
    List.drop_replicate, List.length_replicate,
    List.take_append_of_le_length (by simp), List.take_of_length_le (by simp)]

theorem setStringInfo_spec (s src : StringInfo) (hs : s.WF) (hsrc : src.WF) :
    ∃ r, setStringInfo s src = .ok r ∧ r.length = s.length ∧
      r.datum.length = s.datum.length ∧
      r.bytes = src.bytes.take s.length ++ List.replicate (s.length - src.length) 0 ∧
      r.datum.drop r.length = s.datum.drop s.length := by
  have h1 : s.length + maxCipherBlocksize ≤ s.datum.length := hs
  have h2 : src.length + maxCipherBlocksize ≤ src.datum.length := hsrc
  unfold setStringInfo
  by_cases h0 : s.length = 0
  · simp [h0, StringInfo.bytes]
  · rw [if_neg h0]
    rw [wrN_ok (by simp; omega)]
    simp only [Res.ok_bind]
    rw [rdN_ok (by omega)]
    simp only [Res.ok_bind]
    rw [wrN_ok (by simp; omega)]
    simp only [Res.ok_bind, Res.pure_eq]
    refine ⟨_, rfl, rfl, ?_, ?_, ?_⟩
    · simp; omega
    · simp only [StringInfo.bytes, List.take_zero, List.nil_append, List.drop_zero,
        List.length_replicate, Nat.zero_add]
      rw [take_set_zero s.datum _ s.length _ rfl (by simp; omega) (by omega), List.take_take]
      congr 1
      congr 1
      simp; omega
    · simp only [List.take_zero, List.nil_append, List.drop_zero, List.length_replicate,
        Nat.zero_add]
      have hl : (List.take (min s.length src.length) src.datum).length ≤ s.length := by
        simp; omega
      rw [List.drop_append, List.drop_of_length_le hl, List.nil_append, List.drop_drop,
        List.drop_append, List.length_replicate, List.drop_of_length_le (by simp; omega),
        List.nil_append, List.drop_drop]
      congr 1
      omega

end Wizard

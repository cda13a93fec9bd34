import Verif.Lemmas.Mem
import Verif.Spec.Dict
/-! C02, C03, C04: comparing, setting, splitting, cloning and concatenating byte strings. -/
namespace Wizard.Props
open Wizard Wizard.Spec

/-! ### C02 -/

/-- `memcmp` of the common prefix, then the lengths, as one recursive function (proof device). -/
theorem memcmp_lex (a b : List Byte) :
    let r := memcmp (a.take (min a.length b.length)) (b.take (min a.length b.length))
    (r < 0 ∧ DictLT a b) ∨ (0 < r ∧ DictLT b a) ∨
      (r = 0 ∧ ((a = b) ∨ (a.length < b.length ∧ DictLT a b) ∨ (b.length < a.length ∧ DictLT b a))) := by
  induction a generalizing b with
  | nil =>
    cases b with
    | nil => simp [memcmp]
    | cons y ys => right; right; simp [memcmp]
  | cons x xs ih =>
    cases b with
    | nil => right; right; simp [memcmp]
    | cons y ys =>
      have hm : min (x :: xs).length (y :: ys).length = min xs.length ys.length + 1 := by
        simp
      simp only [hm, List.take_succ_cons, memcmp]
      by_cases hxy : x = y
      · subst hxy
        simp only [if_true]
        rcases ih ys with ⟨h1, h2⟩ | ⟨h1, h2⟩ | ⟨h1, h2⟩
        · left; exact ⟨h1, List.Lex.cons h2⟩
        · right; left; exact ⟨h1, List.Lex.cons h2⟩
        · right; right
          refine ⟨h1, ?_⟩
          rcases h2 with h | ⟨h, h'⟩ | ⟨h, h'⟩
          · left; rw [h]
          · right; left; exact ⟨by simp; omega, List.Lex.cons h'⟩
          · right; right; exact ⟨by simp; omega, List.Lex.cons h'⟩
      · simp only [hxy, if_false]
        have hne : x.toNat ≠ y.toNat := fun h => hxy (BitVec.eq_of_toNat_eq h)
        rcases Nat.lt_or_gt_of_ne hne with h | h
        · left; exact ⟨by omega, List.Lex.rel (BitVec.lt_def.mpr h)⟩
        · right; left; exact ⟨by omega, List.Lex.rel (BitVec.lt_def.mpr h)⟩

/-- **C02** `CompareStringInfo` never faults on well-formed byte strings and its sign is the
dictionary order of the two byte strings; it is zero exactly on equal strings. -/
theorem C02_compare_is_dictionary_order (a b : StringInfo) (ha : a.WF) (hb : b.WF) :
    ∃ r, compareStringInfo a b = .ok r ∧ (r < 0 ↔ DictLT a.bytes b.bytes) ∧
      (0 < r ↔ DictLT b.bytes a.bytes) ∧ (r = 0 ↔ a.bytes = b.bytes) := by
  have la := StringInfo.bytes_length ha
  have lb := StringInfo.bytes_length hb
  have h1 : a.length + maxCipherBlocksize ≤ a.datum.length := ha
  have h2 : b.length + maxCipherBlocksize ≤ b.datum.length := hb
  unfold compareStringInfo
  simp only [rdN_ok (show 0 + min a.length b.length ≤ a.datum.length by omega),
    rdN_ok (show 0 + min a.length b.length ≤ b.datum.length by omega), Res.ok_bind,
    List.drop_zero, Res.pure_eq]
  have key := memcmp_lex a.bytes b.bytes
  rw [la, lb] at key
  have ta : a.bytes.take (min a.length b.length) = a.datum.take (min a.length b.length) := by
    simp only [StringInfo.bytes, List.take_take]; congr 1; omega
  have tb : b.bytes.take (min a.length b.length) = b.datum.take (min a.length b.length) := by
    simp only [StringInfo.bytes, List.take_take]; congr 1; omega
  rw [ta, tb] at key
  simp only at key
  generalize memcmp (a.datum.take (min a.length b.length))
    (b.datum.take (min a.length b.length)) = r at key ⊢
  have asym : ∀ x y, DictLT x y → ¬ DictLT y x := fun x y h h' => dict_irrefl _ (dict_trans h h')
  have ne : ∀ x y, DictLT x y → x ≠ y := fun x y h h' => dict_irrefl y (h' ▸ h)
  rcases key with ⟨h, d⟩ | ⟨h, d⟩ | ⟨h, d⟩
  · rw [if_pos (by omega)]
    exact ⟨r, rfl, by simp [h, d], by simp [asym _ _ d]; omega, by simp [ne _ _ d]; omega⟩
  · rw [if_pos (by omega)]
    refine ⟨r, rfl, by simp [asym _ _ d]; omega, by simp [h, d], ?_⟩
    simp [(ne _ _ d).symm]; omega
  · rw [if_neg (by omega)]
    rcases d with d | ⟨l, d⟩ | ⟨l, d⟩
    · have : a.length = b.length := by rw [← la, ← lb, d]
      rw [if_pos this, d]
      exact ⟨0, rfl, by simp, by simp, by simp⟩
    · rw [if_neg (by omega), if_pos (by omega)]
      exact ⟨-1, rfl, by simp [d], by simp [asym _ _ d], by simp [ne _ _ d]⟩
    · rw [if_neg (by omega), if_neg (by omega)]
      exact ⟨1, rfl, by simp [asym _ _ d], by simp [d], by simp [(ne _ _ d).symm]⟩

/-- **C02** Swapping the arguments flips the sign. -/
theorem C02_compare_antisymmetric (a b : StringInfo) (ha : a.WF) (hb : b.WF) (r r' : Int)
    (h : compareStringInfo a b = .ok r) (h' : compareStringInfo b a = .ok r') :
    (r < 0 ↔ 0 < r') ∧ (r = 0 ↔ r' = 0) := by
  obtain ⟨x, hx, l, _, e⟩ := C02_compare_is_dictionary_order a b ha hb
  obtain ⟨y, hy, _, g', e'⟩ := C02_compare_is_dictionary_order b a hb ha
  cases hx.symm.trans h; cases hy.symm.trans h'
  exact ⟨l.trans g'.symm, e.trans (eq_comm.trans e'.symm)⟩

/-- **C02** The order is transitive. -/
theorem C02_compare_transitive (a b c : StringInfo) (ha : a.WF) (hb : b.WF) (hc : c.WF)
    (r s : Int) (h : compareStringInfo a b = .ok r) (h' : compareStringInfo b c = .ok s)
    (hr : r < 0) (hs : s < 0) : ∃ t, compareStringInfo a c = .ok t ∧ t < 0 := by
  obtain ⟨x, hx, l, _, _⟩ := C02_compare_is_dictionary_order a b ha hb
  obtain ⟨y, hy, l', _, _⟩ := C02_compare_is_dictionary_order b c hb hc
  obtain ⟨t, ht, l'', _, _⟩ := C02_compare_is_dictionary_order a c ha hc
  cases hx.symm.trans h; cases hy.symm.trans h'
  exact ⟨t, ht, l''.mpr (dict_trans (l.mp hr) (l'.mp hs))⟩

/-- A byte string holding the given bytes, with zeroed slack, as `AcquireStringInfo` followed by
`SetStringInfoDatum` builds it. -/
def mkStringInfo (b : List Byte) : StringInfo :=
  ⟨b.length, b ++ List.replicate maxCipherBlocksize 0⟩

theorem mkStringInfo_wf (b : List Byte) : (mkStringInfo b).WF := by
  simp [StringInfo.WF, mkStringInfo]

theorem mkStringInfo_bytes (b : List Byte) : (mkStringInfo b).bytes = b := by
  simp [StringInfo.bytes, mkStringInfo]

/-- `mkStringInfo` is what the two API calls produce. -/
theorem mkStringInfo_reachable (b : List Byte) (h : b.length + maxCipherBlocksize < sizeMax) :
    (acquireStringInfo b.length >>= fun s => setStringInfoDatum s b) = .ok (mkStringInfo b) := by
  simp only [acquireStringInfo, h, if_true, Res.ok_bind, setStringInfoDatum, mkStringInfo]
  rw [rdN_ok (by simp)]
  simp only [Res.ok_bind, List.drop_zero, List.take_length]
  rw [wrN_ok (by simp)]
  simp

example : compareStringInfo (mkStringInfo [1, 2]) (mkStringInfo [1, 2, 0]) = .ok (-1) ∧
    compareStringInfo (mkStringInfo [0xff]) (mkStringInfo [1, 2, 0]) = .ok 254 := by decide +kernel

/-! ### C03 -/

/-- **C03** `SetStringInfo`: the length stays, the contents are the source truncated or
zero-padded to it, and the slack is untouched. -/
theorem C03_set (s src : StringInfo) (hs : s.WF) (hsrc : src.WF) :
    ∃ r, setStringInfo s src = .ok r ∧ r.WF ∧ r.length = s.length ∧
      r.bytes = src.bytes.take s.length ++ List.replicate (s.length - src.length) 0 := by
  obtain ⟨r, h, l, dl, b, _⟩ := setStringInfo_spec s src hs hsrc
  refine ⟨r, h, ?_, l, b⟩
  unfold StringInfo.WF at *; omega

/-- **C03** `SplitStringInfo` at an offset inside the string: the parts are the first `offset`
bytes and the rest. -/
theorem C03_split (s : StringInfo) (offset : Nat) (junk : Nat → Byte) (hs : s.WF)
    (hsize : s.length + maxCipherBlocksize < sizeMax) (ho : offset ≤ s.length) :
    ∃ p r, splitStringInfo s offset junk = .ok (some p, r) ∧ p.WF ∧ r.WF ∧
      p.bytes = s.bytes.take offset ∧ r.bytes = s.bytes.drop offset ∧
      p.bytes ++ r.bytes = s.bytes := by
  have h1 : s.length + maxCipherBlocksize ≤ s.datum.length := hs
  unfold splitStringInfo
  rw [if_neg (by omega)]
  have ha : acquireStringInfo offset =
      .ok ⟨offset, List.replicate (offset + maxCipherBlocksize) 0⟩ := by
    unfold acquireStringInfo; rw [if_pos (by omega)]
  rw [ha, Res.ok_bind]
  obtain ⟨p, hp, pl, pdl, pb, _⟩ := setStringInfo_spec
    ⟨offset, List.replicate (offset + maxCipherBlocksize) 0⟩ s
    (by simp [StringInfo.WF]) hs
  rw [hp, Res.ok_bind, rdN_ok (by omega), Res.ok_bind, wrN_ok (by simp; omega), Res.ok_bind]
  unfold setStringInfoLength
  rw [if_pos (by omega)]
  simp only [Res.ok_bind, Res.pure_eq]
  have hpb : p.bytes = s.bytes.take offset := by
    rw [pb]; simp only
    rw [Nat.sub_eq_zero_of_le ho]; simp
  have hrb : (List.take (s.length - offset) (reallocMem
      (List.take 0 s.datum ++ List.take (s.length - offset + maxCipherBlocksize)
        (List.drop offset s.datum) ++ List.drop (0 + (List.take (s.length - offset +
          maxCipherBlocksize) (List.drop offset s.datum)).length) s.datum)
      (s.length - offset + maxCipherBlocksize) junk)) = s.bytes.drop offset := by
    unfold reallocMem
    rw [List.take_append_of_le_length (by simp; omega)]
    simp only [List.take_zero, List.nil_append, List.take_take]
    rw [List.take_append_of_le_length (by simp; omega), List.take_take]
    rw [StringInfo.bytes, List.drop_take]
    congr 1
    omega
  refine ⟨p, _, rfl, ?_, ?_, hpb, ?_, ?_⟩
  · simp only [StringInfo.WF, pl, pdl]; simp
  · simp [StringInfo.WF]
  · exact hrb
  · rw [hpb]
    show List.take offset s.bytes ++ List.take _ _ = _
    rw [hrb, List.take_append_drop]

/-- **C03** A split beyond the end is refused and changes nothing. -/
theorem C03_split_refused (s : StringInfo) (offset : Nat) (junk : Nat → Byte)
    (ho : s.length < offset) : splitStringInfo s offset junk = .ok (none, s) := by
  simp [splitStringInfo, ho]

/-- **C03** `CloneStringInfo` copies the bytes (and the slack the cipher modes rely on). -/
theorem C03_clone (s : StringInfo) (hs : s.WF)
    (hsize : s.length + maxCipherBlocksize < sizeMax) :
    ∃ r, cloneStringInfo s = .ok r ∧ r.WF ∧ r.length = s.length ∧ r.bytes = s.bytes ∧
      (s.length ≠ 0 → r.datum = s.datum.take (s.length + maxCipherBlocksize)) := by
  have h1 : s.length + maxCipherBlocksize ≤ s.datum.length := hs
  unfold cloneStringInfo acquireStringInfo
  rw [if_pos hsize, Res.ok_bind]
  by_cases h0 : s.length = 0
  · rw [if_pos h0]
    exact ⟨_, rfl, by simp [StringInfo.WF, h0], by simp, by simp [StringInfo.bytes, h0],
      fun h => absurd h0 h⟩
  · rw [if_neg h0, rdN_ok (by omega), Res.ok_bind, wrN_ok (by simp; omega)]
    simp only [Res.ok_bind, Res.pure_eq]
    have hl : (List.take (s.length + maxCipherBlocksize) (List.drop 0 s.datum)).length =
        s.length + maxCipherBlocksize := by simp; omega
    refine ⟨_, rfl, ?_, rfl, ?_, fun _ => ?_⟩
    · simp only [StringInfo.WF]; simp; omega
    · simp only [StringInfo.bytes]
      rw [List.take_zero, List.nil_append, hl]
      simp [List.take_take]
    · rw [hl]; simp

example : (splitStringInfo (mkStringInfo [1, 2, 3]) 1 (fun _ => 7) >>= fun x =>
    .ok (x.1.map StringInfo.bytes, x.2.bytes)) = .ok (some [1], [2, 3]) := by decide +kernel

/-! ### C04: `ConcatenateStringInfo` does not concatenate -/

theorem overAllocateLoop_ge (f e n : Nat) (h : n ≤ e * 2 ^ f) : n ≤ overAllocateLoop f e n := by
  induction f generalizing e with
  | zero => simpa [overAllocateLoop] using h
  | succ f ih =>
    unfold overAllocateLoop
    split
    · apply ih; rw [Nat.mul_assoc, ← Nat.pow_succ']; exact h
    · omega

theorem overAllocateMemory_ge (n : Nat) : n ≤ overAllocateMemory n := by
  unfold overAllocateMemory
  split
  · exact overAllocateLoop_ge 64 256 n (by omega)
  · exact Nat.le_refl _

/-- What the code leaves in the string, whenever it does not overrun its buffer: the old bytes
followed by whatever was in the buffer after them (slack, then uninitialised memory). The bytes of
the source are not among them. -/
theorem concatenate_result (s src : StringInfo) (junk : Nat → Byte) (r : StringInfo)
    (h : concatenateStringInfo s src junk = .ok r) :
    r.length = s.length + src.length ∧
      r.bytes = (reallocMem s.datum (overAllocateMemory
        (s.length + src.length + wizardPathExtent)) junk).take (s.length + src.length) := by
  unfold concatenateStringInfo at h
  split at h
  · cases h
  · simp only at h
    split at h
    · cases h
    · unfold rdN at h
      split at h
      · simp only [Res.ok_bind] at h
        unfold wrN at h
        split at h
        · simp only [Res.ok_bind, Res.pure_eq] at h
          injection h with h
          subst h
          refine ⟨rfl, ?_⟩
          simp only [StringInfo.bytes, List.append_assoc]
          rw [List.take_append_of_le_length (by
            simp
            have := overAllocateMemory_ge (s.length + src.length + wizardPathExtent)
            omega), List.take_take]
          simp
        · cases h
      · cases h

/-- **C04 is false**: the concatenated string never contains the source's bytes. Appending
any non-empty string of at most 128 bytes to a freshly built byte string leaves zeros where the
appended bytes should be. -/
theorem C04_concatenate_violated (a b : List Byte) (junk : Nat → Byte)
    (hb : b.length ≤ maxCipherBlocksize) (r : StringInfo)
    (h : concatenateStringInfo (mkStringInfo a) (mkStringInfo b) junk = .ok r) :
    r.bytes = a ++ List.replicate b.length 0 := by
  obtain ⟨_, hr⟩ := concatenate_result _ _ _ _ h
  have hge := overAllocateMemory_ge (a.length + b.length + wizardPathExtent)
  rw [hr]
  simp only [mkStringInfo, reallocMem]
  rw [List.take_append_of_le_length (by
    simp only [maxCipherBlocksize] at *
    simp
    omega), List.take_take, Nat.min_eq_left (by omega), List.take_append,
    List.take_of_length_le (by omega)]
  congr 1
  rw [List.take_replicate]
  congr 1
  omega

/-- Concrete witness of the violation: "A" + "B" is "A\0". -/
theorem C04_concatenate_witness : ∃ r,
    concatenateStringInfo (mkStringInfo [0x41]) (mkStringInfo [0x42]) (fun _ => 0) = .ok r ∧
      r.bytes = [0x41, 0x00] ∧ r.bytes ≠ [0x41] ++ [0x42] := by
  have : concatenateStringInfo (mkStringInfo [0x41]) (mkStringInfo [0x42]) (fun _ => 0) ≠ .ub ∧
      concatenateStringInfo (mkStringInfo [0x41]) (mkStringInfo [0x42]) (fun _ => 0) ≠ .fatal := by
    decide +kernel
  match h : concatenateStringInfo (mkStringInfo [0x41]) (mkStringInfo [0x42]) (fun _ => 0) with
  | .ok r =>
    have hb := C04_concatenate_violated [0x41] [0x42] _ (by decide) r h
    exact ⟨r, rfl, hb, by rw [hb]; decide⟩
  | .ub => exact absurd h this.1
  | .fatal => exact absurd h this.2

/-- **C04 is false, memory safety**: once the total reaches 126976 bytes, appending more than
4096 bytes writes past the end of the buffer. -/
theorem C04_concatenate_overrun_violated (s src : StringInfo) (junk : Nat → Byte)
    (hsrc : src.WF) (hbig : 131072 ≤ s.length + src.length + wizardPathExtent)
    (hover : wizardPathExtent < src.length)
    (hsize : s.length + src.length + wizardPathExtent < sizeMax) :
    concatenateStringInfo s src junk = .ub := by
  have h2 : src.length + maxCipherBlocksize ≤ src.datum.length := hsrc
  unfold concatenateStringInfo
  rw [if_neg (by omega)]
  simp only
  rw [if_neg (by omega), rdN_ok (by omega), Res.ok_bind]
  unfold wrN
  rw [if_neg]
  · rfl
  · simp only [reallocMem_length, List.drop_zero, List.length_take, overAllocateMemory]
    rw [if_neg (by omega)]
    omega

/-- **C04** (partial; missing: the appended bytes, see `C04_concatenate_violated`): when the
source fits in the path-extent reserve, the call stays in bounds, grows the length by the source's
and keeps the old bytes as a prefix. -/
theorem C04_concatenate_prefix_partial (s src : StringInfo) (junk : Nat → Byte)
    (hs : s.WF) (hsrc : src.WF) (hfit : src.length ≤ wizardPathExtent)
    (hsize : s.length + src.length + wizardPathExtent < sizeMax) :
    ∃ r, concatenateStringInfo s src junk = .ok r ∧ r.WF ∧
      r.length = s.length + src.length ∧ r.bytes.take s.length = s.bytes := by
  have h1 : s.length + maxCipherBlocksize ≤ s.datum.length := hs
  have h2 : src.length + maxCipherBlocksize ≤ src.datum.length := hsrc
  have hge := overAllocateMemory_ge (s.length + src.length + wizardPathExtent)
  have hrun : ∃ r, concatenateStringInfo s src junk = .ok r ∧
      r.datum.length = overAllocateMemory (s.length + src.length + wizardPathExtent) := by
    unfold concatenateStringInfo
    rw [if_neg (by omega)]
    simp only
    rw [if_neg (by omega), rdN_ok (by omega), Res.ok_bind, wrN_ok (by
      simp only [reallocMem_length, List.drop_zero, List.length_take]; omega)]
    refine ⟨_, rfl, ?_⟩
    simp; omega
  obtain ⟨r, hr, hd⟩ := hrun
  obtain ⟨hl, hb⟩ := concatenate_result _ _ _ _ hr
  refine ⟨r, hr, ?_, hl, ?_⟩
  · simp only [StringInfo.WF, hl, hd, maxCipherBlocksize, wizardPathExtent] at *; omega
  · rw [hb, List.take_take, Nat.min_eq_left (by omega), reallocMem,
      List.take_append_of_le_length (by simp; omega), List.take_take,
      Nat.min_eq_left (by omega), StringInfo.bytes]

example : (mkStringInfo (List.replicate 5000 1)).WF ∧
    131072 ≤ 130000 + (mkStringInfo (List.replicate 5000 1)).length + wizardPathExtent ∧
    wizardPathExtent < (mkStringInfo (List.replicate 5000 1)).length := by
  refine ⟨mkStringInfo_wf _, ?_, ?_⟩ <;>
    simp only [mkStringInfo, wizardPathExtent, List.length_replicate] <;> omega

end Wizard.Props

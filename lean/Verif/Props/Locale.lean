import Verif.Model.StringOps
import Verif.Spec.Dict
/-! C06: case-insensitive comparison. -/
namespace Wizard.Props
open Wizard Wizard.Spec

/-- What a folding must satisfy for the loop to stop at the NUL: only NUL folds to NUL. -/
def FoldOK (fold : Byte → Byte) : Prop := fold 0 = 0 ∧ ∀ c, fold c = 0 → c = 0

theorem asciiMap_ok : FoldOK asciiMap := by unfold FoldOK; decide +kernel
theorem cLocaleLower_ok : FoldOK cLocaleLower := by unfold FoldOK; decide +kernel

/-- **C06** On all pairs of C strings the comparison never runs off a string, and its sign is the
dictionary order of the folded strings. -/
theorem C06_compare_spec (fold : Byte → Byte) (hf : FoldOK fold) (s t : List Byte)
    (hs : (0 : Byte) ∉ s) (ht : (0 : Byte) ∉ t) :
    ∃ r, localeCompare fold (some s) (some t) = .ok r ∧
      (r < 0 ↔ DictLT (s.map fold) (t.map fold)) ∧
      (0 < r ↔ DictLT (t.map fold) (s.map fold)) ∧ (r = 0 ↔ s.map fold = t.map fold) := by
  simp only [localeCompare]
  have pos : ∀ c : Byte, c ≠ 0 → 0 < (fold c).toNat := by
    intro c hc
    rcases Nat.eq_zero_or_pos (fold c).toNat with h | h
    · exact absurd (hf.2 c (BitVec.eq_of_toNat_eq h)) hc
    · exact h
  have fz : (fold 0).toNat = 0 := by rw [hf.1]; rfl
  induction s generalizing t with
  | nil =>
    cases t with
    | nil => exact ⟨0, by simp [localeCompareLoop], by simp, by simp, by simp⟩
    | cons d t =>
      simp only [List.mem_cons, not_or] at ht
      have := pos d (Ne.symm ht.1)
      refine ⟨_, rfl, ?_, ?_, ?_⟩ <;> simp only [fz, List.map_nil, List.map_cons]
      · simp; omega
      · constructor
        · intro h; omega
        · intro h; cases h
      · simp; omega
  | cons c s ih =>
    simp only [List.mem_cons, not_or] at hs
    have hc := pos c (Ne.symm hs.1)
    have hc0 : c ≠ 0 := Ne.symm hs.1
    cases t with
    | nil =>
      have hne : fold c ≠ fold 0 := fun h => by rw [h, fz] at hc; omega
      simp only [localeCompareLoop, if_pos (Or.inr hne : c = 0 ∨ fold c ≠ fold 0)]
      refine ⟨_, rfl, ?_, ?_, ?_⟩ <;> simp only [fz, List.map_nil, List.map_cons]
      · constructor
        · intro h; omega
        · intro h; cases h
      · simp; omega
      · simp; omega
    | cons d t =>
      simp only [List.mem_cons, not_or] at ht
      simp only [localeCompareLoop]
      by_cases he : fold c = fold d
      · rw [if_neg (by simp only [not_or]; exact ⟨hc0, fun h => h he⟩)]
        obtain ⟨r, h1, h2, h3, h4⟩ := ih t hs.2 ht.2
        refine ⟨r, h1, h2.trans ?_, h3.trans ?_, h4.trans ?_⟩ <;>
          simp only [List.map_cons, he]
        · constructor
          · exact List.Lex.cons
          · intro h
            cases h with
            | cons h => exact h
            | rel h => exact absurd (BitVec.lt_def.mp h) (Nat.lt_irrefl _)
        · constructor
          · exact List.Lex.cons
          · intro h
            cases h with
            | cons h => exact h
            | rel h => exact absurd (BitVec.lt_def.mp h) (Nat.lt_irrefl _)
        · simp
      · rw [if_pos (Or.inr he)]
        have hne : (fold c).toNat ≠ (fold d).toNat := fun h => he (BitVec.eq_of_toNat_eq h)
        refine ⟨_, rfl, ?_, ?_, ?_⟩ <;> simp only [List.map_cons]
        · constructor
          · intro h; exact List.Lex.rel (BitVec.lt_def.mpr (by omega))
          · intro h
            generalize hx : fold c = x at *
            generalize hy : fold d = y at *
            cases h with
            | cons h => exact absurd rfl he
            | rel h => have := BitVec.lt_def.mp h; omega
        · constructor
          · intro h; exact List.Lex.rel (BitVec.lt_def.mpr (by omega))
          · intro h
            generalize hx : fold c = x at *
            generalize hy : fold d = y at *
            cases h with
            | cons h => exact absurd rfl he
            | rel h => have := BitVec.lt_def.mp h; omega
        · simp only [List.cons.injEq, he, false_and, iff_false]; omega

/-- ASCII lower-casing (as in C01). -/
def lowerAscii (c : Byte) : Byte := if asc 'A' ≤ c ∧ c ≤ asc 'Z' then c + 0x20 else c

theorem asciiMap_ascii : ∀ c : Byte, c < 0x80 → asciiMap c = lowerAscii c := by decide +kernel

theorem map_congr_ascii (s : List Byte) (h : ∀ c ∈ s, c < (0x80 : Byte)) :
    s.map asciiMap = s.map lowerAscii :=
  List.map_congr_left fun c hc => asciiMap_ascii c (h c hc)

/-- **C06** (fallback build) On ASCII strings the result is 0 exactly when they are equal up to
case. -/
theorem C06_equal_up_to_case (s t : List Byte) (hs : (0 : Byte) ∉ s) (ht : (0 : Byte) ∉ t)
    (as : ∀ c ∈ s, c < (0x80 : Byte)) (at' : ∀ c ∈ t, c < (0x80 : Byte)) :
    localeCompare asciiMap (some s) (some t) = .ok 0 ↔ s.map lowerAscii = t.map lowerAscii := by
  obtain ⟨r, h, _, _, h0⟩ := C06_compare_spec asciiMap asciiMap_ok s t hs ht
  rw [h, ← map_congr_ascii s as, ← map_congr_ascii t at', ← h0]
  constructor
  · intro h; injection h
  · intro h; rw [h]

/-- **C06** (`strcasecmp` build, "C" locale) On all strings the result is 0 exactly when they are
equal up to ASCII case. -/
theorem C06_equal_up_to_case_strcasecmp (s t : List Byte) (hs : (0 : Byte) ∉ s)
    (ht : (0 : Byte) ∉ t) :
    localeCompare cLocaleLower (some s) (some t) = .ok 0 ↔
      s.map lowerAscii = t.map lowerAscii := by
  obtain ⟨r, h, _, _, h0⟩ := C06_compare_spec cLocaleLower cLocaleLower_ok s t hs ht
  rw [h, show s.map lowerAscii = s.map cLocaleLower from rfl,
    show t.map lowerAscii = t.map cLocaleLower from rfl, ← h0]
  constructor
  · intro h; injection h
  · intro h; rw [h]

/-- Without the ASCII hypothesis the fallback table is not plain ASCII folding: the distinct bytes
0xc1 and 0xe1 compare equal, while 0xc5 and 0xe5 (same case pair in Latin-1) do not. -/
theorem C06_equal_up_to_case_non_ascii_violated :
    localeCompare asciiMap (some [0xc1]) (some [0xe1]) = .ok 0 ∧
      ([0xc1] : List Byte).map lowerAscii ≠ [0xe1].map lowerAscii ∧
      localeCompare asciiMap (some [0xc5]) (some [0xe5]) ≠ .ok 0 := by decide +kernel

/-- **C06** Antisymmetry, including NULL arguments. -/
theorem C06_antisymmetric (fold : Byte → Byte) (hf : FoldOK fold) (s t : Option (List Byte))
    (hs : ∀ x ∈ s, (0 : Byte) ∉ x) (ht : ∀ x ∈ t, (0 : Byte) ∉ x) :
    ∃ r r', localeCompare fold s t = .ok r ∧ localeCompare fold t s = .ok r' ∧
      (r < 0 ↔ 0 < r') ∧ (r = 0 ↔ r' = 0) := by
  cases s with
  | none => cases t <;> exact ⟨_, _, rfl, rfl, by decide, by decide⟩
  | some s =>
    cases t with
    | none => exact ⟨_, _, rfl, rfl, by decide, by decide⟩
    | some t =>
      obtain ⟨r, h1, h2, h3, h4⟩ := C06_compare_spec fold hf s t (hs s rfl) (ht t rfl)
      obtain ⟨r', k1, k2, k3, k4⟩ := C06_compare_spec fold hf t s (ht t rfl) (hs s rfl)
      exact ⟨r, r', h1, k1, h2.trans k3.symm, h4.trans (eq_comm.trans k4.symm)⟩

/-- **C06** Transitivity of "less or equal". -/
theorem C06_transitive (fold : Byte → Byte) (hf : FoldOK fold) (s t u : List Byte)
    (hs : (0 : Byte) ∉ s) (ht : (0 : Byte) ∉ t) (hu : (0 : Byte) ∉ u) (r r' : Int)
    (h : localeCompare fold (some s) (some t) = .ok r)
    (h' : localeCompare fold (some t) (some u) = .ok r') (hr : r ≤ 0) (hr' : r' ≤ 0) :
    ∃ q, localeCompare fold (some s) (some u) = .ok q ∧ q ≤ 0 ∧ (q = 0 → r = 0 ∧ r' = 0) := by
  obtain ⟨x, a1, a2, a3, a4⟩ := C06_compare_spec fold hf s t hs ht
  obtain ⟨y, b1, b2, b3, b4⟩ := C06_compare_spec fold hf t u ht hu
  obtain ⟨q, c1, c2, c3, c4⟩ := C06_compare_spec fold hf s u hs hu
  cases a1.symm.trans h; cases b1.symm.trans h'
  have cases1 : DictLT (s.map fold) (t.map fold) ∨ s.map fold = t.map fold := by
    rcases Int.lt_or_eq_of_le hr with h | h
    · exact .inl (a2.mp h)
    · exact .inr (a4.mp h)
  have cases2 : DictLT (t.map fold) (u.map fold) ∨ t.map fold = u.map fold := by
    rcases Int.lt_or_eq_of_le hr' with h | h
    · exact .inl (b2.mp h)
    · exact .inr (b4.mp h)
  refine ⟨q, c1, ?_, ?_⟩
  · rcases cases1 with h1 | h1 <;> rcases cases2 with h2 | h2
    · have := c2.mpr (dict_trans h1 h2); omega
    · have := c2.mpr (h2 ▸ h1); omega
    · have := c2.mpr (h1 ▸ h2); omega
    · have := c4.mpr (h1.trans h2); omega
  · intro hq
    have e := c4.mp hq
    rcases cases1 with h1 | h1 <;> rcases cases2 with h2 | h2
    · exact absurd (dict_trans h1 h2) (e ▸ dict_irrefl _)
    · exact absurd (h2 ▸ h1 : DictLT (s.map fold) (u.map fold)) (e ▸ dict_irrefl _)
    · exact absurd (h1 ▸ h2 : DictLT (s.map fold) (u.map fold)) (e ▸ dict_irrefl _)
    · exact ⟨a4.mpr h1, b4.mpr h2⟩

/-- **C06** `LocaleNCompare(p,q,n)` is `LocaleCompare` of the first `n` characters. -/
theorem C06_ncompare (fold : Byte → Byte) (hf : FoldOK fold) (s t : List Byte) (n : Nat)
    (hs : (0 : Byte) ∉ s) (ht : (0 : Byte) ∉ t) :
    localeNCompare fold (some s) (some t) n =
      localeCompare fold (some (s.take n)) (some (t.take n)) := by
  simp only [localeNCompare, localeCompare]
  have hz : ∀ c : Byte, c ≠ 0 → fold c ≠ fold 0 := fun c hc h => hc (hf.2 c (h.trans hf.1))
  induction n generalizing s t with
  | zero => simp [localeNCompareLoop, localeCompareLoop]
  | succ n ih =>
    cases s with
    | nil =>
      cases t with
      | nil => simp [localeNCompareLoop, localeCompareLoop]
      | cons d t =>
        simp only [List.mem_cons, not_or] at ht
        simp only [localeNCompareLoop, List.take_succ_cons, List.take_nil, localeCompareLoop]
        rw [if_pos (Ne.symm (hz d (Ne.symm ht.1)))]
    | cons c s =>
      simp only [List.mem_cons, not_or] at hs
      cases t with
      | nil =>
        simp only [localeNCompareLoop, List.take_succ_cons, List.take_nil, localeCompareLoop]
        rw [if_pos (hz c (Ne.symm hs.1)), if_pos (Or.inr (hz c (Ne.symm hs.1)))]
      | cons d t =>
        simp only [List.mem_cons, not_or] at ht
        simp only [localeNCompareLoop, List.take_succ_cons, localeCompareLoop]
        by_cases he : fold c = fold d
        · rw [if_neg (fun h => h he), if_neg (Ne.symm hs.1), if_neg (by
            simp only [not_or]; exact ⟨Ne.symm hs.1, fun h => h he⟩), ih s t hs.2 ht.2]
        · rw [if_pos he, if_pos (Or.inr he)]

example : localeCompare asciiMap (some [0x41, 0x62]) (some [0x61, 0x42]) = .ok 0 ∧
    localeCompare asciiMap (some [0x41]) (some [0x61, 0x42]) = .ok (-98) ∧
    localeNCompare asciiMap (some [0x41]) (some [0x61, 0x42]) 1 = .ok 0 := by decide +kernel
example : (0 : Byte) ∉ ([0x41, 0x62] : List Byte) ∧ ∀ c ∈ ([0x41, 0x62] : List Byte), c < (0x80 : Byte) := by
  decide

end Wizard.Props

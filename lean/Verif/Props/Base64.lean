import Verif.Lemmas.Base64
/-! C07, C08: base-64. -/
namespace Wizard.Props
open Wizard Wizard.Spec

/-- **C08** On every text, whatever the allocation contains, `Base64Decode` stays inside its buffer
(no undefined behaviour), and returns a value exactly when the text, non-empty and freed of white
space, is well-formed base-64, and then the value it encodes. -/
theorem C08_decode (junk : Nat → Byte) (s : List Byte) :
    ∃ o, base64Decode junk s = .ok o ∧
      ∀ bs, o = some bs ↔ s ≠ [] ∧ B64 (unblank s) bs := by
  rw [base64Decode_eq]
  by_cases h : s = []
  · subst h; exact ⟨none, by simp, by simp⟩
  · rw [if_neg (by simpa using h)]
    obtain ⟨o, h1, h2⟩ := loop_expect s [] [] [] ⟨(List.range ((s.length + 3) / 4 * 3)).map junk, 0, 0⟩
      ((List.range ((s.length + 3) / 4 * 3)).map junk)
      ⟨.p0, rfl, by simp, by simp⟩ (by simp)
    exact ⟨o, h1, fun bs => by simpa [h] using h2 bs⟩

/-- The specification is unambiguous. -/
theorem C08_decode_unique (t bs bs' : List Byte) (h : B64 t bs) (h' : B64 t bs') : bs = bs' := by
  induction h generalizing bs' with
  | nil => exact ((short_iff .p0 _).mp h').2.symm
  | full ha hb hc hd _ ih =>
    obtain ⟨r, rfl, h⟩ := (full_iff ha hb hc hd _ _).mp h'
    rw [ih r h]
  | pad1 ha hb hc _ => exact ((pend3_iff ha hb hc _ _).mp h').2.2.symm
  | pad2 ha hb _ => exact ((pend2_iff ha hb _ _).mp h').2.2.symm

theorem sextet_char : ∀ k : Fin 64, ∃ c, b64Char k.val = .ok c ∧ sextet c = some k.val ∧
    ¬ IsBlank c := by
  decide +kernel

/-- Only alphabet characters, then at most two `=`. -/
def B64Shape (t : List Byte) : Prop :=
  ∃ body pad, t = body ++ pad ∧ (∀ c ∈ body, (sextet c).isSome) ∧
    (pad = [] ∨ pad = [asc '='] ∨ pad = [asc '=', asc '='])

theorem encode_spec (b : List Byte) : ∃ t, b64EncodeChars b = .ok t ∧ B64 t b ∧
    t.length = 4 * ((b.length + 2) / 3) ∧ B64Shape t ∧ ∀ c ∈ t, ¬ IsBlank c := by
  have beq : ∀ b : Byte, ∀ n, n = b.toNat → byteOf n = b := by
    rintro b n rfl; simp [byteOf]
  have hpad : ¬ IsBlank (asc '=') := by decide
  fun_induction b64EncodeChars b with
  | case1 => exact ⟨[], rfl, .nil, rfl, ⟨[], [], rfl, by simp, by simp⟩, by simp⟩
  | case2 x =>
    have hx := x.isLt
    obtain ⟨c0, e0, s0, n0⟩ := sextet_char ⟨x.toNat / 4, by omega⟩
    obtain ⟨c1, e1, s1, n1⟩ := sextet_char ⟨x.toNat % 4 * 16 + 0 / 16, by omega⟩
    simp only at e0 e1 s0 s1
    rw [e0, e1]
    refine ⟨_, rfl, ?_, by simp, ⟨[c0, c1], _, rfl, by simp [s0, s1], by simp⟩, ?_⟩
    · have := B64.pad2 s0 s1 (by omega)
      rwa [beq x _ (by omega)] at this
    · simp only [List.mem_cons, List.not_mem_nil, or_false]
      rintro c (rfl | rfl | rfl | rfl) <;> assumption
  | case3 x y =>
    have hx := x.isLt
    have hy := y.isLt
    obtain ⟨c0, e0, s0, n0⟩ := sextet_char ⟨x.toNat / 4, by omega⟩
    obtain ⟨c1, e1, s1, n1⟩ := sextet_char ⟨x.toNat % 4 * 16 + y.toNat / 16, by omega⟩
    obtain ⟨c2, e2, s2, n2⟩ := sextet_char ⟨y.toNat % 16 * 4 + 0 / 64, by omega⟩
    simp only at e0 e1 e2 s0 s1 s2
    rw [e0, e1, e2]
    refine ⟨_, rfl, ?_, by simp, ⟨[c0, c1, c2], _, rfl, by simp [s0, s1, s2], by simp⟩, ?_⟩
    · have := B64.pad1 s0 s1 s2 (by omega)
      rwa [beq x _ (by omega), beq y _ (by omega)] at this
    · simp only [List.mem_cons, List.not_mem_nil, or_false]
      rintro c (rfl | rfl | rfl | rfl) <;> assumption
  | case4 x y z r ih =>
    have hx := x.isLt
    have hy := y.isLt
    have hz := z.isLt
    obtain ⟨t, he, hb, hl, ⟨body, pad, ht, hs, hp⟩, hn⟩ := ih
    obtain ⟨c0, e0, s0, n0⟩ := sextet_char ⟨x.toNat / 4, by omega⟩
    obtain ⟨c1, e1, s1, n1⟩ := sextet_char ⟨x.toNat % 4 * 16 + y.toNat / 16, by omega⟩
    obtain ⟨c2, e2, s2, n2⟩ := sextet_char ⟨y.toNat % 16 * 4 + z.toNat / 64, by omega⟩
    obtain ⟨c3, e3, s3, n3⟩ := sextet_char ⟨z.toNat % 64, by omega⟩
    simp only at e0 e1 e2 e3 s0 s1 s2 s3
    rw [e0, e1, e2, e3, he]
    refine ⟨_, rfl, ?_, ?_, ⟨c0 :: c1 :: c2 :: c3 :: body, pad, by simp [ht], ?_, hp⟩, ?_⟩
    · have := B64.full s0 s1 s2 s3 hb
      rwa [beq x _ (by omega), beq y _ (by omega), beq z _ (by omega)] at this
    · simp only [List.length_cons, hl]; omega
    · intro c hc
      simp only [List.mem_cons] at hc
      rcases hc with rfl | rfl | rfl | rfl | hc
      · simp [s0]
      · simp [s1]
      · simp [s2]
      · simp [s3]
      · exact hs c hc
    · simp only [List.mem_cons]
      rintro c (rfl | rfl | rfl | rfl | hc) <;> first | assumption | exact hn c hc

/-- **C07** Encoding a non-empty byte string stays inside its buffer and gives a text of
`4*ceil(n/3)` characters, alphabet characters then at most two `=`, which is the base-64 of the
bytes. -/
theorem C07_encode (b : List Byte) (h : b ≠ []) : ∃ t, base64Encode b = .ok t ∧
    t.length = 4 * ((b.length + 2) / 3) ∧ B64Shape t ∧ B64 t b := by
  obtain ⟨t, h1, h2, h3, h4, _⟩ := encode_spec b
  refine ⟨t, ?_, h3, h4, h2⟩
  rw [base64Encode, if_neg (by simpa using h), h1]
  simp only [Res.ok_bind]
  rw [if_pos (by omega)]; rfl

/-- **C07** Decoding what was encoded returns exactly the bytes. -/
theorem C07_round_trip (junk : Nat → Byte) (b : List Byte) (h : b ≠ []) :
    (base64Encode b >>= base64Decode junk) = .ok (some b) := by
  obtain ⟨t, h1, h2, h3, h4, hn⟩ := encode_spec b
  obtain ⟨t', k1, k2, _⟩ := C07_encode b h
  have : base64Encode b = .ok t := by
    rw [base64Encode, if_neg (by simpa using h), h1] at k1 ⊢
    simp only [Res.ok_bind] at k1 ⊢
    rw [if_pos (by omega)]; rfl
  rw [this]
  simp only [Res.ok_bind]
  obtain ⟨o, hd, ho⟩ := C08_decode junk t
  have hu : unblank t = t := by
    rw [unblank, List.filter_eq_self]
    intro c hc; simpa using hn c hc
  have hne : t ≠ [] := by
    intro ht
    have := List.length_pos_iff.mpr h
    rw [ht] at h3; simp at h3; omega
  rw [hd, (ho b).mpr ⟨hne, by rw [hu]; exact h2⟩]

/-- Padding must be right, unused bits zero, and white space is ignored. -/
example : base64Decode (fun _ => 0xff) [0x54, 0x57, 0x0a, 0x45, 0x3d] = .ok (some [0x4d, 0x61]) ∧
    base64Decode (fun _ => 0xff) [0x54, 0x57, 0x46, 0x3d] = .ok none ∧
    base64Decode (fun _ => 0xff) [0x54, 0x57, 0x45] = .ok none ∧
    base64Decode (fun _ => 0xff) [0x3d] = .ok none := by decide +kernel
example : base64Encode [0x4d, 0x61] = .ok [0x54, 0x57, 0x45, 0x3d] ∧ ([0x4d, 0x61] : List Byte) ≠ [] := by
  decide +kernel

end Wizard.Props

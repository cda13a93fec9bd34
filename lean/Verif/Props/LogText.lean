import Verif.Spec.LogText
import Verif.Props.Option
/-! C124: the text of log events and the names of log files. -/
namespace Wizard.Props
open Wizard Wizard.Spec.Log

/-- The text so far is `t`. -/
structure LogFits (b : LogBuffer) (t : List Byte) : Prop where
  text : b.mem.take b.q = t
  length : t.length = b.q
  nul : (0 : Byte) ∉ t
  room : b.q < b.extent
  size : b.extent ≤ b.mem.length

theorem logFits_push {b : LogBuffer} {t : List Byte} (h : LogFits b t) (hr : b.q + 1 < b.extent) {c : Byte} (hc : c ≠ 0) :
    ∃ b', b.push c = .ok b' ∧ LogFits b' (t ++ [c]) ∧ b'.q = b.q + 1 ∧ b'.extent = b.extent := by
  have hl : b.q < b.mem.length := by have := h.size; omega
  refine ⟨⟨b.mem.set b.q c, b.q + 1, b.extent⟩, ?_, ⟨?_, ?_, ?_, hr, ?_⟩, rfl, rfl⟩
  · simp [LogBuffer.push, wr, hl]
  · show (b.mem.set b.q c).take (b.q + 1) = t ++ [c]
    rw [List.take_succ, List.take_set_of_le (Nat.le_refl _), h.text]
    simp [hl]
  · simp [h.length]
  · simp only [List.mem_append, List.mem_singleton, not_or]; exact ⟨h.nul, fun e => hc e.symm⟩
  · show b.extent ≤ (b.mem.set b.q c).length
    simp [h.size]

theorem logFits_pushAll : ∀ (s : List Byte) {b : LogBuffer} {t : List Byte}, LogFits b t → b.q + s.length < b.extent → (0 : Byte) ∉ s →
    ∃ b', b.pushAll s = .ok b' ∧ LogFits b' (t ++ s)
  | [], b, t, h, _, _ => ⟨b, rfl, by rw [List.append_nil]; exact h⟩
  | c :: s, b, t, h, hr, hs => by
    have hc : c ≠ 0 := fun e => hs (by rw [e]; exact List.mem_cons_self ..)
    simp only [List.length_cons] at hr
    obtain ⟨b1, e1, h1, q1, x1⟩ := logFits_push h (c := c) (by omega) hc
    obtain ⟨b2, e2, h2⟩ := logFits_pushAll s h1 (by rw [q1, x1]; omega) (fun h => hs (List.mem_cons_of_mem _ h))
    exact ⟨b2, by rw [LogBuffer.pushAll, e1, Res.ok_bind, e2], by rw [List.append_assoc] at h2; exact h2⟩

/-- The text of a piece. -/
def pieceText : LogPiece → List Byte
  | .copy s => s
  | .format s => s
  | .bytes s => s

theorem logFits_put {b : LogBuffer} {t : List Byte} (h : LogFits b t) (hr : b.q + 4096 < b.extent) {x : LogPiece}
    (hl : (pieceText x).length < 4096) (hn : (0 : Byte) ∉ pieceText x) : ∃ b', b.put x = .ok b' ∧ LogFits b' (t ++ pieceText x) := by
  have hsz := h.size
  cases x with
  | bytes s => exact logFits_pushAll s h (by simp only [pieceText] at hl; omega) hn
  | copy s =>
    simp only [pieceText] at hl hn ⊢
    have e := copy_fits (b.mem.drop b.q) s [] b.extent hn (by omega) (by rw [List.length_drop]; omega)
    refine ⟨_, by rw [LogBuffer.put, e, Res.ok_bind], ⟨?_, ?_, ?_, ?_, ?_⟩⟩
    · show (b.mem.take b.q ++ (s ++ 0 :: _)).take (b.q + s.length) = _
      rw [h.text, ← List.append_assoc, List.take_left' (by simp [h.length])]
    · simp [h.length]
    · simp only [List.mem_append, not_or]; exact ⟨h.nul, hn⟩
    · show b.q + s.length < b.extent; omega
    · show b.extent ≤ _
      simp only [List.length_append, List.length_take, List.length_cons, List.length_drop]
      omega
  | format s =>
    simp only [pieceText] at hl hn ⊢
    have e1 : s.take (b.extent - 1) = s := List.take_of_length_le (by omega)
    refine ⟨⟨b.mem.take b.q ++ (s ++ [0]) ++ b.mem.drop (b.q + (s ++ [0]).length), b.q + s.length, b.extent⟩, ?_, ⟨?_, ?_, ?_, ?_, ?_⟩⟩
    · rw [LogBuffer.put, e1, wrN, if_pos (by simp; omega), Res.ok_bind]
    · show (b.mem.take b.q ++ (s ++ [0]) ++ _).take (b.q + s.length) = _
      rw [h.text, ← List.append_assoc, List.append_assoc, List.take_left' (by simp [h.length])]
    · simp [h.length]
    · simp only [List.mem_append, not_or]; exact ⟨h.nul, hn⟩
    · show b.q + s.length < b.extent; omega
    · show b.extent ≤ _
      simp only [List.length_append, List.length_take, List.length_cons, List.length_drop, List.length_nil]
      omega

theorem textOf_end {m t : List Byte} {k : Nat} (h : m.take k = t) (hl : t.length = k) (hn : (0 : Byte) ∉ t) (h0 : m[k]? = some 0) : textOf m = t := by
  have hk : k < m.length := by
    rcases Nat.lt_or_ge k m.length with h | h
    · exact h
    · rw [List.getElem?_eq_none h] at h0; cases h0
  have : m = t ++ 0 :: m.drop (k + 1) := by
    rw [List.getElem?_eq_getElem hk] at h0
    have := List.drop_eq_getElem_cons hk
    rw [Option.some.inj h0] at this
    rw [← this, ← h, List.take_append_drop]
  rw [this, textOf_text t _ hn]

theorem logFits_grow (junk : Nat → Byte) {b : LogBuffer} {t : List Byte} (h : LogFits b t) :
    ∃ b', b.grow junk = .ok b' ∧ LogFits b' t ∧ b'.q + 4096 < b'.extent := by
  have hl : b.q < b.mem.length := by have := h.size; have := h.room; omega
  have h1 : (b.mem.set b.q 0).take b.q = t := by rw [List.take_set_of_le (Nat.le_refl _), h.text]
  have h2 : (b.mem.set b.q 0)[b.q]? = some 0 := by simp [hl]
  unfold LogBuffer.grow
  rw [wr, if_pos hl, Res.ok_bind]
  have hr := h.room
  have hs := h.size
  by_cases hx : b.q + wizardPathExtent ≥ b.extent
  · rw [if_pos hx]
    unfold wizardPathExtent at hx ⊢
    have e1 : (reallocMem (b.mem.set b.q 0) (b.extent + 4096 + 4096) junk).take b.q = t := by
      unfold reallocMem
      rw [List.take_append_of_le_length (by simp; omega), List.take_take, Nat.min_eq_left (by omega), h1]
    have e2 : (reallocMem (b.mem.set b.q 0) (b.extent + 4096 + 4096) junk)[b.q]? = some 0 := by
      unfold reallocMem
      rw [List.getElem?_append_left (by simp; omega), List.getElem?_take_of_lt (by omega), h2]
    have e3 := textOf_end e1 h.length h.nul e2
    refine ⟨_, rfl, ⟨?_, ?_, h.nul, ?_, ?_⟩, ?_⟩
    · simp only [e3, h.length, e1]
    · simp only [e3]
    · simp only [e3, h.length]; omega
    · simp
    · simp only [e3, h.length]; omega
  · rw [if_neg hx]
    unfold wizardPathExtent at hx
    exact ⟨_, rfl, ⟨h1, h.length, h.nul, h.room, by simp [h.size]⟩, by show b.q + 4096 < b.extent; omega⟩

theorem logLoop_fits (junk : Nat → Byte) (escapes : Bool) (directive : Byte → Res LogPiece) (mean : Byte → List Byte)
    (hd : ∀ d, d ≠ 0 → ∃ x, directive d = .ok x ∧ pieceText x = mean d ∧ (mean d).length < 4096 ∧ (0 : Byte) ∉ mean d) :
    ∀ (n : Nat) (p : List Byte) (b : LogBuffer) (t : List Byte), p.length ≤ n → (0 : Byte) ∉ p → LogFits b t →
      ∃ b', logLoop junk escapes directive p b = .ok b' ∧ LogFits b' (t ++ expand escapes mean p)
  | _, [], b, t, _, _, h => ⟨b, rfl, by simpa [expand] using h⟩
  | n, [c], b, t, _, hp, h => by
    have hc : c ≠ 0 := fun e => hp (by rw [e]; exact List.mem_cons_self ..)
    obtain ⟨b1, e1, h1, r1⟩ := logFits_grow junk h
    rw [logLoop, e1, Res.ok_bind, expand]
    by_cases hx : c = asc '%'
    · rw [if_neg (fun h => h hx), if_pos hx, List.append_nil]; exact ⟨b1, rfl, h1⟩
    · rw [if_pos hx, if_neg hx]
      obtain ⟨b2, e2, h2, _⟩ := logFits_push h1 (c := c) (by omega) hc
      exact ⟨b2, e2, h2⟩
  | 0, _ :: _ :: _, _, _, hn, _, _ => by simp at hn
  | n + 1, c :: d :: p, b, t, hn, hp, h => by
    simp only [List.length_cons] at hn
    have hc : c ≠ 0 := fun e => hp (by rw [e]; exact List.mem_cons_self ..)
    have hd0 : d ≠ 0 := fun e => hp (by rw [e]; simp)
    have hp1 : (0 : Byte) ∉ d :: p := fun h => hp (List.mem_cons_of_mem _ h)
    have hp2 : (0 : Byte) ∉ p := fun h => hp1 (List.mem_cons_of_mem _ h)
    obtain ⟨b1, e1, h1, r1⟩ := logFits_grow junk h
    rw [logLoop, e1, Res.ok_bind, expand]
    by_cases c1 : escapes = true ∧ c = asc '\\' ∧ d = asc 'r'
    · rw [if_pos c1, if_pos c1]
      obtain ⟨b2, e2, h2, _⟩ := logFits_push h1 (c := 13) (by omega) (by decide)
      obtain ⟨b3, e3, h3⟩ := logLoop_fits junk escapes directive mean hd n p b2 _ (by omega) hp2 h2
      exact ⟨b3, by rw [e2, Res.ok_bind, e3], by simpa [List.append_assoc] using h3⟩
    · rw [if_neg c1, if_neg c1]
      by_cases c2 : escapes = true ∧ c = asc '\\' ∧ d = asc 'n'
      · rw [if_pos c2, if_pos c2]
        obtain ⟨b2, e2, h2, _⟩ := logFits_push h1 (c := 10) (by omega) (by decide)
        obtain ⟨b3, e3, h3⟩ := logLoop_fits junk escapes directive mean hd n p b2 _ (by omega) hp2 h2
        exact ⟨b3, by rw [e2, Res.ok_bind, e3], by simpa [List.append_assoc] using h3⟩
      · rw [if_neg c2, if_neg c2]
        by_cases c3 : c = asc '%'
        · rw [if_neg (fun h => h c3), if_pos c3]
          obtain ⟨x, x1, x2, x3, x4⟩ := hd d hd0
          obtain ⟨b2, e2, h2⟩ := logFits_put h1 r1 (x := x) (by rw [x2]; exact x3) (by rw [x2]; exact x4)
          obtain ⟨b3, e3, h3⟩ := logLoop_fits junk escapes directive mean hd n p b2 _ (by omega) hp2 h2
          exact ⟨b3, by rw [x1, Res.ok_bind, e2, Res.ok_bind, e3], by rw [x2, List.append_assoc] at h3; exact h3⟩
        · rw [if_pos c3, if_neg c3]
          obtain ⟨b2, e2, h2, _⟩ := logFits_push h1 (c := c) (by omega) hc
          obtain ⟨b3, e3, h3⟩ := logLoop_fits junk escapes directive mean hd n (d :: p) b2 _ (by simp only [List.length_cons]; omega) hp1 h2
          exact ⟨b3, by rw [e2, Res.ok_bind, e3], by simpa [List.append_assoc] using h3⟩

theorem logFits_end {b : LogBuffer} {t : List Byte} (h : LogFits b t) : ∃ m, wr b.mem b.q 0 = .ok m ∧ textOf m = t := by
  have hl : b.q < b.mem.length := by have := h.size; have := h.room; omega
  refine ⟨b.mem.set b.q 0, by rw [wr, if_pos hl], ?_⟩
  exact textOf_end (by rw [List.take_set_of_le (Nat.le_refl _), h.text]) h.length h.nul (by simp [hl])

/-! The tables. -/

theorem moduleFrom_spec (s : List Byte) : ∀ (i : Nat), i < s.length → (∀ j, i < j → s[j]? ≠ some (asc '/')) → moduleFrom s i = baseName s := by
  intro i
  induction i with
  | zero =>
    intro hi hn
    rw [moduleFrom, baseName, if_neg]
    intro hm
    obtain ⟨k, hk⟩ := List.mem_iff_getElem?.mp hm
    rw [List.getElem?_tail] at hk
    exact hn (k + 1) (by omega) hk
  | succ i ih =>
    intro hi hn
    rw [moduleFrom]
    by_cases hx : s[i + 1]? = some (asc '/')
    · rw [if_pos hx, baseName, if_pos]
      · have hsplit : s = s.take (i + 1) ++ asc '/' :: s.drop (i + 2) := by
          rw [List.getElem?_eq_getElem hi] at hx
          have := List.drop_eq_getElem_cons hi
          rw [Option.some.inj hx] at this
          rw [← this, List.take_append_drop]
        have hno : asc '/' ∉ s.drop (i + 2) := by
          intro hm
          obtain ⟨k, hk⟩ := List.mem_iff_getElem?.mp hm
          rw [List.getElem?_drop] at hk
          exact hn (i + 2 + k) (by omega) hk
        have hr : s.reverse = (s.drop (i + 2)).reverse ++ asc '/' :: (s.take (i + 1)).reverse := by
          conv => lhs; rw [hsplit]
          simp
        have hall : ∀ x ∈ (s.drop (i + 2)).reverse, (decide (x ≠ asc '/')) = true := by
          intro x hx
          rw [List.mem_reverse] at hx
          simp only [decide_eq_true_eq]
          intro e; subst e; exact hno hx
        rw [hr, List.takeWhile_append_of_pos hall]
        simp
      · refine List.mem_iff_getElem?.mpr ⟨i, ?_⟩
        rw [List.getElem?_tail]; exact hx
    · rw [if_neg hx]
      refine ih (by omega) ?_
      intro j hj
      by_cases e : j = i + 1
      · rw [e]; exact hx
      · exact hn j (by omega)

theorem moduleTail_spec {s : List Byte} (h : s ≠ []) : moduleTail s = .ok (baseName s) := by
  have hl : 0 < s.length := List.length_pos_iff.mpr h
  rw [moduleTail, if_neg h, moduleFrom_spec s _ (by omega)]
  intro j hj
  rw [List.getElem?_eq_none (by omega)]; simp

theorem baseName_sub (s : List Byte) : (baseName s).length ≤ s.length ∧ ∀ c ∈ baseName s, c ∈ s := by
  unfold baseName
  split
  · refine ⟨?_, ?_⟩
    · rw [List.length_reverse]
      have := (List.takeWhile_sublist (fun x => decide (x ≠ asc '/')) (l := s.reverse)).length_le
      simpa using this
    · intro c hc
      rw [List.mem_reverse] at hc
      have := (List.takeWhile_sublist (fun x => decide (x ≠ asc '/')) (l := s.reverse)).subset hc
      simpa using this
  · exact ⟨Nat.le_refl _, fun _ h => h⟩

/-- The switch of `TranslateEvent` is the table. -/
theorem eventDirective_spec {f : LogFields} (hf : Short f) (hm : f.module ≠ []) (d : Byte) (hd : d ≠ 0) :
    ∃ x, eventDirective f d = .ok x ∧ pieceText x = means (eventLetters f) d ∧ (means (eventLetters f) d).length < 4096 ∧
      (0 : Byte) ∉ means (eventLetters f) d := by
  have key : ∃ x, eventDirective f d = .ok x ∧ pieceText x = means (eventLetters f) d := by
    unfold eventDirective means eventLetters
    rw [moduleTail_spec hm]
    simp only [List.find?_cons, List.find?_nil]
    by_cases h1 : d = asc 'c'; · exact ⟨_, by rw [if_pos h1], by subst h1; rfl⟩
    by_cases h2 : d = asc 'd'; · exact ⟨_, by rw [if_neg h1, if_pos h2], by subst h2; rfl⟩
    by_cases h3 : d = asc 'e'; · exact ⟨_, by rw [if_neg h1, if_neg h2, if_pos h3], by subst h3; rfl⟩
    by_cases h4 : d = asc 'f'; · exact ⟨_, by rw [if_neg h1, if_neg h2, if_neg h3, if_pos h4], by subst h4; rfl⟩
    by_cases h5 : d = asc 'g'; · exact ⟨_, by rw [if_neg h1, if_neg h2, if_neg h3, if_neg h4, if_pos h5], by subst h5; rfl⟩
    by_cases h6 : d = asc 'i'; · exact ⟨_, by rw [if_neg h1, if_neg h2, if_neg h3, if_neg h4, if_neg h5, if_pos h6], by subst h6; rfl⟩
    rw [if_neg h1, if_neg h2, if_neg h3, if_neg h4, if_neg h5, if_neg h6]
    by_cases h7 : d = asc 'l'; · exact ⟨_, by rw [if_pos h7], by subst h7; rfl⟩
    by_cases h8 : d = asc 'm'; · exact ⟨_, by rw [if_neg h7, if_pos h8]; rfl, by subst h8; rfl⟩
    by_cases h9 : d = asc 'n'; · exact ⟨_, by rw [if_neg h7, if_neg h8, if_pos h9], by subst h9; rfl⟩
    by_cases h10 : d = asc 'p'; · exact ⟨_, by rw [if_neg h7, if_neg h8, if_neg h9, if_pos h10], by subst h10; rfl⟩
    by_cases h11 : d = asc 'r'; · exact ⟨_, by rw [if_neg h7, if_neg h8, if_neg h9, if_neg h10, if_pos h11], by subst h11; rfl⟩
    rw [if_neg h7, if_neg h8, if_neg h9, if_neg h10, if_neg h11]
    by_cases h12 : d = asc 't'; · exact ⟨_, by rw [if_pos h12], by subst h12; rfl⟩
    by_cases h13 : d = asc 'u'; · exact ⟨_, by rw [if_neg h12, if_pos h13], by subst h13; rfl⟩
    by_cases h14 : d = asc 'v'; · exact ⟨_, by rw [if_neg h12, if_neg h13, if_pos h14], by subst h14; rfl⟩
    by_cases h15 : d = asc '%'; · exact ⟨_, by rw [if_neg h12, if_neg h13, if_neg h14, if_pos h15], by subst h15; rfl⟩
    refine ⟨.bytes [asc '%', d], by rw [if_neg h12, if_neg h13, if_neg h14, if_neg h15], ?_⟩
    have nb : ∀ c : Char, d ≠ asc c → (asc c == d) = false := fun c h => by simp only [beq_eq_false_iff_ne]; exact fun e => h e.symm
    simp only [nb _ h1, nb _ h2, nb _ h3, nb _ h4, nb _ h5, nb _ h6, nb _ h7, nb _ h8, nb _ h9, nb _ h10, nb _ h11, nb _ h12, nb _ h13, nb _ h14, nb _ h15]
    rfl
  have lim : (means (eventLetters f) d).length < 4096 ∧ (0 : Byte) ∉ means (eventLetters f) d := by
    unfold means
    cases hx : (eventLetters f).find? (fun l => asc l.1 == d) with
    | none => exact ⟨by simp, by
      simp only [List.mem_cons, List.not_mem_nil, or_false, not_or]; exact ⟨by decide, fun e => hd e.symm⟩⟩
    | some l =>
      have hl := List.mem_of_find?_eq_some hx
      have hb := baseName_sub f.module
      have hmod := hf f.module (by simp)
      simp only [eventLetters, List.mem_cons, List.not_mem_nil, or_false] at hl
      simp only []
      rcases hl with e | e | e | e | e | e | e | e | e | e | e | e | e | e | e <;> subst e
      case inr.inr.inr.inr.inr.inr.inr.inl => exact ⟨by simp only []; omega, fun h => hmod.1 (hb.2 _ h)⟩
      case inr.inr.inr.inr.inr.inr.inr.inr.inr.inr.inr.inr.inr.inr => exact ⟨by simp, by decide⟩
      all_goals exact ⟨(hf _ (by simp)).2, (hf _ (by simp)).1⟩
  obtain ⟨x, x1, x2⟩ := key
  exact ⟨x, x1, x2, lim⟩

/-- The switch of `TranslateFilename` is the table. -/
theorem nameDirective_spec {f : LogFields} (hf : Short f) (d : Byte) (hd : d ≠ 0) :
    ∃ x, nameDirective f d = .ok x ∧ pieceText x = means (nameLetters f) d ∧ (means (nameLetters f) d).length < 4096 ∧
      (0 : Byte) ∉ means (nameLetters f) d := by
  have key : ∃ x, nameDirective f d = .ok x ∧ pieceText x = means (nameLetters f) d := by
    unfold nameDirective means nameLetters
    simp only [List.find?_cons, List.find?_nil]
    by_cases h1 : d = asc 'c'; · exact ⟨_, by rw [if_pos h1], by subst h1; rfl⟩
    by_cases h2 : d = asc 'g'; · exact ⟨_, by rw [if_neg h1, if_pos h2], by subst h2; rfl⟩
    by_cases h3 : d = asc 'n'; · exact ⟨_, by rw [if_neg h1, if_neg h2, if_pos h3], by subst h3; rfl⟩
    by_cases h4 : d = asc 'p'; · exact ⟨_, by rw [if_neg h1, if_neg h2, if_neg h3, if_pos h4], by subst h4; rfl⟩
    by_cases h5 : d = asc 'v'; · exact ⟨_, by rw [if_neg h1, if_neg h2, if_neg h3, if_neg h4, if_pos h5], by subst h5; rfl⟩
    by_cases h6 : d = asc '%'; · exact ⟨_, by rw [if_neg h1, if_neg h2, if_neg h3, if_neg h4, if_neg h5, if_pos h6], by subst h6; rfl⟩
    refine ⟨.bytes [asc '%', d], by rw [if_neg h1, if_neg h2, if_neg h3, if_neg h4, if_neg h5, if_neg h6], ?_⟩
    have nb : ∀ c : Char, d ≠ asc c → (asc c == d) = false := fun c h => by simp only [beq_eq_false_iff_ne]; exact fun e => h e.symm
    simp only [nb _ h1, nb _ h2, nb _ h3, nb _ h4, nb _ h5, nb _ h6]
    rfl
  have lim : (means (nameLetters f) d).length < 4096 ∧ (0 : Byte) ∉ means (nameLetters f) d := by
    unfold means
    cases hx : (nameLetters f).find? (fun l => asc l.1 == d) with
    | none => exact ⟨by simp, by
      simp only [List.mem_cons, List.not_mem_nil, or_false, not_or]; exact ⟨by decide, fun e => hd e.symm⟩⟩
    | some l =>
      have hl := List.mem_of_find?_eq_some hx
      simp only [nameLetters, List.mem_cons, List.not_mem_nil, or_false] at hl
      simp only []
      rcases hl with e | e | e | e | e | e <;> subst e
      case inr.inr.inr.inr.inr => exact ⟨by simp, by decide⟩
      all_goals exact ⟨(hf _ (by simp)).2, (hf _ (by simp)).1⟩
  obtain ⟨x, x1, x2⟩ := key
  exact ⟨x, x1, x2, lim⟩

/-- **C124** For every format (of any length) and all texts of at most 4095 bytes, with a source file that has a name, the text of a log
event is what the format says, and no byte is written outside the buffer. -/
theorem C124_event_partial (junk : Nat → Byte) (isXml : List Byte → Bool) (format : List Byte) (h0 : (0 : Byte) ∉ format)
    (hx : isXml format = false) (f : LogFields) (hf : Short f) (hm : f.module ≠ []) :
    translateEvent junk isXml (some format) f = .ok (expand true (means (eventLetters f)) format) := by
  have he := hf f.event (by simp)
  have hb : LogFits ⟨acquireString junk f.event, 0, f.event.length + wizardPathExtent⟩ [] := by
    refine ⟨rfl, rfl, List.not_mem_nil, ?_, ?_⟩
    · show 0 < f.event.length + wizardPathExtent; unfold wizardPathExtent; omega
    · simp [acquireString, wizardPathExtent]
  obtain ⟨b, e1, h1⟩ := logLoop_fits junk true (eventDirective f) _ (fun d hd => eventDirective_spec hf hm d hd) _ format _ _ (Nat.le_refl _) h0 hb
  obtain ⟨m, e2, e3⟩ := logFits_end h1
  simp only [translateEvent, hx, Bool.false_eq_true, if_false]
  rw [e1, Res.ok_bind, e2, Res.ok_bind, e3, List.nil_append]

/-- **C124** The same of the names of log files. -/
theorem C124_filename (junk : Nat → Byte) (filename : List Byte) (h0 : (0 : Byte) ∉ filename) (f : LogFields) (hf : Short f) :
    translateFilename junk (some filename) f = .ok (expand false (means (nameLetters f)) filename) := by
  have hb : LogFits ⟨acquireString junk [], 0, wizardPathExtent⟩ [] := by
    refine ⟨rfl, rfl, List.not_mem_nil, ?_, ?_⟩
    · show 0 < wizardPathExtent; unfold wizardPathExtent; omega
    · simp [acquireString, wizardPathExtent]
  obtain ⟨b, e1, h1⟩ := logLoop_fits junk false (nameDirective f) _ (fun d hd => nameDirective_spec hf d hd) _ filename _ _ (Nat.le_refl _) h0 hb
  obtain ⟨m, e2, e3⟩ := logFits_end h1
  simp only [translateFilename]
  rw [e1, Res.ok_bind, e2, Res.ok_bind, e3, List.nil_append]

theorem xmlEntry_spec (f : LogFields) : xmlEntry f = Spec.Log.entry f := by
  have t1 : ascText "<entry>\n  <timestamp>" = ascText "<entry>\n" ++ (ascText "  <" ++ ascText "timestamp" ++ ascText ">") := by decide +kernel
  have t2 : ascText "</timestamp>\n  <elapsed-time>" = ascText "</" ++ ascText "timestamp" ++ ascText ">\n" ++ (ascText "  <" ++ ascText "elapsed-time" ++ ascText ">") := by decide +kernel
  have t3 : ascText "</elapsed-time>\n  <user-time>" = ascText "</" ++ ascText "elapsed-time" ++ ascText ">\n" ++ (ascText "  <" ++ ascText "user-time" ++ ascText ">") := by decide +kernel
  have t4 : ascText "</user-time>\n  <process-id>" = ascText "</" ++ ascText "user-time" ++ ascText ">\n" ++ (ascText "  <" ++ ascText "process-id" ++ ascText ">") := by decide +kernel
  have t5 : ascText "</process-id>\n  <thread-id>" = ascText "</" ++ ascText "process-id" ++ ascText ">\n" ++ (ascText "  <" ++ ascText "thread-id" ++ ascText ">") := by decide +kernel
  have t6 : ascText "</thread-id>\n  <module>" = ascText "</" ++ ascText "thread-id" ++ ascText ">\n" ++ (ascText "  <" ++ ascText "module" ++ ascText ">") := by decide +kernel
  have t7 : ascText "</module>\n  <function>" = ascText "</" ++ ascText "module" ++ ascText ">\n" ++ (ascText "  <" ++ ascText "function" ++ ascText ">") := by decide +kernel
  have t8 : ascText "</function>\n  <line>" = ascText "</" ++ ascText "function" ++ ascText ">\n" ++ (ascText "  <" ++ ascText "line" ++ ascText ">") := by decide +kernel
  have t9 : ascText "</line>\n  <domain>" = ascText "</" ++ ascText "line" ++ ascText ">\n" ++ (ascText "  <" ++ ascText "domain" ++ ascText ">") := by decide +kernel
  have t10 : ascText "</domain>\n  <event>" = ascText "</" ++ ascText "domain" ++ ascText ">\n" ++ (ascText "  <" ++ ascText "event" ++ ascText ">") := by decide +kernel
  have t11 : ascText "</event>\n</entry>" = ascText "</" ++ ascText "event" ++ ascText ">\n" ++ ascText "</entry>" := by decide +kernel
  unfold xmlEntry Spec.Log.entry entryElements
  rw [t1, t2, t3, t4, t5, t6, t7, t8, t9, t10, t11]
  simp only [List.flatMap_cons, List.flatMap_nil, List.append_assoc, List.append_nil]

/-- **C124** A log without a format: the text is the event. -/
theorem C124_plain (junk : Nat → Byte) (isXml : List Byte → Bool) (f : LogFields) (hf : Short f) : translateEvent junk isXml none f = .ok f.event := by
  have := (hf f.event (by simp)).1
  simp only [translateEvent, acquireString]
  rw [textOf_text _ _ this]

/-- **C124** The XML format: the whole entry if it is shorter than the event and 4096 bytes. -/
theorem C124_xml_partial (junk : Nat → Byte) (isXml : List Byte → Bool) (format : List Byte) (hx : isXml format = true) (f : LogFields)
    (hf : Short f) (hl : (Spec.Log.entry f).length < f.event.length + 4096) : translateEvent junk isXml (some format) f = .ok (Spec.Log.entry f) := by
  rw [← xmlEntry_spec] at hl ⊢
  have h0 : (0 : Byte) ∉ xmlEntry f := by
    have ap : ∀ {a b : List Byte}, (0 : Byte) ∉ a → (0 : Byte) ∉ b → (0 : Byte) ∉ a ++ b := by
      intro a b ha hb h
      rcases List.mem_append.mp h with h | h
      · exact ha h
      · exact hb h
    have b : ∀ s, s ∈ _ → (0 : Byte) ∉ s := fun s hs => (hf s hs).1
    unfold xmlEntry
    refine ap (ap (ap (ap (ap (ap (ap (ap (ap (ap (ap (ap (ap (ap (ap (ap (ap (ap (ap (ap ?_ ?_) ?_) ?_) ?_) ?_) ?_) ?_) ?_) ?_) ?_) ?_) ?_) ?_) ?_) ?_) ?_) ?_) ?_) ?_) ?_
    all_goals first
      | decide +kernel
      | exact b _ (by simp)
  simp only [translateEvent, hx, if_true]
  unfold wizardPathExtent
  rw [List.take_of_length_le (by omega), wrN, if_pos (by simp [acquireString, wizardPathExtent]; omega), Res.ok_bind]
  have : (acquireString junk f.event).take 0 ++ (xmlEntry f ++ [0]) ++ (acquireString junk f.event).drop (0 + (xmlEntry f ++ [0]).length) =
      xmlEntry f ++ 0 :: (acquireString junk f.event).drop (0 + (xmlEntry f ++ [0]).length) := by simp
  rw [this, textOf_text _ _ h0]

/-- A log event, as in the comments of log.xml. -/
def someFields : LogFields :=
  ⟨ascText "client", ascText "Trace", ascText "hello", ascText "main", ascText "0", ascText "1", ascText "12", ascText "wizard/log.c", ascText "Wizard",
   ascText "77", ascText "0:00.001", ascText "2026-11-15T12:00:00+00:00", ascText "0.000u", ascText "1.0"⟩

theorem someFields_short : Short someFields := by unfold Short; decide +kernel

example (junk : Nat → Byte) : translateEvent junk (fun _ => false) (some (ascText "%t %d %c[%p]: %m/%f/%l\\n  %e %% %q%")) someFields =
    .ok (ascText "2026-11-15T12:00:00+00:00 Trace client[77]: log.c/main/12\n  hello % %q") := by
  rw [C124_event_partial junk (fun _ => false) (ascText "%t %d %c[%p]: %m/%f/%l\\n  %e %% %q%") (by decide +kernel) rfl someFields someFields_short (by decide +kernel)]
  decide +kernel

example (junk : Nat → Byte) : translateEvent junk (fun _ => true) (some (ascText "xml")) someFields = .ok (Spec.Log.entry someFields) :=
  C124_xml_partial junk _ _ rfl _ someFields_short (by decide +kernel)

/-- **C124 is false** for a source file without a name: `%m` looks at the byte before it. -/
theorem C124_module_violated (junk : Nat → Byte) (f : LogFields) (h : f.module = []) :
    translateEvent junk (fun _ => false) (some (ascText "%m")) f = .ub := by
  have hb : LogFits ⟨acquireString junk f.event, 0, f.event.length + wizardPathExtent⟩ [] := by
    refine ⟨rfl, rfl, List.not_mem_nil, ?_, ?_⟩
    · show 0 < f.event.length + wizardPathExtent; unfold wizardPathExtent; omega
    · simp [acquireString, wizardPathExtent]
  obtain ⟨b1, e1, _⟩ := logFits_grow junk hb
  simp only [translateEvent, Bool.false_eq_true, if_false]
  have : logLoop junk true (eventDirective f) (ascText "%m") ⟨acquireString junk f.event, 0, f.event.length + wizardPathExtent⟩ = .ub := by
    show logLoop junk true (eventDirective f) [asc '%', asc 'm'] _ = .ub
    rw [logLoop, e1, Res.ok_bind, if_neg (by decide), if_neg (by decide), if_neg (by decide)]
    have : eventDirective f (asc 'm') = .ub := by
      show (moduleTail f.module).bind _ = _
      rw [moduleTail, if_pos h]; rfl
    rw [this]; rfl
  rw [this]; rfl

theorem copySteps_over (src : List Byte) : ∀ (k : Nat) (buf : List Byte) (i : Nat), i ≤ buf.length → buf.length < i + k →
    (∀ j, j ≤ buf.length → ∃ c, src[j]? = some c ∧ c ≠ 0) → copySteps src k buf i = .ub := by
  intro k
  induction k with
  | zero => intro buf i h1 h2 _; omega
  | succ k ih =>
    intro buf i h1 h2 hs
    obtain ⟨c, e1, e2⟩ := hs i h1
    rw [copySteps]
    by_cases hi : i = buf.length
    · have : copyStep src buf i = .ub := by
        unfold copyStep
        rw [rd, e1]
        simp [wr, hi]
      rw [this]; rfl
    · have : copyStep src buf i = .ok (.inr (buf.set i c, i + 1)) := by
        unfold copyStep
        rw [rd, e1]
        simp only [Res.ok_bind]
        rw [wr, if_pos (by omega)]
        simp only [Res.ok_bind]
        rw [if_neg e2]; rfl
      rw [this, Res.ok_bind]
      exact ih _ _ (by simp; omega) (by simp; omega) (by simpa using hs)

/-- **C124 is false** of long texts: the limit given to `CopyWizardString` is the size of the whole buffer, not of what is left of it.  Every
function name of 4096 bytes more than the event runs over the end. -/
theorem C124_long_violated (junk : Nat → Byte) (f : LogFields) (he : 3 ≤ f.event.length) (hf : f.event.length + 4096 ≤ f.function.length)
    (h0 : (0 : Byte) ∉ f.function) : translateEvent junk (fun _ => false) (some (ascText "xx%f")) f = .ub := by
  have step : ∀ b : LogBuffer, b.q < b.mem.length → b.q + 4096 < b.extent → b.grow junk = .ok { b with mem := b.mem.set b.q 0 } := by
    intro b h1 h2
    unfold LogBuffer.grow wizardPathExtent
    rw [wr, if_pos h1, Res.ok_bind, if_neg (by omega)]
  have push : ∀ (b : LogBuffer) (c : Byte), b.q < b.mem.length → b.push c = .ok ⟨b.mem.set b.q c, b.q + 1, b.extent⟩ := by
    intro b c h1
    rw [LogBuffer.push, wr, if_pos h1]; rfl
  have hl : (acquireString junk f.event).length = f.event.length + 4096 := by simp [acquireString, wizardPathExtent]
  have key : logLoop junk true (eventDirective f) (ascText "xx%f") ⟨acquireString junk f.event, 0, f.event.length + wizardPathExtent⟩ = .ub := by
    show logLoop junk true (eventDirective f) [asc 'x', asc 'x', asc '%', asc 'f'] _ = .ub
    unfold wizardPathExtent
    rw [logLoop, step _ (by simp; omega) (by simp; omega), Res.ok_bind, if_neg (by decide), if_neg (by decide), if_pos (by decide),
      push _ _ (by simp; omega), Res.ok_bind]
    rw [logLoop, step _ (by simp; omega) (by simp; omega), Res.ok_bind, if_neg (by decide), if_neg (by decide), if_pos (by decide),
      push _ _ (by simp; omega), Res.ok_bind]
    rw [logLoop, step _ (by simp; omega) (by simp; omega), Res.ok_bind, if_neg (by decide), if_neg (by decide), if_neg (by decide)]
    have : eventDirective f (asc 'f') = .ok (.copy f.function) := rfl
    rw [this, Res.ok_bind, LogBuffer.put, copyWizardString_eq _ _ _ (by simp only []; omega),
      copySteps_over _ _ _ _ (Nat.zero_le _) (by simp only [List.length_drop, List.length_set, hl]; omega)]
    · rfl
    · intro j hj
      simp only [List.length_drop, List.length_set, hl] at hj
      have hj' : j < f.function.length := by omega
      refine ⟨f.function[j], ?_, fun e => h0 (e ▸ List.getElem_mem hj')⟩
      rw [List.getElem?_append_left hj', List.getElem?_eq_getElem hj']
  simp only [translateEvent, Bool.false_eq_true, if_false]
  rw [key]; rfl

example (junk : Nat → Byte) : translateEvent junk (fun _ => false) (some (ascText "xx%f")) { someFields with function := List.replicate 4200 (asc 'f') } = .ub := by
  refine C124_long_violated junk _ (by decide +kernel) ?_ ?_
  · show 5 + 4096 ≤ (List.replicate 4200 (asc 'f')).length
    rw [List.length_replicate]; omega
  · intro h
    have := List.eq_of_mem_replicate (show (0 : Byte) ∈ List.replicate 4200 (asc 'f') from h)
    exact absurd this (by decide)

/-- **C124 is false** of the XML format: of every entry of 4096 bytes more than the event or longer the end is cut off (its end tags with it). -/
theorem C124_xml_violated (junk : Nat → Byte) (f : LogFields) (hl : f.event.length + 4096 ≤ (Spec.Log.entry f).length) :
    translateEvent junk (fun _ => true) (some (ascText "xml")) f ≠ .ok (Spec.Log.entry f) := by
  rw [← xmlEntry_spec] at hl ⊢
  intro h
  simp only [translateEvent, if_true] at h
  unfold wizardPathExtent at h
  rw [wrN, if_pos (by simp [acquireString, wizardPathExtent]; omega), Res.ok_bind] at h
  have h' := congrArg List.length (Res.ok.inj h)
  have : ∀ (m s r : List Byte), m = [] ++ (s ++ [0]) ++ r → (textOf m).length ≤ s.length := by
    intro m s r e
    subst e
    unfold textOf
    induction s with
    | nil => simp
    | cons c s ih =>
      simp only [List.nil_append, List.cons_append] at ih ⊢
      rw [List.takeWhile_cons]
      split
      · simp only [List.length_cons]; omega
      · simp
  have h2 := this (List.take 0 (acquireString junk f.event) ++ (List.take (f.event.length + 4096 - 1) (xmlEntry f) ++ [0]) ++
    List.drop (0 + (List.take (f.event.length + 4096 - 1) (xmlEntry f) ++ [0]).length) (acquireString junk f.event)) _ _ rfl
  rw [h', List.length_take] at h2
  omega

/-- **C124 is false** without a name for the log file: a failed assert. -/
theorem C124_noname_violated (junk : Nat → Byte) (f : LogFields) : translateFilename junk none f = .ub := rfl

end Wizard.Props

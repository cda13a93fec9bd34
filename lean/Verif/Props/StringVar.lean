import Verif.Lemmas.StringVar
/-! C170: string variables have the texts they were given, whatever the allocator does, unless a string is given to itself. -/
namespace Wizard.Props
open Spec.StringVar

/-- One call. -/
theorem strCall_holds {w : StrWorld} {t : Texts} (h : HoldsTexts w t) (c : StrCall) (hc : Allowed t c) (hf : Fits (after t c)) (move : Bool) (junk : Nat → Byte) :
    ∃ w', strCall w c move junk = .ok w' ∧ HoldsTexts w' (after t c) := by
  have hmax : sizeMax = 2 ^ 64 := by unfold sizeMax; rfl
  have hpe : wizardPathExtent = 4096 := rfl
  cases c with
  | destroy v => exact destroy_holds h v
  | clone v src =>
    obtain ⟨hr, ha⟩ := hc
    by_cases hn : src = .null
    · subst hn
      simp only [strCall, cloneVar, StrWorld.pointer, if_true, after, value]
      exact destroy_holds h v
    · obtain ⟨s, hs, src'⟩ := source_of h v src hr ha hn
      have hlen : s.length + wizardPathExtent < sizeMax := by
        have := hf v s (by simp [after, Spec.StringVar.set, hs])
        omega
      simp only [strCall, cloneVar, if_neg src'.some, after, hs]
      cases hv : w.var v with
      | none =>
        obtain ⟨w', tail, e, g⟩ := acquire_given hv (.inr src') hlen junk
        exact ⟨w', e, g.holds h src'.nul⟩
      | some b =>
        obtain ⟨r, tl, _, _, hb⟩ := h.var_text hv
        obtain ⟨w1, c, e1, g1⟩ := resize_given h hv hb (size := s.length + wizardPathExtent) move junk
        obtain ⟨w2, tail, e2, g2⟩ := finish (d := 0) g1 src' (by rw [reallocMem_length]; omega)
        refine ⟨w2, ?_, ?_⟩
        · simp only [src'.len, Res.ok_bind]
          rw [if_neg (by omega), e1, Res.ok_bind]
          simpa using e2
        · rw [List.take_zero, List.nil_append] at g2
          exact g2.holds h src'.nul
  | append v src =>
    obtain ⟨hr, ha, hnull⟩ := hc
    cases hv : w.var v with
    | none =>
      have ht : t v = none := by
        cases ht : t v with
        | none => rfl
        | some s => obtain ⟨_, b, _, h1, _⟩ := h.text v s ht; rw [hv] at h1; cases h1
      simp only [strCall, appendVar, hv, after, ht, Option.getD_none, List.nil_append]
      by_cases hn : src = .null
      · subst hn
        obtain ⟨w', tail, e, g⟩ := acquire_given (v := v) (p := .null) (s := []) hv (.inl ⟨rfl, rfl⟩) (by simp; omega) junk
        exact ⟨w', e, g.holds h (by simp)⟩
      · obtain ⟨s, hs, src'⟩ := source_of h v src hr ha hn
        have hlen : s.length + wizardPathExtent < sizeMax := by
          have := hf v s (by simp [after, Spec.StringVar.set, hs, ht])
          omega
        obtain ⟨w', tail, e, g⟩ := acquire_given hv (.inr src') hlen junk
        rw [hs]
        exact ⟨w', e, g.holds h src'.nul⟩
    | some b =>
      obtain ⟨r, tl, ht, hr0, hb⟩ := h.var_text hv
      have hn : src ≠ .null := fun e => by rw [hnull e] at ht; cases ht
      obtain ⟨s, hs, src'⟩ := source_of h v src hr ha hn
      have hlen : r.length + s.length + wizardPathExtent < sizeMax := by
        have := hf v (r ++ s) (by simp [after, Spec.StringVar.set, hs, ht])
        rw [List.length_append] at this
        omega
      have hover := le_overAllocate (r.length + s.length + wizardPathExtent)
      obtain ⟨w1, c, e1, g1⟩ := resize_given h hv hb (size := overAllocate (r.length + s.length + wizardPathExtent)) move junk
      obtain ⟨w2, tail, e2, g2⟩ := finish (d := r.length) g1 src' (by rw [reallocMem_length]; omega)
      have htake : (reallocMem (r ++ 0 :: tl) (overAllocate (r.length + s.length + wizardPathExtent)) junk).take r.length = r := by
        exact realloc_take _ _ _ _ (by omega)
      refine ⟨w2, ?_, ?_⟩
      · have hd : w.strlen (.mem b 0) = .ok r.length := by
          simp only [StrWorld.strlen, hb, List.drop_zero]
          exact strlen_cut r tl hr0
        simp only [strCall, appendVar, hv, hd, src'.len, Res.ok_bind]
        rw [if_neg (by omega), if_neg (by omega), e1, Res.ok_bind]
        exact e2
      · rw [htake] at g2
        simp only [after, ht, hs, Option.getD_some]
        exact g2.holds h (by
          rw [List.mem_append]
          rintro (hm | hm)
          · exact hr0 hm
          · exact src'.nul hm)

/-- **C170** From NULL variables, every history of copies, appends and destructions, each from a source that is not in the string it
changes, is defined, whatever the allocator does.  After it each variable is NULL or has a block of its own that begins with
the text it should have and a NUL, and there are no other blocks. -/
theorem C170_history_partial (cs : List (StrCall × Bool × (Nat → Byte))) (h : AllAllowed (fun _ => none) (cs.map (·.1))) :
    ∃ w, strCalls .empty cs = .ok w ∧ HoldsTexts w (afterAll (fun _ => none) (cs.map (·.1))) := by
  have key : ∀ (cs : List (StrCall × Bool × (Nat → Byte))) w t, HoldsTexts w t → AllAllowed t (cs.map (·.1)) →
      ∃ w', strCalls w cs = .ok w' ∧ HoldsTexts w' (afterAll t (cs.map (·.1))) := by
    intro cs
    induction cs with
    | nil => intro w t hw _; exact ⟨w, rfl, hw⟩
    | cons c cs ih =>
      intro w t hw ha
      obtain ⟨h1, h2, h3⟩ := ha
      obtain ⟨w1, e1, g1⟩ := strCall_holds hw c.1 h1 h2 c.2.1 c.2.2
      obtain ⟨w2, e2, g2⟩ := ih w1 _ g1 h3
      refine ⟨w2, ?_, g2⟩
      show (strCall w c.1 c.2.1 c.2.2 >>= fun w => strCalls w cs) = _
      rw [e1, Res.ok_bind, e2]
  exact key cs _ _ holds_empty h

/-- **C170** When the texts are all gone so are the blocks. -/
theorem C170_leak (cs : List (StrCall × Bool × (Nat → Byte))) (h : AllAllowed (fun _ => none) (cs.map (·.1)))
    (hg : ∀ v, afterAll (fun _ => none) (cs.map (·.1)) v = none) : ∃ w, strCalls .empty cs = .ok w ∧ ∀ b, w.block b = none := by
  obtain ⟨w, e, hw⟩ := C170_history_partial cs h
  refine ⟨w, e, fun b => ?_⟩
  cases hb : w.block b with
  | none => rfl
  | some m =>
    obtain ⟨v, hv⟩ := hw.owned b (by rw [hb]; simp)
    rw [hw.null v (hg v)] at hv
    cases hv

/-- **C170** (violated) A variable is copied from, or appended, a part of its own string.  If the allocator moves the block, the
bytes are read from memory that was given up.  This holds for every text, every place before its end and every allocator. -/
theorem C170_alias_violated {w : StrWorld} {t : Texts} (h : HoldsTexts w t) {v k : Nat} {s : List Byte} (ht : t v = some s) (hk : k < s.length)
    (hl : 2 * s.length + 4096 < 2 ^ 64) (junk : Nat → Byte) :
    strCall w (.clone v (.inVar v k)) true junk = .ub ∧ strCall w (.append v (.inVar v k)) true junk = .ub := by
  have hmax : sizeMax = 2 ^ 64 := by unfold sizeMax; rfl
  have hpe : wizardPathExtent = 4096 := rfl
  obtain ⟨h0, b, tl, hv, hb⟩ := h.text v s ht
  have hlt := h.lt_fresh hv
  have hp : w.pointer (.inVar v k) = .mem b k := by simp only [StrWorld.pointer, hv]
  have hlen : w.strlen (.mem b k) = .ok (s.length - k) := by
    simp only [StrWorld.strlen, hb]
    rw [List.drop_append_of_le_length (by omega), strlen_cut _ _ (fun hm => h0 (List.mem_of_mem_drop hm)), List.length_drop]
  have hd : w.strlen (.mem b 0) = .ok s.length := by
    simp only [StrWorld.strlen, hb, List.drop_zero]
    exact strlen_cut s tl h0
  have hcopy : ∀ size d f, (resizeVar w v b size true junk >>= fun w => copyIn w v d (s.length - k) (.mem b k) >>= f) = (.ub : Res StrWorld) := by
    intro size d f
    unfold resizeVar
    rw [hb]
    simp only [if_true, Res.ok_bind]
    have hne : b ≠ w.fresh := by omega
    have hnz : s.length - k ≠ 0 := by omega
    simp [copyIn, StrWorld.setVar, StrWorld.alloc, StrWorld.setBlock, StrWorld.read, hne, hnz, Res.ub_bind]
  constructor
  · simp only [strCall, cloneVar, hp, hv, hlen, Res.ok_bind]
    rw [if_neg (by simp), if_neg (by omega)]
    exact hcopy _ _ _
  · simp only [strCall, appendVar, hp, hv, hd, hlen, Res.ok_bind]
    rw [if_neg (by omega), if_neg (by omega)]
    exact hcopy _ _ _

/-- **C170** The same append is right if the allocator leaves the block where it is: tests pass with one allocator and not with
another. -/
theorem C170_inplace {w : StrWorld} {t : Texts} (h : HoldsTexts w t) {v k : Nat} {s : List Byte} (ht : t v = some s) (hk : k ≤ s.length)
    (hl : 2 * s.length + 4096 < 2 ^ 64) (junk : Nat → Byte) :
    ∃ w', strCall w (.append v (.inVar v k)) false junk = .ok w' ∧ HoldsTexts w' (Spec.StringVar.set t v (some (s ++ s.drop k))) := by
  have hmax : sizeMax = 2 ^ 64 := by unfold sizeMax; rfl
  have hpe : wizardPathExtent = 4096 := rfl
  obtain ⟨h0, b, tl, hv, hb⟩ := h.text v s ht
  have hp : w.pointer (.inVar v k) = .mem b k := by simp only [StrWorld.pointer, hv]
  have hlen : w.strlen (.mem b k) = .ok (s.length - k) := by
    simp only [StrWorld.strlen, hb]
    rw [List.drop_append_of_le_length (by omega), strlen_cut _ _ (fun hm => h0 (List.mem_of_mem_drop hm)), List.length_drop]
  have hd : w.strlen (.mem b 0) = .ok s.length := by
    simp only [StrWorld.strlen, hb, List.drop_zero]
    exact strlen_cut s tl h0
  have hover := le_overAllocate (s.length + (s.length - k) + wizardPathExtent)
  generalize hsz : overAllocate (s.length + (s.length - k) + wizardPathExtent) = size at hover
  obtain ⟨tl', hm⟩ : ∃ tl', reallocMem (s ++ 0 :: tl) size junk = s ++ tl' :=
    ⟨(reallocMem (s ++ 0 :: tl) size junk).drop s.length, by
      have := (List.take_append_drop s.length (reallocMem (s ++ 0 :: tl) size junk)).symm
      rw [realloc_take s (0 :: tl) size junk (by omega)] at this
      exact this⟩
  have htl : size = s.length + tl'.length := by
    have := congrArg List.length hm
    rw [reallocMem_length, List.length_append] at this
    exact this
  obtain ⟨w1, c, e1, g1⟩ : ∃ w' c, resizeVar w v b size false junk = .ok w' ∧ c = b ∧ Given w w' v b (s ++ tl') := by
    refine ⟨_, b, (by unfold resizeVar; rw [hb]; rfl), rfl, ?_, .inl hv, ?_, ?_, ?_⟩
    · funext u
      simp only [StrWorld.setBlock]
      by_cases hu : u = v
      · rw [if_pos hu, hu, hv]
      · rw [if_neg hu]
    · simp only [StrWorld.setBlock, if_true]
      exact congrArg some hm
    · intro x hx
      simp only [StrWorld.setBlock, if_neg hx, hv, Option.some.injEq, if_neg (fun e : b = x => hx e.symm)]
    · have := h.lt_fresh hv
      simp [StrWorld.setBlock]; omega
  obtain ⟨rfl, g1⟩ := g1
  obtain ⟨w2, tl2, e2, hne, g2⟩ : ∃ w2 tl2, copyIn w1 v s.length (s.length - k) (.mem c k) = .ok w2 ∧ tl2 ≠ [] ∧ Given w w2 v c (s ++ s.drop k ++ tl2) := by
    unfold copyIn
    rw [g1.var_eq]
    simp only [g1.block]
    by_cases hz : s.length - k = 0
    · refine ⟨w1, tl', by rw [if_pos hz], ?_, ?_⟩
      · intro e; rw [e] at htl; simp at htl; omega
      · rw [List.drop_eq_nil_of_le (by omega), List.append_nil]; exact g1
    · have hrd : w1.read (s.length - k) (.mem c k) = .ok (s.drop k) := by
        simp only [StrWorld.read, g1.block]
        rw [rdN_ok (by simp; omega), List.drop_append_of_le_length hk, List.take_left' (by simp)]
      have hov : overlaps (.mem c k) c s.length (s.length - k) = false := by
        simp only [overlaps, beq_self_eq_true, Bool.true_and, Bool.and_eq_false_iff, decide_eq_false_iff_not]
        right; omega
      refine ⟨_, tl'.drop (s.length - k), ?_, ?_, g1.write (s ++ s.drop k ++ tl'.drop (s.length - k))⟩
      · rw [if_neg hz, hrd, Res.ok_bind, if_neg (by rw [hov]; simp), wrN_ok (by simp; omega), Res.ok_bind, List.take_left' rfl, List.length_drop,
          ← List.drop_drop, List.drop_left' rfl]
      · intro e; have := congrArg List.length e; simp at this; omega
  obtain ⟨x, tl3, rfl⟩ : ∃ x tl3, tl2 = x :: tl3 := by cases tl2 with | nil => exact absurd rfl hne | cons x l => exact ⟨x, l, rfl⟩
  have g3 := g2.write (s ++ s.drop k ++ 0 :: tl3)
  refine ⟨_, ?_, g3.holds h (by
    rw [List.mem_append]
    rintro (hm | hm)
    · exact h0 hm
    · exact h0 (List.mem_of_mem_drop hm))⟩
  simp only [strCall, appendVar, hp, hv, hd, hlen, Res.ok_bind]
  rw [if_neg (by omega), if_neg (by omega), hsz, e1, Res.ok_bind, e2, Res.ok_bind]
  unfold endVar
  rw [g2.var_eq]
  simp only [g2.block]
  have hl2 : (s ++ s.drop k).length = s.length + (s.length - k) := by simp
  have hwr : wr (s ++ s.drop k ++ x :: tl3) (s.length + (s.length - k)) 0 = .ok (s ++ s.drop k ++ 0 :: tl3) := by
    unfold wr
    rw [← hl2]
    generalize s ++ s.drop k = a
    rw [if_pos (by simp)]
    simp
  rw [hwr, Res.ok_bind]

/-- **C170** (violated) A variable is copied from a place in the first half of its own string: even if the block stays, the bytes are
copied over themselves. -/
theorem C170_overlap_violated {w : StrWorld} {t : Texts} (h : HoldsTexts w t) {v k : Nat} {s : List Byte} (ht : t v = some s) (hk : 2 * k < s.length)
    (hl : 2 * s.length + 4096 < 2 ^ 64) (move : Bool) (junk : Nat → Byte) : strCall w (.clone v (.inVar v k)) move junk = .ub := by
  cases move with
  | true => exact (C170_alias_violated h ht (by omega) hl junk).1
  | false =>
    have hmax : sizeMax = 2 ^ 64 := by unfold sizeMax; rfl
    have hpe : wizardPathExtent = 4096 := rfl
    obtain ⟨h0, b, tl, hv, hb⟩ := h.text v s ht
    have hp : w.pointer (.inVar v k) = .mem b k := by simp only [StrWorld.pointer, hv]
    have hlen : w.strlen (.mem b k) = .ok (s.length - k) := by
      simp only [StrWorld.strlen, hb]
      rw [List.drop_append_of_le_length (by omega), strlen_cut _ _ (fun hm => h0 (List.mem_of_mem_drop hm)), List.length_drop]
    have hnz : s.length - k ≠ 0 := by omega
    have hov : overlaps (.mem b k) b 0 (s.length - k) = true := by
      simp only [overlaps, beq_self_eq_true, Bool.true_and, Bool.and_eq_true, decide_eq_true_eq]
      omega
    simp only [strCall, cloneVar, hp, hv, hlen, Res.ok_bind]
    rw [if_neg (by simp), if_neg (by omega)]
    unfold resizeVar
    rw [hb]
    simp only [Bool.false_eq_true, if_false, Res.ok_bind]
    unfold copyIn
    simp only [StrWorld.setBlock, hv, if_true, hnz, if_false, hov]
    cases hr : StrWorld.read _ (s.length - k) (.mem b k) with
    | ok r => rfl
    | ub => rfl
    | fatal => simp only [StrWorld.read, if_true] at hr; unfold rdN at hr; split at hr <;> cases hr

/-- **C170** (violated) NULL is appended to a string: its length is taken of NULL, though NULL may be copied, and may be appended to
NULL. -/
theorem C170_null_violated {w : StrWorld} {t : Texts} (h : HoldsTexts w t) {v : Nat} {s : List Byte} (ht : t v = some s) (move : Bool) (junk : Nat → Byte) :
    strCall w (.append v .null) move junk = .ub ∧ (∃ w', strCall w (.clone v .null) move junk = .ok w' ∧ HoldsTexts w' (Spec.StringVar.set t v none)) := by
  obtain ⟨h0, b, tl, hv, hb⟩ := h.text v s ht
  have hd : w.strlen (.mem b 0) = .ok s.length := by
    simp only [StrWorld.strlen, hb, List.drop_zero]
    exact strlen_cut s tl h0
  refine ⟨?_, ?_⟩
  · simp only [strCall, appendVar, StrWorld.pointer, hv, hd, Res.ok_bind]
    rfl
  · simp only [strCall, cloneVar, StrWorld.pointer, if_true]
    exact destroy_holds h v

/-- A history with copies between variables, one of them in the middle of another's string. -/
def demoCalls : List StrCall :=
  [.clone 0 (.text [1, 2, 3]), .append 1 (.inVar 0 1), .append 1 (.text [9]), .clone 0 (.inVar 1 2), .destroy 1, .append 2 .null]

example : AllAllowed (fun _ => none) demoCalls ∧ afterAll (fun _ => none) demoCalls 0 = some [9] ∧ afterAll (fun _ => none) demoCalls 1 = none ∧
    afterAll (fun _ => none) demoCalls 2 = some [] := by
  refine ⟨⟨⟨show (0 : Byte) ∉ [1, 2, 3] by decide, trivial⟩, ?_, ⟨⟨[1, 2, 3], rfl, by decide⟩, show 0 ≠ 1 by decide, fun h => by cases h⟩, ?_,
    ⟨show (0 : Byte) ∉ [9] by decide, trivial, fun h => by cases h⟩, ?_, ⟨⟨[2, 3, 9], rfl, by decide⟩, show 1 ≠ 0 by decide⟩, ?_, trivial, ?_, ⟨trivial, trivial, fun _ => rfl⟩, ?_, trivial⟩,
    rfl, rfl, rfl⟩ <;>
  · intro v s h
    have : s.length ≤ 3 := by
      simp only [after, Spec.StringVar.set, value] at h
      grind
    omega

/-- There are worlds in which a variable has a text, for the theorems about a string given to itself. -/
example : ∃ w, HoldsTexts w (Spec.StringVar.set (fun _ => none) 0 (some [1, 2, 3])) := by
  obtain ⟨w, _, h⟩ := strCall_holds holds_empty (.clone 0 (.text [1, 2, 3])) ⟨show (0 : Byte) ∉ [1, 2, 3] by decide, trivial⟩
    (by intro v s h; simp only [after, Spec.StringVar.set, value] at h; grind) true (fun _ => 7)
  exact ⟨w, h⟩

end Wizard.Props

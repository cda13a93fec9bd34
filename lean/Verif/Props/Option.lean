import Verif.Spec.Option
import Verif.Props.Locale
import Verif.Props.Copy
/-! C51: options. -/
namespace Wizard.Props
open Wizard Wizard.Spec.Opt

theorem takeWhile_all {α} {p : α → Bool} : ∀ {l : List α}, (∀ x ∈ l, p x = true) → l.takeWhile p = l
  | [], _ => rfl
  | x :: l, h => by
    rw [List.takeWhile_cons, if_pos (h x (List.mem_cons_self ..)), takeWhile_all (fun y hy => h y (List.mem_cons_of_mem _ hy))]

theorem dropWhile_all {α} {p : α → Bool} : ∀ {l : List α}, (∀ x ∈ l, p x = true) → l.dropWhile p = []
  | [], _ => rfl
  | x :: l, h => by
    rw [List.dropWhile_cons, if_pos (h x (List.mem_cons_self ..)), dropWhile_all (fun y hy => h y (List.mem_cons_of_mem _ hy))]

theorem copySteps_more (src : List Byte) (m : Nat) (r : List Byte × Nat) : ∀ (k : Nat) (buf : List Byte) (i : Nat),
    copySteps src k buf i = .ok (.inl r) → copySteps src (k + m) buf i = .ok (.inl r) := by
  intro k
  induction k with
  | zero => intro buf i h; rw [copySteps] at h; cases h
  | succ k ih =>
    intro buf i h
    rw [show k + 1 + m = (k + m) + 1 by omega, copySteps]
    rw [copySteps] at h
    cases hc : copyStep src buf i with
    | ub => rw [hc] at h; cases h
    | fatal => rw [hc] at h; cases h
    | ok x =>
      rw [hc, Res.ok_bind] at h
      rw [Res.ok_bind]
      cases x with
      | inl y => exact h
      | inr y => exact ih _ _ h

/-- A copy that is not cut off needs room for the text only. -/
theorem copy_fits (dst s t : List Byte) (length : Nat) (hs : (0 : Byte) ∉ s) (h : s.length + 1 < length) (hb : s.length + 1 ≤ dst.length) :
    copyWizardString dst (s ++ 0 :: t) length = .ok (s ++ 0 :: dst.drop (s.length + 1), s.length) := by
  have e := copySteps_spec s t hs (s.length + 1) dst 0 (Nat.zero_le _) (by omega)
  rw [if_pos (by omega)] at e
  have e' := copySteps_more _ (length - 1 - (s.length + 1)) _ _ _ _ e
  rw [copyWizardString_eq _ _ _ (by omega), show length - 1 = s.length + 1 + (length - 1 - (s.length + 1)) by omega, e', Res.ok_bind]
  simp [overwrite]

theorem lookupOption_spec (fold : Byte → Byte) (hf : FoldOK fold) (token : List Byte) (h0 : (0 : Byte) ∉ token) :
    ∀ (table : List OptionInfo), (∀ o ∈ table, (0 : Byte) ∉ o.mnemonic) → lookupOption fold token table = .ok (entry fold table token) := by
  intro table
  induction table with
  | nil => intro _; rfl
  | cons o os ih =>
    intro ht
    have h1 := ht o (List.mem_cons_self ..)
    obtain ⟨r, e1, _, _, e2⟩ := C06_compare_spec fold hf token o.mnemonic h0 h1
    rw [lookupOption, e1, Res.ok_bind]
    unfold entry
    rw [List.find?_cons]
    by_cases hr : r = 0
    · rw [if_pos hr, decide_eq_true (e2.mp hr)]
    · rw [if_neg hr, decide_eq_false (fun h => hr (e2.mpr h))]
      exact ih (fun x hx => ht x (List.mem_cons_of_mem _ hx))

theorem skipSign_cons (c : Byte) (p : List Byte) : skipSign (c :: p) = if c = asc '-' ∨ c = asc '+' then p else c :: p := rfl

theorem skipBang_cons (c : Byte) (p : List Byte) : skipBang (c :: p) = if c = asc '!' then p else c :: p := rfl

theorem zero_or64 (x : BitVec 64) : (0 : BitVec 64) ||| x = x := BitVec.zero_or

theorem form_before {i : Item} (h : i.Form) {pre : List Byte} (hpre : ∀ c ∈ pre, c = asc ',') : Item.Form { i with before := pre ++ i.before } := by
  refine ⟨?_, h.sign, h.plain, h.first, h.short, h.after⟩
  intro c hc
  rcases List.mem_append.mp hc with hc | hc
  · exact Or.inr (hpre c hc)
  · exact h.before c hc

/-- What the loop does with an item: the bytes it steps over, the token it finds, and what is left. -/
theorem item_token {i : Item} (h : i.Form) (rest : List Byte)
    (hrest : rest = [] ∨ ∃ r, rest = asc ',' :: r) :
    skipBang (skipSign ((i.text ++ rest).dropWhile (fun c => isSpaceC c || c == asc ','))) = i.word ++ (i.after ++ rest) ∧
    ((i.word ++ (i.after ++ rest)).takeWhile (fun c => !isSpaceC c && c != asc ',')).take (pathExtent - 1) = i.word ∧
    (i.after ++ rest).dropWhile (· != asc ',') = rest := by
  obtain ⟨c, w, hw, hb, hs⟩ := h.first
  have hcplain := h.plain c (by rw [hw]; exact List.mem_cons_self ..)
  have sp1 : isSpaceC (asc '-') = false := by decide
  have sp2 : isSpaceC (asc '+') = false := by decide
  have sp3 : isSpaceC (asc '!') = false := by decide
  have dw : ∀ (l : List Byte), (∀ c ∈ l, isSpaceC c = true ∨ c = asc ',') → ∀ (m : List Byte),
      (l ++ m).dropWhile (fun c => isSpaceC c || c == asc ',') = m.dropWhile (fun c => isSpaceC c || c == asc ',') := by
    intro l hl m
    induction l with
    | nil => rfl
    | cons x l ih =>
      rw [List.cons_append, List.dropWhile_cons, if_pos]
      · exact ih (fun y hy => hl y (List.mem_cons_of_mem _ hy))
      · rcases hl x (List.mem_cons_self ..) with h | h
        · rw [h]; rfl
        · rw [h]; simp
  have stop : ∀ (x : Byte) (m : List Byte), isSpaceC x = false → x ≠ asc ',' → (x :: m).dropWhile (fun c => isSpaceC c || c == asc ',') = x :: m := by
    intro x m h1 h2
    rw [List.dropWhile_cons, if_neg]
    simp [h1, h2]
  refine ⟨?_, ?_, ?_⟩
  · unfold Item.text
    rw [List.append_assoc, dw _ h.before]
    rcases h.sign with e | e | e
    · rw [e]
      cases hbang : i.bang with
      | false =>
        simp only [List.nil_append, Bool.false_eq_true, if_false, hw, List.cons_append, List.append_assoc]
        rw [stop c _ hcplain.1 hcplain.2.1]
        have := hs e hbang
        rw [skipSign_cons, if_neg (by simp [this.1, this.2])]
        rw [skipBang_cons, if_neg hb]
      | true =>
        simp only [List.nil_append, if_true, List.cons_append, List.append_assoc]
        rw [stop _ _ sp3 (by decide)]
        rw [skipSign_cons, if_neg (by decide)]
        rw [skipBang_cons, if_pos rfl]
    · rw [e]
      simp only [List.cons_append, List.nil_append, List.append_assoc]
      rw [stop _ _ sp1 (by decide)]
      rw [skipSign_cons, if_pos (Or.inl rfl)]
      cases hbang : i.bang with
      | false =>
        simp only [Bool.false_eq_true, if_false, List.nil_append, hw, List.cons_append]
        rw [skipBang_cons, if_neg hb]
      | true =>
        simp only [if_true, List.cons_append, List.nil_append]
        rw [skipBang_cons, if_pos rfl]
    · rw [e]
      simp only [List.cons_append, List.nil_append, List.append_assoc]
      rw [stop _ _ sp2 (by decide)]
      rw [skipSign_cons, if_pos (Or.inr rfl)]
      cases hbang : i.bang with
      | false =>
        simp only [Bool.false_eq_true, if_false, List.nil_append, hw, List.cons_append]
        rw [skipBang_cons, if_neg hb]
      | true =>
        simp only [if_true, List.cons_append, List.nil_append]
        rw [skipBang_cons, if_pos rfl]
  · have : (i.word ++ (i.after ++ rest)).takeWhile (fun c => !isSpaceC c && c != asc ',') = i.word := by
      have pl := h.plain
      have tail : (i.after ++ rest).takeWhile (fun c => !isSpaceC c && c != asc ',') = [] := by
        cases ha : i.after with
        | nil =>
          rcases hrest with e | ⟨r, e⟩
          · rw [e]; rfl
          · rw [e, List.nil_append, List.takeWhile_cons, if_neg (by simp)]
        | cons x xs =>
          have := h.after.2 x (by rw [ha]; rfl)
          rw [List.cons_append, List.takeWhile_cons, if_neg (by simp [this])]
      generalize i.word = l at pl
      induction l with
      | nil => exact tail
      | cons x l ih =>
        have hx := pl x (List.mem_cons_self ..)
        rw [List.cons_append, List.takeWhile_cons, if_pos (by simp [hx.1, hx.2.1]), ih (fun y hy => pl y (List.mem_cons_of_mem _ hy))]
    rw [this]
    exact List.take_of_length_le (by have := h.short; unfold pathExtent; omega)
  · have af := h.after.1
    generalize i.after = l at af
    induction l with
    | nil =>
      rcases hrest with e | ⟨r, e⟩
      · rw [e]; rfl
      · rw [e, List.nil_append, List.dropWhile_cons, if_neg (by simp)]
    | cons x l ih =>
      rw [List.cons_append, List.dropWhile_cons, if_pos (by simp [af x (List.mem_cons_self ..)])]
      exact ih (fun y hy => af y (List.mem_cons_of_mem _ hy))

theorem strchrMem_none {c : Byte} (hc : c ≠ 0) : ∀ (s r : List Byte), (0 : Byte) ∉ s → c ∉ s → strchrMem c (s ++ 0 :: r) = .ok none := by
  intro s
  induction s with
  | nil => intro r _ _; rw [List.nil_append, strchrMem, if_neg (fun e => hc e.symm), if_pos rfl]
  | cons x s ih =>
    intro r h0 hcs
    rw [List.mem_cons, not_or] at h0 hcs
    rw [List.cons_append, strchrMem, if_neg (fun e => hcs.1 e.symm), if_neg (fun e => h0.1 e.symm), ih r h0.2 hcs.2]
    rfl

theorem strchrMem_some {c : Byte} : ∀ (s r : List Byte), (0 : Byte) ∉ s → c ∉ s → strchrMem c (s ++ c :: r) = .ok (some s.length) := by
  intro s
  induction s with
  | nil => intro r _ _; rw [List.nil_append, strchrMem, if_pos rfl]; rfl
  | cons x s ih =>
    intro r h0 hcs
    rw [List.mem_cons, not_or] at h0 hcs
    rw [List.cons_append, strchrMem, if_neg (fun e => hcs.1 e.symm), if_neg (fun e => h0.1 e.symm), ih r h0.2 hcs.2]
    rfl

theorem strlenMem_text : ∀ (s r : List Byte), (0 : Byte) ∉ s → strlenMem (s ++ 0 :: r) = .ok s.length := by
  intro s
  induction s with
  | nil => intro r _; rw [List.nil_append, strlenMem, if_pos rfl]; rfl
  | cons x s ih =>
    intro r h0
    rw [List.mem_cons, not_or] at h0
    rw [List.cons_append, strlenMem, if_neg (fun e => h0.1 e.symm), ih r h0.2]
    rfl

/-- Removing a character. -/
theorem removeChar_spec {x : Byte} (hx : x ≠ 0) : ∀ (n : Nat) (fuel : Nat) (c : Byte) (w r : List Byte), w.length ≤ n → n ≤ 2047 → n < fuel →
    (c :: w ++ 0 :: r).length = pathExtent → (0 : Byte) ∉ w →
    ∃ r', removeChar x fuel (c :: w ++ 0 :: r) = .ok (c :: w.filter (· != x) ++ 0 :: r') ∧ (c :: w.filter (· != x) ++ 0 :: r').length = pathExtent := by
  intro n
  induction n with
  | zero =>
    intro fuel c w r hw _ hfuel hlen h0
    obtain ⟨fuel, rfl⟩ : ∃ f, fuel = f + 1 := ⟨fuel - 1, by omega⟩
    have : w = [] := List.length_eq_zero_iff.mp (by omega)
    subst this
    refine ⟨r, ?_, hlen⟩
    rw [removeChar, show (c :: ([] : List Byte) ++ 0 :: r).drop 1 = [] ++ 0 :: r from rfl, strchrMem_none hx [] r (by simp) (by simp)]
    rfl
  | succ n ih =>
    intro fuel c w r hw hn hfuel hlen h0
    obtain ⟨fuel, rfl⟩ : ∃ f, fuel = f + 1 := ⟨fuel - 1, by omega⟩
    by_cases hm : x ∈ w
    · obtain ⟨a, b, hab, hxa⟩ := List.append_of_mem hm |>.elim fun s ⟨t, e⟩ => (show ∃ a b, w = a ++ x :: b ∧ x ∉ a from by
        obtain ⟨a, b, e1, e2⟩ := List.mem_iff_append.mp hm |>.elim fun s ⟨t, e⟩ => (List.eq_append_cons_of_mem hm)
        exact ⟨a, b, e1, e2⟩)
      subst hab
      have h0a : (0 : Byte) ∉ a := fun h => h0 (List.mem_append_left _ h)
      have h0b : (0 : Byte) ∉ b := fun h => h0 (List.mem_append_right _ (List.mem_cons_of_mem _ h))
      rw [List.length_append, List.length_cons] at hw
      have hpe : pathExtent = 4096 := rfl
      simp only [List.length_append, List.length_cons, hpe] at hlen
      have d1 : (c :: (a ++ x :: b) ++ 0 :: r).drop 1 = a ++ x :: (b ++ 0 :: r) := by simp
      have d2 : (c :: (a ++ x :: b) ++ 0 :: r).drop (a.length + 1) = (x :: b) ++ 0 :: r := by
        rw [show (c :: (a ++ x :: b) ++ 0 :: r) = (c :: a) ++ ((x :: b) ++ 0 :: r) by simp, List.drop_left' (by simp)]
      have d3 : (c :: (a ++ x :: b) ++ 0 :: r).drop (a.length + 2) = b ++ 0 :: r := by
        rw [show (c :: (a ++ x :: b) ++ 0 :: r) = (c :: (a ++ [x])) ++ (b ++ 0 :: r) by simp, List.drop_left' (by simp)]
      have d4 : (c :: (a ++ x :: b) ++ 0 :: r).take (a.length + 1) = c :: a := by
        rw [show (c :: (a ++ x :: b) ++ 0 :: r) = (c :: a) ++ ((x :: b) ++ 0 :: r) by simp, List.take_left' (by simp)]
      have h0xb : (0 : Byte) ∉ x :: b := by
        rw [List.mem_cons, not_or]; exact ⟨fun e => hx e.symm, h0b⟩
      have hcopy := copy_fits ((x :: b) ++ 0 :: r) b r (pathExtent - (x :: b).length) h0b (by simp only [List.length_cons, hpe]; omega)
        (by simp only [List.length_append, List.length_cons]; omega)
      have hdrop : ((x :: b) ++ 0 :: r).drop (b.length + 1) = 0 :: r := List.drop_left' (by simp)
      rw [hdrop] at hcopy
      have hw' : (a ++ b).length ≤ n := by rw [List.length_append]; omega
      have h0' : (0 : Byte) ∉ a ++ b := by
        rw [List.mem_append, not_or]; exact ⟨h0a, h0b⟩
      obtain ⟨r', e1, e2⟩ := ih fuel c (a ++ b) (0 :: r) hw' (by omega) (by omega) (by simp only [List.length_append, List.length_cons, hpe]; omega) h0'
      have hfil : (a ++ x :: b).filter (· != x) = (a ++ b).filter (· != x) := by
        simp [List.filter_append]
      rw [hfil]
      refine ⟨r', ?_, e2⟩
      rw [removeChar, d1, strchrMem_some a _ h0a hxa, Res.ok_bind]
      simp only []
      rw [d2, strlenMem_text _ _ h0xb, Res.ok_bind, d3, hcopy, Res.ok_bind]
      simp only []
      rw [d4, ← e1]
      congr 1
      simp
    · refine ⟨r, ?_, ?_⟩
      · rw [removeChar, show (c :: w ++ 0 :: r).drop 1 = w ++ 0 :: r from rfl, strchrMem_none hx w r h0 hm]
        have : w.filter (· != x) = w := List.filter_eq_self.mpr (fun y hy => by simp; intro e; exact hm (e ▸ hy))
        rw [this]
        rfl
      · have : w.filter (· != x) = w := List.filter_eq_self.mpr (fun y hy => by simp; intro e; exact hm (e ▸ hy))
        rw [this]
        exact hlen

theorem textOf_text (s r : List Byte) (h : (0 : Byte) ∉ s) : textOf (s ++ 0 :: r) = s := by
  unfold textOf
  induction s with
  | nil => rfl
  | cons x s ih =>
    rw [List.mem_cons, not_or] at h
    rw [List.cons_append, List.takeWhile_cons, if_pos (by simpa using fun e => h.1 e.symm), ih h.2]

/-- What a word is found to be. -/
theorem findToken_spec {fold : Byte → Byte} (hf : FoldOK fold) {table : List OptionInfo} (ht : ∀ o ∈ table, (0 : Byte) ∉ o.mnemonic)
    (acc : BitVec 64) (c : Byte) (w r : List Byte) (hlen : (c :: w ++ 0 :: r).length = pathExtent) (hno : (0 : Byte) ∉ c :: w) (hb : c ≠ asc '!')
    (hs : entry fold table (c :: w) = none → (c :: w).length < 2049 ∨ (asc '-' ∉ w ∧ asc '_' ∉ w)) :
    ∃ buf, findToken fold table acc (c :: w) (c :: w ++ 0 :: r) = .ok ((named fold table (c :: w)).map (fun o => acc ||| o.type), buf) ∧
      buf.length = pathExtent := by
  have hpe : pathExtent = 4096 := rfl
  have happ : ∀ (u : List Byte) (o : OptionInfo), applyOption (c :: u) acc o = acc ||| o.type := by
    intro u o
    unfold applyOption
    rw [List.head?_cons, if_neg (fun e => hb (Option.some.inj e))]
  rw [findToken, lookupOption_spec fold hf _ hno table ht, Res.ok_bind, named]
  cases hn : entry fold table (c :: w) with
  | some o =>
    simp only [Option.map_some, happ]
    exact ⟨_, rfl, hlen⟩
  | none =>
    simp only []
    have hw0 : (0 : Byte) ∉ w := fun hm => hno (List.mem_cons_of_mem _ hm)
    have hc0 : c ≠ 0 := fun e => hno (by rw [e]; exact List.mem_cons_self ..)
    have hdr : (c :: w ++ 0 :: r).drop 1 = w ++ 0 :: r := rfl
    have hdw : (c :: w).drop 1 = w := rfl
    have htw : (c :: w).take 1 = [c] := rfl
    rw [hdw, htw]
    by_cases hd : asc '-' ∈ w ∨ asc '_' ∈ w
    · rw [if_pos hd]
      have hlw : w.length ≤ 2047 := by
        rcases hs hn with h | h
        · rw [List.length_cons] at h; omega
        · exact absurd hd (not_or.mpr h)
      obtain ⟨r1, e1, e2⟩ := removeChar_spec (x := asc '-') (by decide) 2047 ((c :: w ++ 0 :: r).length + 1) c w r hlw (by omega)
        (by rw [hlen, hpe]; omega) hlen hw0
      obtain ⟨v, hv⟩ : ∃ v, v = w.filter (· != asc '-') := ⟨_, rfl⟩
      rw [← hv] at e1 e2
      have hv0 : (0 : Byte) ∉ v := by rw [hv]; intro hm; exact hw0 (List.mem_filter.mp hm).1
      have hvl : v.length ≤ 2047 := Nat.le_trans (by rw [hv]; exact List.length_filter_le ..) hlw
      obtain ⟨r2, g1, g2⟩ := removeChar_spec (x := asc '_') (by decide) 2047 ((c :: v ++ 0 :: r1).length + 1) c v r1 hvl (by omega)
        (by rw [e2, hpe]; omega) e2 hv0
      have hvv : v.filter (· != asc '_') = w.filter (fun x => x != asc '-' && x != asc '_') := by
        rw [hv, List.filter_filter]
        congr 1
        funext y
        exact Bool.and_comm ..
      rw [hvv] at g1 g2
      obtain ⟨u, hu⟩ : ∃ u, u = w.filter (fun x => x != asc '-' && x != asc '_') := ⟨_, rfl⟩
      rw [← hu] at g1 g2 ⊢
      have hu0 : (0 : Byte) ∉ c :: u := by
        rw [List.mem_cons, not_or]
        exact ⟨fun e => hc0 e.symm, by rw [hu]; intro hm; exact hw0 (List.mem_filter.mp hm).1⟩
      have hfound : hasDash (c :: w ++ 0 :: r) = .ok true := by
        unfold hasDash
        rw [hdr]
        by_cases hdash : asc '-' ∈ w
        · obtain ⟨a, b, hab, hxa⟩ := List.eq_append_cons_of_mem hdash
          have h0a : (0 : Byte) ∉ a := fun h => hw0 (by rw [hab]; exact List.mem_append_left _ h)
          rw [hab, List.append_assoc, List.cons_append, strchrMem_some a _ h0a hxa]
          rfl
        · have hus : asc '_' ∈ w := hd.resolve_left hdash
          obtain ⟨a, b, hab, hxa⟩ := List.eq_append_cons_of_mem hus
          have h0a : (0 : Byte) ∉ a := fun h => hw0 (by rw [hab]; exact List.mem_append_left _ h)
          rw [strchrMem_none (by decide) w r hw0 hdash, Res.ok_bind]
          simp only []
          rw [hab, List.append_assoc, List.cons_append, strchrMem_some a _ h0a hxa]
          rfl
      rw [secondAttempt, hfound, Res.ok_bind, if_pos rfl, e1, Res.ok_bind, g1, Res.ok_bind,
        show c :: u ++ 0 :: r2 = (c :: u) ++ 0 :: r2 from rfl, textOf_text _ _ hu0, lookupOption_spec fold hf _ hu0 table ht, Res.ok_bind]
      refine ⟨_, ?_, g2⟩
      rw [show [c] ++ u = c :: u from rfl]
      rw [show applyOption (c :: u) acc = (fun o => acc ||| o.type) from funext (happ u)]
    · rw [if_neg hd]
      rw [not_or] at hd
      refine ⟨_, ?_, hlen⟩
      rw [secondAttempt, hasDash, hdr, strchrMem_none (by decide) w _ hw0 hd.1, Res.ok_bind]
      simp only []
      rw [strchrMem_none (by decide) w _ hw0 hd.2]
      rfl

/-- One round of the loop on an item. -/
theorem parse_form {fold : Byte → Byte} (hf : FoldOK fold) {table : List OptionInfo} (ht : ∀ o ∈ table, (0 : Byte) ∉ o.mnemonic)
    {i : Item} (h : i.Form) (hs : entry fold table i.word = none → i.word.length < 2049 ∨ (asc '-' ∉ i.word.drop 1 ∧ asc '_' ∉ i.word.drop 1))
    (list : Bool) (fuel : Nat) (rest : List Byte) (hrest : rest = [] ∨ ∃ r, rest = asc ',' :: r)
    (acc : BitVec 64) (buf : List Byte) (hbuf : buf.length = 4096) : ∃ buf', buf'.length = 4096 ∧
      parseLoop fold table list (fuel + 1) (i.text ++ rest) acc buf =
        match named fold table i.word with
        | none => .ok none
        | some o => if list = false then .ok (some (acc ||| o.type)) else match rest with
          | [] => .ok (some (acc ||| o.type))
          | rest => parseLoop fold table list fuel rest (acc ||| o.type) buf' := by
  obtain ⟨h1, h2, h3⟩ := item_token h rest hrest
  have hno : (0 : Byte) ∉ i.word := fun hm => (h.plain 0 hm).2.2 rfl
  obtain ⟨c, w, hw, hb, _⟩ := h.first
  have hshort := h.short
  have hpe : pathExtent = 4096 := rfl
  have hlen : (c :: w ++ 0 :: buf.drop (i.word.length + 1)).length = pathExtent := by
    rw [← hw, List.length_append, List.length_cons, List.length_drop, hbuf, hpe]
    omega
  have hno' := hno
  rw [hw] at hs hno'
  obtain ⟨buf', e1, e2⟩ := findToken_spec hf ht acc c w (buf.drop (i.word.length + 1)) hlen hno' hb hs
  rw [← hw] at e1
  refine ⟨buf', e2, ?_⟩
  rw [parseLoop]
  simp only [h1, h2]
  rw [e1, Res.ok_bind]
  cases hn : named fold table i.word with
  | none => rfl
  | some o =>
    simp only [Option.map_some]
    rw [List.drop_left' rfl, h3]
    cases rest <;> rfl

theorem parse_item {fold : Byte → Byte} (hf : FoldOK fold) {table : List OptionInfo} (ht : ∀ o ∈ table, (0 : Byte) ∉ o.mnemonic)
    {i : Item} (h : i.OK fold table) (list : Bool) (fuel : Nat) (rest : List Byte) (hrest : rest = [] ∨ ∃ r, rest = asc ',' :: r)
    (acc : BitVec 64) (buf : List Byte) (hbuf : buf.length = 4096) : ∃ buf', buf'.length = 4096 ∧ parseLoop fold table list (fuel + 1) (i.text ++ rest) acc buf =
      if list = false then .ok (some (acc ||| i.type)) else match rest with
        | [] => .ok (some (acc ||| i.type))
        | rest => parseLoop fold table list fuel rest (acc ||| i.type) buf' := by
  obtain ⟨buf', h1, h2⟩ := parse_form hf ht h.toForm (fun e => Or.inl (h.dashes e)) list fuel rest hrest acc buf hbuf
  refine ⟨buf', h1, ?_⟩
  have hn := h.names
  cases he : named fold table i.word with
  | none => rw [he] at hn; cases hn
  | some o =>
    rw [he] at hn h2
    have hn : o.type = i.type := Option.some.inj hn
    rw [h2, ← hn]

theorem parse_unknown {fold : Byte → Byte} (hf : FoldOK fold) {table : List OptionInfo} (ht : ∀ o ∈ table, (0 : Byte) ∉ o.mnemonic)
    {i : Item} (h : i.Form) (hn : named fold table i.word = none) (hs : i.word.length < 2049 ∨ (asc '-' ∉ i.word.drop 1 ∧ asc '_' ∉ i.word.drop 1))
    (list : Bool) (fuel : Nat) (rest : List Byte) (hrest : rest = [] ∨ ∃ r, rest = asc ',' :: r)
    (acc : BitVec 64) (buf : List Byte) (hbuf : buf.length = 4096) : parseLoop fold table list (fuel + 1) (i.text ++ rest) acc buf = .ok none := by
  obtain ⟨_, _, h2⟩ := parse_form hf ht h (fun _ => hs) list fuel rest hrest acc buf hbuf
  rw [hn] at h2
  exact h2

/-- **C51**: for every table, and every list of items whose words are entries of the table in any letter case, written with spaces
and commas between them, a sign before them or further text after a space, and with dashes and underscores added after the first letter
(to words of fewer than 2049 bytes: missing are longer ones, which the fixed buffer cuts off): the result is the values of all of them OR-ed together.
Whether words have an exclamation mark or not makes no difference (see `C51_negate_violated`). -/
theorem C51_list_partial (fold : Byte → Byte) (hf : FoldOK fold) (table : List OptionInfo) (ht : ∀ o ∈ table, (0 : Byte) ∉ o.mnemonic)
    (junk : List Byte) (hj : junk.length = 4096) (i : Item) (is : List Item) (h : ∀ j ∈ i :: is, j.OK fold table) :
    parseOption fold table true junk (listText (i :: is)) = .ok (some ((i :: is).foldl (fun acc j => acc ||| j.type) 0)) := by
  unfold parseOption
  have key : ∀ (is : List Item) (i : Item) (fuel : Nat) (acc : BitVec 64) (buf pre : List Byte), buf.length = 4096 → (∀ j ∈ i :: is, j.OK fold table) →
      (∀ c ∈ pre, c = asc ',') → is.length < fuel →
      parseLoop fold table true fuel (pre ++ listText (i :: is)) acc buf = .ok (some ((i :: is).foldl (fun acc j => acc ||| j.type) acc)) := by
    intro is
    induction is with
    | nil =>
      intro i fuel acc buf pre hbuf h hpre hfuel
      obtain ⟨fuel, rfl⟩ : ∃ f, fuel = f + 1 := ⟨fuel - 1, by simp at hfuel; omega⟩
      have hi := h i (List.mem_cons_self ..)
      have hi' : Item.OK fold table { i with before := pre ++ i.before } :=
        ⟨form_before hi.toForm hpre, hi.names, hi.dashes⟩
      obtain ⟨buf', hbuf', e⟩ := parse_item hf ht hi' true fuel [] (Or.inl rfl) acc buf hbuf
      have ht' : Item.text { i with before := pre ++ i.before } = pre ++ i.text := List.append_assoc ..
      rw [ht', List.append_nil] at e
      exact e
    | cons j is ih =>
      intro i fuel acc buf pre hbuf h hpre hfuel
      rw [List.length_cons] at hfuel
      obtain ⟨fuel, rfl⟩ : ∃ f, fuel = f + 1 := ⟨fuel - 1, by omega⟩
      have hi := h i (List.mem_cons_self ..)
      have hi' : Item.OK fold table { i with before := pre ++ i.before } :=
        ⟨form_before hi.toForm hpre, hi.names, hi.dashes⟩
      obtain ⟨buf', hbuf', e⟩ := parse_item hf ht hi' true fuel (asc ',' :: listText (j :: is)) (Or.inr ⟨_, rfl⟩) acc buf hbuf
      have ht' : Item.text { i with before := pre ++ i.before } = pre ++ i.text := List.append_assoc ..
      rw [ht'] at e
      have hl : pre ++ listText (i :: j :: is) = pre ++ i.text ++ asc ',' :: listText (j :: is) := (List.append_assoc ..).symm
      rw [hl, e]
      have := ih j fuel (acc ||| i.type) buf' [asc ','] hbuf' (fun x hx => h x (List.mem_cons_of_mem _ hx)) (by simp) (by omega)
      exact this
  have hlen : ∀ (is : List Item) (i : Item), is.length ≤ (listText (i :: is)).length := by
    intro is
    induction is with
    | nil => intro i; exact Nat.zero_le _
    | cons j is ih =>
      intro i
      have := ih j
      show (j :: is).length ≤ (i.text ++ asc ',' :: listText (j :: is)).length
      simp only [List.length_append, List.length_cons]
      omega
  exact key is i _ 0 junk [] hj h (by simp) (Nat.lt_succ_of_le (hlen is i))

/-- **C51**: without the list flag only the first item counts, whatever follows it. -/
theorem C51_single (fold : Byte → Byte) (hf : FoldOK fold) (table : List OptionInfo) (ht : ∀ o ∈ table, (0 : Byte) ∉ o.mnemonic)
    (junk rest : List Byte) (hj : junk.length = 4096) (i : Item) (h : i.OK fold table) :
    parseOption fold table false junk i.text = .ok (some i.type) ∧ parseOption fold table false junk (i.text ++ asc ',' :: rest) = .ok (some i.type) := by
  unfold parseOption
  constructor
  · obtain ⟨_, _, e⟩ := parse_item hf ht h false i.text.length [] (Or.inl rfl) 0 junk hj
    rw [List.append_nil] at e
    rw [e, if_pos rfl, zero_or64]
  · obtain ⟨_, _, e⟩ := parse_item hf ht h false (i.text ++ asc ',' :: rest).length (asc ',' :: rest) (Or.inr ⟨_, rfl⟩) 0 junk hj
    rw [e, if_pos rfl, zero_or64]

/-- An item that is just a word. -/
def wordItem (word : List Byte) (type : BitVec 64) : Item := ⟨[], [], false, word, [], type⟩

/-- **C51 is false** for the exclamation mark: `!word` adds the value of the word instead of removing it (option.c:473 looks at the
token, from which the mark has been skipped in 459).  For every table and word, after every list of items that includes it. -/
theorem C51_negate_violated (fold : Byte → Byte) (hf : FoldOK fold) (table : List OptionInfo) (ht : ∀ o ∈ table, (0 : Byte) ∉ o.mnemonic)
    (junk : List Byte) (hj : junk.length = 4096) (i : Item) (is : List Item) (h : ∀ j ∈ i :: is, j.OK fold table) (k : Item) (hk : k.OK fold table) :
    ∃ v, parseOption fold table true junk (listText (i :: is)) = .ok (some v) ∧
      parseOption fold table true junk (listText ((i :: is) ++ [{ k with bang := true }])) = .ok (some (v ||| k.type)) := by
  have hk' : Item.OK fold table { k with bang := true } := by
    obtain ⟨c, w, h1, h2, h3⟩ := hk.first
    exact ⟨⟨hk.before, hk.sign, hk.plain, ⟨c, w, h1, h2, fun _ e => Bool.noConfusion e⟩, hk.short, hk.after⟩, hk.names, hk.dashes⟩
  refine ⟨_, C51_list_partial fold hf table ht junk hj i is h, ?_⟩
  have e := C51_list_partial fold hf table ht junk hj i (is ++ [{ k with bang := true }]) ?_
  · rw [← List.cons_append, List.foldl_append] at e
    exact e
  · intro j hj
    rw [← List.cons_append] at hj
    rcases List.mem_append.mp hj with hj | hj
    · exact h j hj
    · rw [List.mem_singleton] at hj
      rw [hj]
      exact hk'

theorem tables_no_nul : ∀ t ∈ commandOptions :: wordTables, ∀ o ∈ t, (0 : Byte) ∉ o.mnemonic := by decide +kernel

/-- The conditions on the entries of the tables, checked entry by entry. -/
theorem table_entries : ∀ fold, fold = asciiMap ∨ fold = cLocaleLower → ∀ t ∈ wordTables, ∀ o ∈ t,
    (entry fold t o.mnemonic = some o ∧ (∀ c ∈ o.mnemonic, isSpaceC c = false ∧ c ≠ asc ',' ∧ c ≠ 0) ∧ o.mnemonic.length < 4096 ∧
      ∀ c, o.mnemonic.head? = some c → c ≠ asc '!' ∧ c ≠ asc '-' ∧ c ≠ asc '+') ∧ o.mnemonic ≠ [] := by
  intro fold hf
  rcases hf with rfl | rfl
  · decide +kernel
  · decide +kernel

theorem entry_item {fold : Byte → Byte} (hf : fold = asciiMap ∨ fold = cLocaleLower) {t : List OptionInfo} (ht : t ∈ wordTables)
    {o : OptionInfo} (ho : o ∈ t) : (wordItem o.mnemonic o.type).OK fold t := by
  obtain ⟨⟨h1, h2, h3, h4⟩, h5⟩ := table_entries fold hf t ht o ho
  refine ⟨⟨fun c hc => absurd hc List.not_mem_nil, Or.inl rfl, h2, ?_, h3, ⟨fun c hc => absurd hc List.not_mem_nil, fun c hc => by cases hc⟩⟩, ?_, ?_⟩
  · cases hm : o.mnemonic with
    | nil => exact absurd hm h5
    | cons c w =>
      have := h4 c (by rw [hm]; rfl)
      exact ⟨c, w, rfl, this.1, fun _ _ => ⟨this.2.1, this.2.2⟩⟩
  · show (named fold t o.mnemonic).map (·.type) = some o.type
    rw [named, h1]
    rfl
  · intro e
    have e : entry fold t o.mnemonic = none := e
    rw [h1] at e
    cases e

theorem foldOK_of {fold : Byte → Byte} (hf : fold = asciiMap ∨ fold = cLocaleLower) : FoldOK fold := by
  rcases hf with rfl | rfl
  · exact asciiMap_ok
  · exact cLocaleLower_ok

/-- **C51**: every mnemonic of every table but the one of commands is parsed to its value, and the mnemonic reported for that value is
parsed to the same value again; with or without the list flag, in both ways the library compares text. -/
theorem C51_inverse (fold : Byte → Byte) (hf : fold = asciiMap ∨ fold = cLocaleLower) (t : List OptionInfo) (ht : t ∈ wordTables)
    (o : OptionInfo) (ho : o ∈ t) (list : Bool) (junk : List Byte) (hj : junk.length = 4096) :
    parseOption fold t list junk o.mnemonic = .ok (some o.type) ∧
    parseOption fold t list junk (optionToMnemonic t o.type) = .ok (some o.type) := by
  have key : ∀ o ∈ t, parseOption fold t list junk o.mnemonic = .ok (some o.type) := by
    intro o ho
    have hi := entry_item hf ht ho
    have hn := tables_no_nul t (List.mem_cons_of_mem _ ht)
    have htext : (wordItem o.mnemonic o.type).text = o.mnemonic := by simp [wordItem, Item.text]
    cases list with
    | false =>
      have := (C51_single fold (foldOK_of hf) t hn junk [] hj _ hi).1
      rwa [htext] at this
    | true =>
      have := C51_list_partial fold (foldOK_of hf) t hn junk hj _ [] (by intro j hj; rw [List.mem_singleton] at hj; rw [hj]; exact hi)
      have hl : listText [wordItem o.mnemonic o.type] = o.mnemonic := htext
      rw [hl] at this
      rw [this]
      show Res.ok (some (0 ||| o.type)) = _
      rw [zero_or64]
  refine ⟨key o ho, ?_⟩
  unfold optionToMnemonic
  cases hfd : t.find? (fun x => x.type == o.type) with
  | none =>
    rw [List.find?_eq_none] at hfd
    exact absurd (by simp) (hfd o ho)
  | some x =>
    have h1 := List.mem_of_find?_eq_some hfd
    have h2 := List.find?_some hfd
    simp only [beq_iff_eq] at h2
    simp only []
    rw [key x h1, h2]

-- the hash `SHA-256` by name and back; a list of events, with a sign, spaces, other letter case and text after a space
example : opt ['S', 'H', 'A', '2', '5', '6'] 7 ∈ hashOptions ∧ hashOptions ∈ wordTables := by decide +kernel

example : ∀ j ∈ [Item.mk [0x20] [asc '-'] false (['b', 'L', 'o', 'b'].map asc) [0x20, asc 'x'] 4, Item.mk [asc ','] [] true (['u', 's', 'e', 'r'].map asc) [] 0x2000],
    j.OK asciiMap logWizardEventOptions := by
  intro j hj
  simp only [List.mem_cons, List.not_mem_nil, or_false] at hj
  rcases hj with rfl | rfl
  · exact ⟨⟨by decide, Or.inr (Or.inl rfl), by decide, ⟨_, _, rfl, by decide, by decide⟩, by decide, ⟨by decide, by decide⟩⟩, by decide +kernel, by decide +kernel⟩
  · exact ⟨⟨by decide, Or.inl rfl, by decide, ⟨_, _, rfl, by decide, by decide⟩, by decide, ⟨by decide, by decide⟩⟩, by decide +kernel, by decide +kernel⟩

/-- **C51**: a word that names no entry, dashes and underscores aside, is refused (-1): wherever it stands in a list of items,
whatever follows it, and as the first item when there is no list flag.  A word with dashes or underscores has fewer than 2049 bytes. -/
theorem C51_unknown (fold : Byte → Byte) (hf : FoldOK fold) (table : List OptionInfo) (ht : ∀ o ∈ table, (0 : Byte) ∉ o.mnemonic)
    (junk : List Byte) (k : Item) (hk : k.Form) (hj : junk.length = 4096) (hn : named fold table k.word = none)
    (hd : k.word.length < 2049 ∨ (asc '-' ∉ k.word.drop 1 ∧ asc '_' ∉ k.word.drop 1)) (rest : List Byte) (hrest : rest = [] ∨ ∃ r, rest = asc ',' :: r) :
    (∀ list, parseOption fold table list junk (k.text ++ rest) = .ok none) ∧
    ∀ is : List Item, (∀ j ∈ is, j.OK fold table) →
      parseOption fold table true junk ((is.map (fun j => j.text ++ [asc ','])).flatten ++ (k.text ++ rest)) = .ok none := by
  have key : ∀ (is : List Item) (fuel : Nat) (acc : BitVec 64) (buf pre : List Byte), buf.length = 4096 → (∀ j ∈ is, j.OK fold table) →
      (∀ c ∈ pre, c = asc ',') → is.length < fuel →
      parseLoop fold table true fuel (pre ++ ((is.map (fun j => j.text ++ [asc ','])).flatten ++ (k.text ++ rest))) acc buf = .ok none := by
    intro is
    induction is with
    | nil =>
      intro fuel acc buf pre hbuf _ hpre hfuel
      obtain ⟨fuel, rfl⟩ : ∃ f, fuel = f + 1 := ⟨fuel - 1, by simp at hfuel; omega⟩
      have hk' : Item.Form { k with before := pre ++ k.before } := form_before hk hpre
      have e := parse_unknown hf ht hk' hn hd true fuel rest hrest acc buf hbuf
      have ht' : Item.text { k with before := pre ++ k.before } = pre ++ k.text := List.append_assoc ..
      rw [ht', List.append_assoc] at e
      exact e
    | cons i is ih =>
      intro fuel acc buf pre hbuf h hpre hfuel
      rw [List.length_cons] at hfuel
      obtain ⟨fuel, rfl⟩ : ∃ f, fuel = f + 1 := ⟨fuel - 1, by omega⟩
      have hi := h i (List.mem_cons_self ..)
      have hi' : Item.OK fold table { i with before := pre ++ i.before } :=
        ⟨form_before hi.toForm hpre, hi.names, hi.dashes⟩
      obtain ⟨buf', hbuf', e⟩ := parse_item hf ht hi' true fuel
        (asc ',' :: ((is.map (fun j => j.text ++ [asc ','])).flatten ++ (k.text ++ rest))) (Or.inr ⟨_, rfl⟩) acc buf hbuf
      have ht' : Item.text { i with before := pre ++ i.before } = pre ++ i.text := List.append_assoc ..
      rw [ht', List.append_assoc] at e
      have hl : (((i :: is).map (fun j => j.text ++ [asc ','])).flatten ++ (k.text ++ rest)) =
          i.text ++ asc ',' :: ((is.map (fun j => j.text ++ [asc ','])).flatten ++ (k.text ++ rest)) := by
        simp only [List.map_cons, List.flatten_cons, List.append_assoc, List.cons_append, List.nil_append]
      rw [hl, e]
      exact ih fuel (acc ||| i.type) buf' [asc ','] hbuf' (fun x hx => h x (List.mem_cons_of_mem _ hx)) (by simp) (by omega)
  constructor
  · intro list
    exact parse_unknown hf ht hk hn hd list _ rest hrest 0 junk hj
  · intro is his
    refine key is _ 0 junk [] hj his (by simp) ?_
    have : ∀ l : List Item, l.length ≤ ((l.map (fun j => j.text ++ [asc ','])).flatten).length := by
      intro l
      induction l with
      | nil => exact Nat.le_refl _
      | cons j l ih =>
        simp only [List.map_cons, List.flatten_cons, List.length_append, List.length_cons, List.length_nil] at ih ⊢
        omega
    have := this is
    rw [List.length_append]
    omega

example : (wordItem (['D', 'E', 'S'].map asc) 0).Form :=
  ⟨by decide, Or.inl rfl, by decide, ⟨_, _, rfl, by decide, by decide⟩, by decide, ⟨by decide, by decide⟩⟩

example : entry asciiMap cipherOptions (['D', 'E', 'S'].map asc) = none ∧ named asciiMap cipherOptions (['D', '-', 'E', '_', 'S'].map asc) = none := by decide +kernel

-- `SHA-256` is not an entry of the table of hashes, `SHA256` is
example : entry asciiMap hashOptions (['S', 'H', 'A', '-', '2', '5', '6'].map asc) = none ∧
    entry asciiMap hashOptions (['S', 'H', 'A', '2', '5', '6'].map asc) = some (opt ['S', 'H', 'A', '2', '5', '6'] 7) := by decide +kernel

/-- **C51 is false** for the table of commands: of its mnemonics none is found, because they begin with a sign and the sign is
skipped (option.c:455) before the token is looked up.  `ExpandFilenames` (utilities/utility.c:215) asks for them to learn how many
parameters a command option has, and so expands the parameters as file names. -/
theorem C51_command_violated (fold : Byte → Byte) (hf : fold = asciiMap ∨ fold = cLocaleLower) (o : OptionInfo) (ho : o ∈ commandOptions)
    (list : Bool) (junk : List Byte) (hj : junk.length = 4096) :
    parseOption fold commandOptions list junk o.mnemonic = .ok none := by
  have key : ∀ fold, fold = asciiMap ∨ fold = cLocaleLower → ∀ o ∈ commandOptions, ∃ s c w, o.mnemonic = s :: c :: w ∧ (s = asc '-' ∨ s = asc '+') ∧
      c ≠ asc '!' ∧ (∀ x ∈ c :: w, isSpaceC x = false ∧ x ≠ asc ',' ∧ x ≠ 0) ∧ (c :: w).length < 2049 ∧
      named fold commandOptions (c :: w) = none := by
    intro fold hf o ho
    have : ∀ o ∈ commandOptions, (o.mnemonic.head? = some (asc '-') ∨ o.mnemonic.head? = some (asc '+')) ∧
        (o.mnemonic.drop 1).head? ≠ some (asc '!') ∧ (∀ x ∈ o.mnemonic.drop 1, isSpaceC x = false ∧ x ≠ asc ',' ∧ x ≠ 0) ∧ 2 ≤ o.mnemonic.length ∧
        o.mnemonic.length < 2049 ∧ named asciiMap commandOptions (o.mnemonic.drop 1) = none ∧ named cLocaleLower commandOptions (o.mnemonic.drop 1) = none := by decide +kernel
    obtain ⟨h1, h2, h3, h4, h5, h6⟩ := this o ho
    obtain ⟨s, c, w, hm⟩ : ∃ s c w, o.mnemonic = s :: c :: w := by
      match hm : o.mnemonic, h4 with
      | s :: c :: w, _ => exact ⟨s, c, w, rfl⟩
    rw [hm] at h1 h2 h3 h5 h6
    refine ⟨s, c, w, hm, ?_, fun e => h2 (by rw [e]; rfl), h3, ?_, ?_⟩
    · rcases h1 with h | h
      · exact Or.inl (Option.some.inj h)
      · exact Or.inr (Option.some.inj h)
    · rw [List.length_cons] at h5; omega
    · rcases hf with rfl | rfl
      · exact h6.1
      · exact h6.2
  obtain ⟨s, c, w, hm, hs, hb, hp, hl, hn⟩ := key fold hf o ho
  have hform : Item.Form ⟨[], [s], false, c :: w, [], 0⟩ := by
    refine ⟨fun c hc => absurd hc List.not_mem_nil, ?_, hp, ⟨c, w, rfl, hb, fun e => by cases e⟩, Nat.lt_of_lt_of_le hl (by decide),
      ⟨fun c hc => absurd hc List.not_mem_nil, fun c hc => by cases hc⟩⟩
    rcases hs with rfl | rfl
    · exact Or.inr (Or.inl rfl)
    · exact Or.inr (Or.inr rfl)
  have := (C51_unknown fold (foldOK_of hf) commandOptions (tables_no_nul _ (List.mem_cons_self ..)) junk _ hform hj hn (Or.inl hl) [] (Or.inl rfl)).1 list
  have e : Item.text ⟨[], [s], false, c :: w, [], 0⟩ ++ [] = o.mnemonic := by rw [hm]; simp [Item.text]
  rwa [e] at this

/-- **C51 is false** for the empty text (and one of spaces and commas): the search for dashes starts behind the NUL of the empty token
(option.c:481), in memory that was never written; with nothing but other bytes there it reads past the end of the buffer. -/
theorem C51_empty_violated (fold : Byte → Byte) (hf : FoldOK fold) (table : List OptionInfo) (ht : ∀ o ∈ table, (0 : Byte) ∉ o.mnemonic)
    (hne : ∀ o ∈ table, o.mnemonic ≠ []) (list : Bool) (blank : List Byte) (hb : ∀ c ∈ blank, isSpaceC c = true ∨ c = asc ',')
    (junk : List Byte) (hj : ∀ c ∈ junk, c ≠ 0 ∧ c ≠ asc '-') : parseOption fold table list junk blank = .ub := by
  unfold parseOption
  have h1 : blank.dropWhile (fun c => isSpaceC c || c == asc ',') = [] := by
    apply dropWhile_all
    intro c hc
    rcases hb c hc with h | h
    · rw [h]; rfl
    · rw [h]; simp
  rw [parseLoop, h1]
  simp only [skipSign, skipBang, List.takeWhile_nil, List.take_nil, List.length_nil, List.nil_append]
  have hn : entry fold table [] = none := by
    unfold entry
    rw [List.find?_eq_none]
    intro o ho hm
    have := of_decide_eq_true hm
    exact hne o ho (List.map_eq_nil_iff.mp this.symm)
  rw [findToken, lookupOption_spec fold hf [] List.not_mem_nil table ht, Res.ok_bind, hn]
  simp only []
  have hub : ∀ (l : List Byte), (∀ c ∈ l, c ≠ 0 ∧ c ≠ asc '-') → strchrMem (asc '-') l = .ub := by
    intro l
    induction l with
    | nil => intro _; rfl
    | cons x l ih =>
      intro hl
      have := hl x (List.mem_cons_self ..)
      rw [strchrMem, if_neg this.2, if_neg this.1, ih (fun y hy => hl y (List.mem_cons_of_mem _ hy))]
      rfl
  rw [secondAttempt, hasDash, show ((0 : Byte) :: junk.drop (0 + 1)).drop 1 = junk.drop 1 from rfl, hub _ (fun c hc => hj c (List.mem_of_mem_drop hc))]
  rfl

-- every table has non-empty mnemonics
example : ∀ t ∈ wordTables, ∀ o ∈ t, o.mnemonic ≠ [] := by decide +kernel

end Wizard.Props

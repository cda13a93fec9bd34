import Verif.Model.Catalog
import Verif.Spec.Catalog
import Verif.Props.Token
/-! The tokens of catalogs. -/
namespace Wizard
open Wizard.Spec.Catalog Wizard.Props

/-- Bytes inside a word. -/
def wordByte (b : Byte) : Bool := !tokDelim b && b != asc '<' && b != asc '>' && b != asc '(' && b != asc '\\' && b != 0

theorem tokPush_ok {extent : Nat} {tok : List Byte} (c : Byte) (h : tok.length + 1 < extent) : tokPush extent extent tok c = .ok (tok ++ [c]) := by
  unfold tokPush
  rw [if_pos (by omega), if_pos (by omega)]

theorem tokWord_run {extent : Nat} (rest : List Byte) (f : Nat) : ∀ (w tok : List Byte) (prev : Byte), (∀ b ∈ w, wordByte b = true) → tok.length + w.length + 1 < extent →
    prev ≠ asc '\\' → ∃ prev', prev' ≠ asc '\\' ∧ tokWord extent extent (f + w.length) prev (w ++ rest) tok = tokWord extent extent f prev' rest (tok ++ w) := by
  intro w
  induction w with
  | nil => intro tok prev _ _ hp; exact ⟨prev, hp, by simp⟩
  | cons c w ih =>
    intro tok prev hw hl hp
    have hc := hw c (List.mem_cons_self ..)
    simp only [wordByte, Bool.and_eq_true, Bool.not_eq_true', bne_iff_ne, ne_eq] at hc
    obtain ⟨⟨⟨⟨⟨h1, h2⟩, h3⟩, h4⟩, h5⟩, h6⟩ := hc
    simp only [List.length_cons] at hl
    obtain ⟨p', hp', e⟩ := ih (tok ++ [c]) c (fun b hb => hw b (List.mem_cons_of_mem _ hb)) (by simp; omega) h5
    refine ⟨p', hp', ?_⟩
    rw [List.cons_append, List.length_cons, ← Nat.add_assoc, tokWord, if_neg (by simp [h1]), if_neg (by simp [h2]), tokPush_ok c (by omega)]
    simp only [Res.ok_bind]
    rw [if_neg h3, if_neg h4, e]
    simp

/-- What `strtod` does not take for a number. -/
structure NumberOK (number : List Byte → Nat) : Prop where
  marks : ∀ c r, c = asc '<' ∨ c = asc '>' ∨ c = asc '=' ∨ c = asc '?' ∨ c = asc 'v' → number (c :: r) = 0
  name : ∀ r, number (txt "name" ++ r) = 0

theorem fold_paren : ∀ b : Byte, cLocaleLower b = cLocaleLower (asc '(') → b = asc '(' := by decide +kernel

theorem tokFinish_plain {cap : Nat} {tok : List Byte} (h1 : asc '(' ∉ tok) (h0 : (0 : Byte) ∉ tok) (hl : tok.length < cap) :
    tokFinish cLocaleLower cap tok = .ok tok := by
  unfold tokFinish
  rw [if_pos hl]
  have hf : FoldOK cLocaleLower := cLocaleLower_ok
  have hn := C06_ncompare cLocaleLower hf tok ("url(".toList.map asc) 4 h0 (by decide)
  obtain ⟨r, hr, _, _, hr0⟩ := C06_compare_spec cLocaleLower hf (tok.take 4)
    (("url(".toList.map asc).take 4) (fun h => h0 (List.mem_of_mem_take h)) (by decide)
  rw [hr] at hn
  rw [hn]
  simp only [Res.ok_bind]
  rw [if_neg]
  · rfl
  · intro hz
    have e := hr0.mp hz
    have : cLocaleLower (asc '(') ∈ (tok.take 4).map cLocaleLower := by rw [e]; decide
    obtain ⟨b, hb, hbe⟩ := List.mem_map.mp this
    rw [fold_paren b hbe] at hb
    exact h1 (List.mem_of_mem_take hb)

theorem getNextToken_of {number : List Byte → Nat} {extent : Nat} {s p tok : List Byte} (h : tokScan number extent extent s = .ok (p, tok))
    (h1 : asc '(' ∉ tok) (h0 : (0 : Byte) ∉ tok) (hl : tok.length < extent) : locToken number extent s = .ok (p.dropWhile isSpace, tok) := by
  unfold locToken getNextToken
  rw [h]
  simp only [Res.ok_bind]
  rw [tokFinish_plain h1 h0 hl]
  rfl

theorem wordByte_mem {w : List Byte} (h : ∀ b ∈ w, wordByte b = true) : asc '(' ∉ w ∧ (0 : Byte) ∉ w := by
  refine ⟨fun hb => ?_, fun hb => ?_⟩
  · have := h _ hb; revert this; decide
  · have := h _ hb; revert this; decide

theorem not_mem_word {a c : Byte} {w : List Byte} (h : c ≠ a) (hw : a ∉ w) : a ∉ c :: w := by
  intro e
  rcases List.mem_cons.mp e with e | e
  · exact h e.symm
  · exact hw e

theorem not_mem_tag {a c d : Byte} {w : List Byte} (h : c ≠ a) (hw : a ∉ w) (hd : a ≠ d) : a ∉ c :: w ++ [d] := by
  intro e
  rcases List.mem_append.mp e with e | e
  · exact not_mem_word h hw e
  · exact hd (List.mem_singleton.mp e)

/-- A word that begins with `<` or a letter and ends before a delimiter. -/
theorem tok_word {number : List Byte → Nat} {extent : Nat} {c d : Byte} {w rest : List Byte} (hc : c = asc '<' ∨ isAlpha c = true) (hn : number (c :: (w ++ d :: rest)) = 0)
    (hw : ∀ b ∈ w, wordByte b = true) (hd : tokDelim d = true) (hl : w.length + 2 < extent) :
    locToken number extent (c :: (w ++ d :: rest)) = .ok ((d :: rest).dropWhile isSpace, c :: w) := by
  have hfirst : ∀ c : Byte, c = asc '<' ∨ isAlpha c = true → isSpace c = false ∧ c ≠ asc '"' ∧ ¬ (c = asc '\'' ∨ c = asc '`') ∧ c ≠ asc '{' ∧ c ≠ asc '/' ∧
      ¬ (isAlpha c = false ∧ c ≠ asc '/' ∧ c ≠ asc '#' ∧ c ≠ asc '<') ∧ tokDelim c = false ∧ c ≠ asc '>' ∧ c ≠ asc '(' ∧ c ≠ asc '\\' ∧ c ≠ 0 := by decide +kernel
  obtain ⟨f1, f2, f3, f4, f5, f6, f7, f8, f9, f10, f11⟩ := hfirst c hc
  obtain ⟨m1, m2⟩ := wordByte_mem hw
  refine getNextToken_of ?_ (not_mem_word f9 m1) (not_mem_word f11 m2) (by simp; omega)
  unfold tokScan
  simp only []
  rw [List.dropWhile_cons_of_neg (by simp [f1])]
  simp only []
  rw [if_neg f2, if_neg f3, if_neg f4, if_neg f5, if_neg (by simp [hn]), if_neg f6]
  rw [tokWord, if_neg (by simp [f7]), if_neg (by simp), tokPush_ok c (by simp; omega)]
  simp only [Res.ok_bind]
  rw [if_neg f8, if_neg f9]
  obtain ⟨p', hp', e⟩ := tokWord_run (extent := extent) (d :: rest) (rest.length + 2) w [c] c hw (by simp; omega) f10
  rw [show (c :: (w ++ d :: rest)).length = rest.length + 2 + w.length by simp; omega]
  simp only [List.nil_append]
  rw [e, tokWord, if_pos ⟨hd, hp'⟩]
  rfl

/-- A word that ends with `>`: it is part of the token, and is read again. -/
theorem tok_tag {number : List Byte → Nat} {extent : Nat} {c : Byte} {w rest : List Byte} (hc : c = asc '<' ∨ isAlpha c = true) (hn : number (c :: (w ++ asc '>' :: rest)) = 0)
    (hw : ∀ b ∈ w, wordByte b = true) (hl : w.length + 3 < extent) :
    locToken number extent (c :: (w ++ asc '>' :: rest)) = .ok (asc '>' :: rest, c :: w ++ [asc '>']) := by
  have hfirst : ∀ c : Byte, c = asc '<' ∨ isAlpha c = true → isSpace c = false ∧ c ≠ asc '"' ∧ ¬ (c = asc '\'' ∨ c = asc '`') ∧ c ≠ asc '{' ∧ c ≠ asc '/' ∧
      ¬ (isAlpha c = false ∧ c ≠ asc '/' ∧ c ≠ asc '#' ∧ c ≠ asc '<') ∧ tokDelim c = false ∧ c ≠ asc '>' ∧ c ≠ asc '(' ∧ c ≠ asc '\\' ∧ c ≠ 0 := by decide +kernel
  obtain ⟨f1, f2, f3, f4, f5, f6, f7, f8, f9, f10, f11⟩ := hfirst c hc
  obtain ⟨m1, m2⟩ := wordByte_mem hw
  have hz : asc '(' ≠ asc '>' ∧ (0 : Byte) ≠ asc '>' := by decide
  have key : locToken number extent (c :: (w ++ asc '>' :: rest)) = .ok ((asc '>' :: rest).dropWhile isSpace, c :: w ++ [asc '>']) := by
    refine getNextToken_of ?_ (not_mem_tag f9 m1 hz.1) (not_mem_tag f11 m2 hz.2) (by simp; omega)
    unfold tokScan
    simp only []
    rw [List.dropWhile_cons_of_neg (by simp [f1])]
    simp only []
    rw [if_neg f2, if_neg f3, if_neg f4, if_neg f5, if_neg (by simp [hn]), if_neg f6]
    rw [tokWord, if_neg (by simp [f7]), if_neg (by simp), tokPush_ok c (by simp; omega)]
    simp only [Res.ok_bind]
    rw [if_neg f8, if_neg f9]
    obtain ⟨p', hp', e⟩ := tokWord_run (extent := extent) (asc '>' :: rest) (rest.length + 2) w [c] c hw (by simp; omega) f10
    rw [show (c :: (w ++ asc '>' :: rest)).length = rest.length + 2 + w.length by simp; omega]
    simp only [List.nil_append]
    rw [e, tokWord, if_neg (by simp; intro h; exact absurd h (by decide)), if_neg (by simp; decide), tokPush_ok _ (by simp; omega)]
    simp only [Res.ok_bind]
    rw [if_pos trivial]
    rfl
  rw [key, List.dropWhile_cons_of_neg (by decide)]

/-- A single mark. -/
theorem tok_mark {number : List Byte → Nat} {extent : Nat} {c : Byte} {rest : List Byte} (hc : c = asc '>' ∨ c = asc '=' ∨ c = asc '?') (hn : number (c :: rest) = 0) (hl : 2 < extent) :
    locToken number extent (c :: rest) = .ok (rest.dropWhile isSpace, [c]) := by
  have hfirst : ∀ c : Byte, c = asc '>' ∨ c = asc '=' ∨ c = asc '?' → isSpace c = false ∧ c ≠ asc '"' ∧ ¬ (c = asc '\'' ∨ c = asc '`') ∧ c ≠ asc '{' ∧ c ≠ asc '/' ∧
      (isAlpha c = false ∧ c ≠ asc '/' ∧ c ≠ asc '#' ∧ c ≠ asc '<') ∧ c ≠ asc '(' ∧ c ≠ 0 := by decide +kernel
  obtain ⟨f1, f2, f3, f4, f5, f6, f7, f8⟩ := hfirst c hc
  refine getNextToken_of ?_ (not_mem_word f7 (List.not_mem_nil)) (not_mem_word f8 (List.not_mem_nil)) (by simp; omega)
  unfold tokScan
  simp only []
  rw [List.dropWhile_cons_of_neg (by simp [f1])]
  simp only []
  rw [if_neg f2, if_neg f3, if_neg f4, if_neg f5, if_neg (by simp [hn]), if_pos f6]
  unfold tokTake
  rw [if_pos (by simp; omega), if_pos (by simp; omega)]
  rfl

theorem tokQuoted_run {extent : Nat} (rest : List Byte) : ∀ (w tok : List Byte), (∀ b ∈ w, b ≠ asc '"' ∧ b ≠ asc '\\') → tok.length + w.length + 1 < extent →
    tokQuoted extent extent (asc '"') (w ++ asc '"' :: rest) tok = .ok (rest, tok ++ w) := by
  intro w
  induction w with
  | nil =>
    intro tok _ _
    cases rest with
    | nil => rw [List.nil_append, tokQuoted, if_pos rfl, List.append_nil]
    | cons d r => rw [List.nil_append, tokQuoted, if_neg (by decide +revert), if_pos rfl, List.append_nil]
  | cons c w ih =>
    intro tok hw hl
    have hc := hw c (List.mem_cons_self ..)
    simp only [List.length_cons] at hl
    have hstep : ∀ r, r ≠ [] → tokQuoted extent extent (asc '"') (c :: r) tok = tokQuoted extent extent (asc '"') r (tok ++ [c]) := by
      intro r hr
      cases r with
      | nil => exact absurd rfl hr
      | cons d r =>
        rw [tokQuoted, if_neg (fun e => hc.2 e.1), if_neg hc.1, tokPush_ok c (by omega)]
        rfl
    rw [List.cons_append, hstep _ (by simp), ih _ (fun b hb => hw b (List.mem_cons_of_mem _ hb)) (by simp; omega)]
    simp

/-- A quoted text. -/
theorem tok_quoted {number : List Byte → Nat} {extent : Nat} {w rest : List Byte} (hw : ∀ b ∈ w, b ≠ asc '"' ∧ b ≠ asc '\\') (h1 : asc '(' ∉ w) (h0 : (0 : Byte) ∉ w) (hl : w.length + 1 < extent) :
    locToken number extent (asc '"' :: (w ++ asc '"' :: rest)) = .ok (rest.dropWhile isSpace, w) := by
  refine getNextToken_of ?_ h1 h0 (by omega)
  unfold tokScan
  simp only []
  rw [List.dropWhile_cons_of_neg (by decide)]
  simp only []
  rw [if_pos trivial, tokQuoted_run rest w [] hw (by simp; omega)]
  rfl

/-- White space before a token does not matter. -/
theorem locToken_space (number : List Byte → Nat) (extent : Nat) (s : List Byte) : locToken number extent s = locToken number extent (s.dropWhile isSpace) := by
  unfold locToken getNextToken tokScan
  rw [dropWhile_idem]
where
  dropWhile_idem : (s.dropWhile isSpace).dropWhile isSpace = s.dropWhile isSpace := by
    generalize isSpace = p
    induction s with
    | nil => rfl
    | cons c r ih =>
      by_cases h : p c = true
      · rw [List.dropWhile_cons_of_pos h]; exact ih
      · rw [List.dropWhile_cons_of_neg h, List.dropWhile_cons_of_neg h]

/-! ### Comparing keywords -/

theorem low_eq : ∀ b : Byte, low b = cLocaleLower b := by decide +kernel

theorem map_low (l : List Byte) : l.map low = l.map cLocaleLower := List.map_congr_left fun b _ => low_eq b

theorem lcEq_self (a : List Byte) : lcEq a a = true := by simp [lcEq]

theorem lcEq_first {kw x : List Byte} (h : peek kw ≠ asc '<') : lcEq kw (asc '<' :: x) = false := by
  have hf : ∀ b : Byte, cLocaleLower b = cLocaleLower (asc '<') → b = asc '<' := by decide +kernel
  cases kw with
  | nil => simp [lcEq]
  | cons b r =>
    have : b ≠ asc '<' := h
    simp only [lcEq, List.map_cons, beq_eq_false_iff_ne, ne_eq, List.cons.injEq, not_and]
    intro e
    exact absurd (hf b e) this

theorem lcEqN_first {kw x : List Byte} {n : Nat} (h : peek kw ≠ asc '<') : lcEqN kw (asc '<' :: x) (n + 1) = false := by
  have hf : ∀ b : Byte, cLocaleLower b = cLocaleLower (asc '<') → b = asc '<' := by decide +kernel
  cases kw with
  | nil => simp [lcEqN]
  | cons b r =>
    have : b ≠ asc '<' := h
    simp only [lcEqN, List.take_succ_cons, List.map_cons, beq_eq_false_iff_ne, ne_eq, List.cons.injEq, not_and]
    intro e
    exact absurd (hf b e) this

theorem lcEqN_second {c : Byte} {r x : List Byte} {n : Nat} (h : c ≠ asc '!') : lcEqN (asc '<' :: c :: r) (asc '<' :: asc '!' :: x) (n + 2) = false := by
  have hf : ∀ b : Byte, cLocaleLower b = cLocaleLower (asc '!') → b = asc '!' := by decide +kernel
  simp only [lcEqN, List.take_succ_cons, List.map_cons, beq_eq_false_iff_ne, ne_eq, List.cons.injEq, not_and, true_and]
  intro e
  exact absurd (hf c e) h

theorem lcEq_last {c c' d d' : Byte} {n m : List Byte} (h : lcEq (c :: n ++ [d]) (c' :: m ++ [d']) = true) :
    cLocaleLower d = cLocaleLower d' ∧ n.map low = m.map low := by
  have e : (c :: n ++ [d]).map cLocaleLower = (c' :: m ++ [d']).map cLocaleLower := by simpa [lcEq] using h
  simp only [List.map_append, List.map_cons, List.map_nil] at e
  obtain ⟨e1, e2⟩ := List.append_inj' e rfl
  rw [map_low, map_low]
  exact ⟨by simpa using e2, by simpa using (List.cons.inj e1).2⟩

theorem locCopy_short {s : List Byte} (h : s.length ≤ 255) : locCopy s = s := List.take_of_length_le h
theorem locCat_short {a b : List Byte} (h : a.length + b.length ≤ 255) : locCat a b = a ++ b := List.take_of_length_le (by simp [wizardLocaleExtent]; omega)

/-! ### Turns of the loop -/

section
variable {number : List Byte → Nat} {extent : Nat} {incl : List Byte → LocCache → Res LocCache} {locale : List Byte}

theorem turn_other {st : LocState} {q tk : List Byte} (fuel : Nat) (hq : st.q ≠ []) (ht : locToken number extent st.q = .ok (q, tk)) (hne : tk ≠ [])
    (h : peek tk ≠ asc '<') (hla : ∃ r, locToken number extent q = .ok r) :
    loadLoop number extent incl locale (fuel + 1) st = loadLoop number extent incl locale fuel { st with q := q } := by
  have hp : peek (locCopy tk) ≠ asc '<' := by
    cases tk with
    | nil => exact absurd rfl hne
    | cons b r => exact h
  obtain ⟨r, hr⟩ := hla
  rw [loadLoop, if_neg hq, ht]
  simp only [Res.ok_bind]
  rw [if_neg hne]
  have e : ∀ x, lcEq (locCopy tk) (asc '<' :: x) = false := fun x => lcEq_first hp
  have e9 : lcEqN (locCopy tk) (ascText "<!DOCTYPE") 9 = false := lcEqN_first hp
  have e4 : lcEqN (locCopy tk) (ascText "<!--") 4 = false := lcEqN_first hp
  have i1 : lcEq (locCopy tk) (ascText "<include") = false := e _
  have i2 : lcEq (locCopy tk) (ascText "<locale") = false := e _
  have i3 : lcEq (locCopy tk) (ascText "</locale>") = false := e _
  have i4 : lcEq (locCopy tk) (ascText "<localemap>") = false := e _
  have i5 : lcEq (locCopy tk) (ascText "</localemap>") = false := e _
  have i6 : lcEq (locCopy tk) (ascText "<message") = false := e _
  have i7 : lcEq (locCopy tk) (ascText "</message>") = false := e _
  simp only [e9, e4, i1, i2, i3, i4, i5, i6, i7, Bool.false_eq_true, if_false]
  rw [if_neg hp, hr]
  rfl

/-- The tests a tag with `>` at its end fails. -/
theorem tag_tests {n : List Byte} (hb : ∀ c, n.head? = some c → c ≠ asc '!') (hn : n ≠ []) :
    lcEqN (asc '<' :: n ++ [asc '>']) (ascText "<!DOCTYPE") 9 = false ∧ lcEqN (asc '<' :: n ++ [asc '>']) (ascText "<!--") 4 = false ∧
    lcEq (asc '<' :: n ++ [asc '>']) (ascText "<include") = false ∧ lcEq (asc '<' :: n ++ [asc '>']) (ascText "<locale") = false ∧
    lcEq (asc '<' :: n ++ [asc '>']) (ascText "<message") = false := by
  have hl : ∀ m d, cLocaleLower (asc '>') ≠ cLocaleLower d → lcEq (asc '<' :: n ++ [asc '>']) (asc '<' :: m ++ [d]) = false := by
    intro m d hd
    cases h : lcEq (asc '<' :: n ++ [asc '>']) (asc '<' :: m ++ [d]) with
    | false => rfl
    | true => exact absurd (lcEq_last h).1 hd
  obtain ⟨c, r, rfl⟩ := List.exists_cons_of_ne_nil hn
  exact ⟨lcEqN_second (hb c rfl), lcEqN_second (hb c rfl), hl (ascText "includ") (asc 'e') (by decide), hl (ascText "local") (asc 'e') (by decide),
    hl (ascText "messag") (asc 'e') (by decide)⟩

theorem tag_name {n m : List Byte} (h : n.map low ≠ m.map low) : lcEq (asc '<' :: n ++ [asc '>']) (asc '<' :: m ++ [asc '>']) = false := by
  cases e : lcEq (asc '<' :: n ++ [asc '>']) (asc '<' :: m ++ [asc '>']) with
  | false => rfl
  | true => exact absurd (lcEq_last e).2 h

theorem alnum_word : ∀ b : Byte, AlNum b → wordByte b = true ∧ b ≠ asc '/' ∧ b ≠ asc '!' ∧ b ≠ asc '?' := by
  unfold AlNum Letter; decide +kernel

theorem group_bytes {n : List Byte} (h : GroupName n) : n ≠ [] ∧ ∀ b ∈ n, wordByte b = true ∧ b ≠ asc '/' ∧ b ≠ asc '!' ∧ b ≠ asc '?' := by
  obtain ⟨⟨c, r, rfl, hc, hr⟩, _⟩ := h
  refine ⟨by simp, ?_⟩
  intro b hb
  rcases List.mem_cons.mp hb with rfl | hb
  · exact alnum_word _ (.inl hc)
  · exact alnum_word _ (hr b hb)

theorem space_eq : ∀ b : Byte, Space b ↔ isSpace b = true := by unfold Space; decide +kernel

theorem drop_spaces {s r : List Byte} (h : Spaces s) : (s ++ r).dropWhile isSpace = r.dropWhile isSpace := by
  induction s with
  | nil => rfl
  | cons c s ih =>
    rw [List.cons_append, List.dropWhile_cons_of_pos ((space_eq c).1 (h c (List.mem_cons_self ..)))]
    exact ih fun b hb => h b (List.mem_cons_of_mem _ hb)

/-- The rest of the text can be read on. -/
structure Ready (number : List Byte → Nat) (extent : Nat) (rest : List Byte) : Prop where
  ok : ∃ r, locToken number extent rest = .ok r
  first : rest.dropWhile isSpace = rest

/-- Loading in one state leads to loading in another. -/
def Leads (number : List Byte → Nat) (extent : Nat) (incl : List Byte → LocCache → Res LocCache) (locale : List Byte) (st st' : LocState) : Prop :=
  ∃ k, st'.q.length + k ≤ st.q.length ∧ ∀ fuel, loadLoop number extent incl locale (fuel + k) st = loadLoop number extent incl locale fuel st'

theorem Leads.trans {a b c : LocState} (h1 : Leads number extent incl locale a b) (h2 : Leads number extent incl locale b c) : Leads number extent incl locale a c := by
  obtain ⟨k, hk, e⟩ := h1
  obtain ⟨l, hl, e'⟩ := h2
  refine ⟨l + k, by omega, fun fuel => ?_⟩
  rw [← Nat.add_assoc, e, e']

theorem leads_one {st st' : LocState} (hl : st'.q.length < st.q.length) (h : ∀ fuel, loadLoop number extent incl locale (fuel + 1) st = loadLoop number extent incl locale fuel st') :
    Leads number extent incl locale st st' := ⟨1, hl, h⟩

theorem dropWhile_len (s : List Byte) : (s.dropWhile isSpace).length ≤ s.length := (List.dropWhile_suffix _).length_le

/-- A `>` that ends a tag is read again, to no effect. -/
theorem leads_close (hnum : NumberOK number) {s rest tag : List Byte} {cache : LocCache} (hs : Spaces s) (hr : Ready number extent rest) (he : 2 < extent) :
    Leads number extent incl locale ⟨asc '>' :: (s ++ rest), tag, cache⟩ ⟨rest, tag, cache⟩ := by
  refine leads_one (by simp; omega) fun fuel => ?_
  have ht := tok_mark (rest := s ++ rest) (c := asc '>') (extent := extent) (.inl rfl) (hnum.marks _ _ (.inr (.inl rfl))) he
  rw [drop_spaces hs, hr.first] at ht
  exact turn_other (st := ⟨asc '>' :: (s ++ rest), tag, cache⟩) fuel (by simp) ht (by simp) (by show asc '>' ≠ asc '<'; decide) hr.ok

/-- The begin of a group. -/
theorem leads_open (hnum : NumberOK number) {n s rest tag : List Byte} {cache : LocCache} (hn : GroupName n) (hs : Spaces s) (hr : Ready number extent rest)
    (hl : tag.length + n.length + 1 ≤ 253) (he : 300 < extent) :
    Leads number extent incl locale ⟨asc '<' :: (n ++ asc '>' :: (s ++ rest)), tag, cache⟩ ⟨rest, tag ++ n ++ [asc '/'], cache⟩ := by
  obtain ⟨hne, hb⟩ := group_bytes hn
  refine Leads.trans (b := ⟨asc '>' :: (s ++ rest), tag ++ n ++ [asc '/'], cache⟩) ?_ (leads_close hnum hs hr (by omega))
  refine leads_one (by simp; omega) fun fuel => ?_
  have ht := tok_tag (extent := extent) (rest := s ++ rest) (c := asc '<') (w := n) (.inl rfl) (hnum.marks _ _ (.inl rfl)) (fun b h => (hb b h).1) (by omega)
  have hhead : ∀ c, n.head? = some c → c ≠ asc '!' := fun c hc => (hb c (List.mem_of_head? hc)).2.2.1
  obtain ⟨t1, t2, t3, t4, t5⟩ := tag_tests hhead hne
  have hcopy : locCopy (asc '<' :: n ++ [asc '>']) = asc '<' :: n ++ [asc '>'] := locCopy_short (by simp; omega)
  have t6 : lcEq (asc '<' :: n ++ [asc '>']) (ascText "</locale>") = false :=
    tag_name (m := ascText "/locale") fun e => by
      obtain ⟨c, r, rfl⟩ := List.exists_cons_of_ne_nil hne
      have h1 : low c = low (asc '/') := (List.cons.inj e).1
      have h2 : ∀ b : Byte, low b = low (asc '/') → b = asc '/' := by decide +kernel
      exact (hb c (List.mem_cons_self ..)).2.1 (h2 c h1)
  have t7 : lcEq (asc '<' :: n ++ [asc '>']) (ascText "<localemap>") = false := tag_name (m := ascText "localemap") (fun e => hn.2.2.2 (by rw [e]; decide))
  have t8 : lcEq (asc '<' :: n ++ [asc '>']) (ascText "</localemap>") = false :=
    tag_name (m := ascText "/localemap") fun e => by
      obtain ⟨c, r, rfl⟩ := List.exists_cons_of_ne_nil hne
      have h1 : low c = low (asc '/') := (List.cons.inj e).1
      have h2 : ∀ b : Byte, low b = low (asc '/') → b = asc '/' := by decide +kernel
      exact (hb c (List.mem_cons_self ..)).2.1 (h2 c h1)
  have t9 : lcEq (asc '<' :: n ++ [asc '>']) (ascText "</message>") = false :=
    tag_name (m := ascText "/message") fun e => by
      obtain ⟨c, r, rfl⟩ := List.exists_cons_of_ne_nil hne
      have h1 : low c = low (asc '/') := (List.cons.inj e).1
      have h2 : ∀ b : Byte, low b = low (asc '/') → b = asc '/' := by decide +kernel
      exact (hb c (List.mem_cons_self ..)).2.1 (h2 c h1)
  rw [loadLoop, if_neg (by simp), ht]
  simp only [Res.ok_bind]
  rw [if_neg (by simp), hcopy]
  simp only [t1, t2, t3, t4, t5, t6, t7, t8, t9, Bool.false_eq_true, if_false]
  rw [if_pos (by rfl)]
  obtain ⟨c, r, rfl⟩ := List.exists_cons_of_ne_nil hne
  have hc := hb c (List.mem_cons_self ..)
  rw [if_neg (show peek (List.drop 1 (asc '<' :: (c :: r) ++ [asc '>'])) ≠ asc '?' from hc.2.2.2), if_neg (show peek (List.drop 1 (asc '<' :: (c :: r) ++ [asc '>'])) ≠ asc '/' from hc.2.1)]
  have hname : (asc '<' :: (c :: r) ++ [asc '>']).dropLast.drop 1 = c :: r := by rw [List.dropLast_concat]; rfl
  rw [hname, locCopy_short (by simp at hl ⊢; omega), locCat_short (a := tag) (b := c :: r) (by omega), locCat_short (b := ascText "/") (by rw [List.length_append]; show _ + 1 ≤ 255; omega)]
  rfl

/-- The end of a group, if chopping the tag gives `tag'`. -/
theorem leads_end (hnum : NumberOK number) {n s rest tag tag' : List Byte} {cache : LocCache} (hn : GroupName n) (hl : n.length ≤ 252) (hs : Spaces s) (hr : Ready number extent rest)
    (htag : (if chopLocale tag 1 ≠ [] then locCat (chopLocale tag 1) (ascText "/") else chopLocale tag 1) = tag') (he : 300 < extent) :
    Leads number extent incl locale ⟨asc '<' :: (asc '/' :: n ++ asc '>' :: (s ++ rest)), tag, cache⟩ ⟨rest, tag', cache⟩ := by
  obtain ⟨hne, hb⟩ := group_bytes hn
  refine Leads.trans (b := ⟨asc '>' :: (s ++ rest), tag', cache⟩) ?_ (leads_close hnum hs hr (by omega))
  refine leads_one (by simp; omega) fun fuel => ?_
  have hw : ∀ b ∈ asc '/' :: n, wordByte b = true := by
    intro b h
    rcases List.mem_cons.mp h with rfl | h
    · decide
    · exact (hb b h).1
  have ht := tok_tag (extent := extent) (rest := s ++ rest) (c := asc '<') (w := asc '/' :: n) (.inl rfl) (hnum.marks _ _ (.inl rfl)) hw (by rw [List.length_cons]; omega)
  obtain ⟨t1, t2, t3, t4, t5⟩ := tag_tests (n := asc '/' :: n) (by intro c hc; simp at hc; rw [← hc]; decide) (by simp)
  have hcopy : locCopy (asc '<' :: asc '/' :: n ++ [asc '>']) = asc '<' :: asc '/' :: n ++ [asc '>'] := locCopy_short (by simp; omega)
  have tn : ∀ m : List Byte, n.map low ≠ m.map low → lcEq (asc '<' :: asc '/' :: n ++ [asc '>']) (asc '<' :: asc '/' :: m ++ [asc '>']) = false := by
    intro m hm
    exact tag_name (n := asc '/' :: n) (m := asc '/' :: m) (fun e => hm (List.cons.inj e).2)
  have t6 : lcEq (asc '<' :: asc '/' :: n ++ [asc '>']) (ascText "</locale>") = false := tn (ascText "locale") (fun e => hn.2.2.1 (by rw [e]; decide))
  have t7 : lcEq (asc '<' :: asc '/' :: n ++ [asc '>']) (ascText "<localemap>") = false :=
    tag_name (n := asc '/' :: n) (m := ascText "localemap") (fun e => absurd (List.cons.inj e).1 (by decide))
  have t8 : lcEq (asc '<' :: asc '/' :: n ++ [asc '>']) (ascText "</localemap>") = false := tn (ascText "localemap") (fun e => hn.2.2.2 (by rw [e]; decide))
  have t9 : lcEq (asc '<' :: asc '/' :: n ++ [asc '>']) (ascText "</message>") = false := tn (ascText "message") (fun e => hn.2.1 (by rw [e]; decide))
  rw [loadLoop, if_neg (by simp), ht]
  simp only [Res.ok_bind]
  rw [if_neg (by simp), hcopy]
  simp only [t1, t2, t3, t4, t5, t6, t7, t8, t9, Bool.false_eq_true, if_false]
  rw [if_pos (by rfl), if_neg (show peek (List.drop 1 (asc '<' :: asc '/' :: n ++ [asc '>'])) ≠ asc '?' by show asc '/' ≠ asc '?'; decide), if_pos (by rfl), htag]

/-! ### Chopping -/

theorem nil_or_concat {α : Type} (l : List α) : l = [] ∨ ∃ a b, l = a ++ [b] := by
  rcases List.eq_nil_or_concat l with h | ⟨a, b, h⟩
  · exact .inl h
  · exact .inr ⟨a, b, by rw [h, List.concat_eq_append]⟩

theorem cutLast_some {x y : List Byte} (hx : x ≠ []) (hy : asc '/' ∉ y) : cutLast (x ++ asc '/' :: y) = some x := by
  unfold cutLast
  have h : (x ++ asc '/' :: y).reverse.dropWhile (· != asc '/') = asc '/' :: x.reverse := by
    rw [List.reverse_append, List.reverse_cons, List.append_assoc]
    have hy' : ∀ b ∈ y.reverse, (b != asc '/') = true := by
      intro b hb
      rw [bne_iff_ne]
      rintro rfl
      exact hy (List.mem_reverse.mp hb)
    generalize y.reverse = z at hy'
    induction z with
    | nil => rw [List.nil_append, List.singleton_append, List.dropWhile_cons_of_neg (by simp)]
    | cons c z ih =>
      rw [List.cons_append, List.dropWhile_cons_of_pos (p := fun x => x != asc '/') (hy' c (List.mem_cons_self ..))]
      exact ih fun b hb => hy' b (List.mem_cons_of_mem _ hb)
  rw [h]
  cases hr : x.reverse with
  | nil => exact absurd (List.reverse_eq_nil_iff.mp hr) hx
  | cons b r => simp only []; rw [← hr, List.reverse_reverse]

theorem cutLast_none {y : List Byte} (hy : asc '/' ∉ y) : cutLast y = none := by
  unfold cutLast
  have h : y.reverse.dropWhile (· != asc '/') = [] := by
    have hy' : ∀ b ∈ y.reverse, (b != asc '/') = true := by
      intro b hb
      rw [bne_iff_ne]
      rintro rfl
      exact hy (List.mem_reverse.mp hb)
    generalize y.reverse = z at hy'
    induction z with
    | nil => rfl
    | cons c z ih =>
      rw [List.dropWhile_cons_of_pos (p := fun x => x != asc '/') (hy' c (List.mem_cons_self ..))]
      exact ih fun b hb => hy' b (List.mem_cons_of_mem _ hb)
  rw [h]

/-- The tag of a list of groups. -/
def groupTag (g : List (List Byte)) : List Byte := g.flatMap (· ++ [asc '/'])

theorem groupTag_concat (g : List (List Byte)) (n : List Byte) : groupTag (g ++ [n]) = groupTag g ++ n ++ [asc '/'] := by simp [groupTag]

/-- At the end of a group its name is chopped. -/
theorem chop_group {g : List (List Byte)} {n : List Byte} (hn : asc '/' ∉ n) (hg : ∀ m ∈ g, m ≠ []) (hl : (groupTag (g ++ [n])).length ≤ 253) :
    (if chopLocale (groupTag (g ++ [n])) 1 ≠ [] then locCat (chopLocale (groupTag (g ++ [n])) 1) (ascText "/") else chopLocale (groupTag (g ++ [n])) 1) = groupTag g := by
  have hchop : chopLocale (groupTag (g ++ [n])) 1 = (match cutLast (groupTag g ++ n) with | none => [] | some t => t) := by
    unfold chopLocale
    rw [if_neg (by rw [groupTag_concat]; simp), groupTag_concat, List.getLast?_concat, if_pos rfl, List.dropLast_concat, chopLoop]
    cases cutLast (groupTag g ++ n) <;> rfl
  rw [hchop]
  rcases nil_or_concat g with rfl | ⟨g', m, rfl⟩
  · rw [show groupTag [] ++ n = n from rfl, cutLast_none hn]; rfl
  · have hm : groupTag g' ++ m ≠ [] := by
      have := hg m (by simp)
      simp [this]
    rw [groupTag_concat, List.append_assoc, List.singleton_append, cutLast_some hm hn]
    simp only []
    rw [if_pos hm, locCat_short]
    · rfl
    · rw [groupTag_concat, groupTag_concat] at hl
      simp only [List.length_append, List.length_cons, List.length_nil] at hl ⊢
      show _ + 1 ≤ 255
      omega

/-- At the end of a message its name and its text are chopped. -/
theorem chop_message {g : List (List Byte)} {n t : List Byte} (hne : g ≠ []) (hn : asc '/' ∉ n) (ht : asc '/' ∉ t) (hg : ∀ m ∈ g, m ≠ []) (hl : (groupTag g ++ n).length ≤ 253) :
    locCat (chopLocale (locCat (locCat (groupTag g ++ n ++ [asc '/']) t) (ascText "\n")) 2) (ascText "/") = groupTag g := by
  obtain ⟨x, hx⟩ : ∃ x, locCat (locCat (groupTag g ++ n ++ [asc '/']) t) (ascText "\n") = groupTag g ++ n ++ asc '/' :: x ∧ asc '/' ∉ x ∧ x ≠ [] := by
    have e1 : locCat (groupTag g ++ n ++ [asc '/']) t = groupTag g ++ n ++ asc '/' :: t.take (255 - (groupTag g ++ n ++ [asc '/']).length) := by
      unfold locCat
      rw [List.take_append, List.take_of_length_le (by simp [wizardLocaleExtent] at hl ⊢; omega)]
      simp [wizardLocaleExtent]
    have hk : (groupTag g ++ n ++ [asc '/']).length ≤ 254 := by simp at hl ⊢; omega
    refine ⟨(t.take (255 - (groupTag g ++ n ++ [asc '/']).length) ++ ascText "\n").take (255 - (groupTag g ++ n ++ [asc '/']).length), ?_, ?_, ?_⟩
    · rw [e1]
      unfold locCat
      have : groupTag g ++ n ++ asc '/' :: t.take (255 - (groupTag g ++ n ++ [asc '/']).length) ++ ascText "\n" =
          (groupTag g ++ n ++ [asc '/']) ++ (t.take (255 - (groupTag g ++ n ++ [asc '/']).length) ++ ascText "\n") := by simp
      rw [this, List.take_append, List.take_of_length_le (by show _ ≤ 255; omega)]
      show _ ++ List.take (255 - _) _ = _
      simp
    · intro h
      have h := List.mem_of_mem_take h
      rcases List.mem_append.mp h with h | h
      · exact ht (List.mem_of_mem_take h)
      · revert h; decide
    · intro h
      have h := congrArg List.length h
      have hnl : (ascText "\n").length = 1 := rfl
      simp only [List.length_take, List.length_append, List.length_nil, hnl] at h hk
      omega
  obtain ⟨hx, hxs, hxn⟩ := hx
  rw [hx]
  have hlast : (groupTag g ++ n ++ asc '/' :: x).getLast? ≠ some (asc '/') := by
    rcases nil_or_concat x with rfl | ⟨y, b, rfl⟩
    · exact absurd rfl hxn
    · intro e
      rw [show groupTag g ++ n ++ asc '/' :: (y ++ [b]) = (groupTag g ++ n ++ asc '/' :: y) ++ [b] by simp, List.getLast?_concat] at e
      exact hxs (by rw [Option.some.inj e]; simp)
  have hgn : groupTag g ++ n ≠ [] := by
    rcases nil_or_concat g with rfl | ⟨g', m, rfl⟩
    · exact absurd rfl hne
    · rw [groupTag_concat]; simp
  unfold chopLocale
  rw [if_neg (by simp), if_neg hlast, chopLoop, cutLast_some hgn hxs]
  simp only []
  rcases nil_or_concat g with rfl | ⟨g', m, rfl⟩
  · exact absurd rfl hne
  have hm : groupTag g' ++ m ≠ [] := by
    have := hg m (by simp)
    simp [this]
  rw [chopLoop, groupTag_concat, List.append_assoc (groupTag g' ++ m), List.singleton_append, cutLast_some hm hn]
  simp only [chopLoop]
  rw [locCat_short]
  · rfl
  · rw [groupTag_concat] at hl
    simp only [List.length_append, List.length_cons, List.length_nil] at hl ⊢
    show _ + 1 ≤ 255
    omega

/-! ### Messages -/

theorem name_bytes {n : List Byte} (h : MessageName n) : (∀ b ∈ n, b ≠ asc '"' ∧ b ≠ asc '\\') ∧ asc '(' ∉ n ∧ (0 : Byte) ∉ n ∧ asc '/' ∉ n ∧ peek n ≠ asc '>' := by
  refine ⟨fun b hb => ⟨(h b hb).1, (h b hb).2.1⟩, fun hb => (h _ hb).2.2.2.1 rfl, fun hb => (h _ hb).2.2.2.2.2 rfl, fun hb => (h _ hb).2.2.1 rfl, ?_⟩
  cases n with
  | nil => decide
  | cons c r => exact (h c (List.mem_cons_self ..)).2.2.2.2.1

/-- The attribute `name="..."` and the `>` of `<message`. -/
theorem message_attrs (hnum : NumberOK number) {n rest tag : List Byte} (N : Nat) (hn : MessageName n) (hl : n.length + 300 < extent) :
    locMessage number extent (N + 4) (ascText "<message") (ascText "name" ++ asc '=' :: asc '"' :: (n ++ asc '"' :: asc '>' :: rest)) tag =
      .ok (rest.dropWhile isSpace, locCat (locCat tag n) (ascText "/")) := by
  obtain ⟨h1, h2, h3, h4, h5⟩ := name_bytes hn
  have T2 := tok_word (number := number) (extent := extent) (c := asc 'n') (w := ascText "ame") (d := asc '=') (rest := asc '"' :: (n ++ asc '"' :: asc '>' :: rest)) (.inr (by decide))
    (hnum.name _) (by decide) (by decide) (by show 3 + 2 < extent; omega)
  have T3 := tok_mark (number := number) (extent := extent) (c := asc '=') (rest := asc '"' :: (n ++ asc '"' :: asc '>' :: rest)) (.inr (.inl rfl)) (hnum.marks _ _ (.inr (.inr (.inl rfl)))) (by omega)
  have T4 := tok_quoted (number := number) (extent := extent) (w := n) (rest := asc '>' :: rest) h1 h2 h3 (by omega)
  have T5 := tok_mark (number := number) (extent := extent) (c := asc '>') (rest := rest) (.inl rfl) (hnum.marks _ _ (.inr (.inl rfl))) (by omega)
  rw [List.dropWhile_cons_of_neg (by decide)] at T2 T3 T4
  have T2' : locToken number extent (ascText "name" ++ asc '=' :: asc '"' :: (n ++ asc '"' :: asc '>' :: rest)) =
    .ok (asc '=' :: asc '"' :: (n ++ asc '"' :: asc '>' :: rest), ascText "name") := T2
  rw [locMessage, if_pos ⟨by decide, by simp⟩]
  simp only []
  rw [T2']
  simp only [Res.ok_bind]
  rw [if_pos (by decide), locMessage, if_pos ⟨by decide, by simp⟩]
  simp only []
  rw [T3]
  simp only [Res.ok_bind]
  rw [if_neg (by simp [peek]), T4]
  simp only [Res.ok_bind]
  rw [if_pos (by decide +kernel), locMessage, if_pos ⟨h5, by simp⟩]
  simp only []
  rw [T5]
  simp only [Res.ok_bind]
  rw [if_pos (by show asc '>' ≠ asc '='; decide), locMessage, if_neg (by rintro ⟨h, _⟩; exact h rfl)]

theorem takeWhile_all {p : Byte → Bool} {s r : List Byte} {c : Byte} (h : ∀ b ∈ s, p b = true) (hc : p c = false) : (s ++ c :: r).takeWhile p = s ∧ (s ++ c :: r).dropWhile p = c :: r := by
  induction s with
  | nil => rw [List.nil_append, List.takeWhile_cons_of_neg (by simp [hc]), List.dropWhile_cons_of_neg (by simp [hc])]; exact ⟨rfl, rfl⟩
  | cons d s ih =>
    obtain ⟨i1, i2⟩ := ih fun b hb => h b (List.mem_cons_of_mem _ hb)
    have hd := h d (List.mem_cons_self ..)
    rw [List.cons_append, List.takeWhile_cons_of_pos hd, List.dropWhile_cons_of_pos hd, i1, i2]
    exact ⟨rfl, rfl⟩

theorem dropEndSpace_concat {t a : List Byte} (ht : ∀ b, t.getLast? = some b → ¬ Space b) (ha : Spaces a) : dropEndSpace (t ++ a) = t := by
  unfold dropEndSpace
  rw [List.reverse_append, drop_spaces (fun b hb => ha b (List.mem_reverse.mp hb))]
  rcases nil_or_concat t with rfl | ⟨x, b, rfl⟩
  · rfl
  · have hb := ht b List.getLast?_concat
    rw [List.reverse_append, List.reverse_singleton, List.singleton_append, List.dropWhile_cons_of_neg (fun e => hb ((space_eq b).2 e)), List.reverse_cons, List.reverse_reverse]

/-- The text of a message. -/
theorem text_of {b t a close : List Byte} (hb : Spaces b) (ha : Spaces a) (ht : MessageText t) :
    ∃ a', Spaces a' ∧ a'.length ≤ a.length ∧ locText ((b ++ (t ++ (a ++ asc '<' :: close))).dropWhile isSpace) = (t, a' ++ asc '<' :: close) := by
  have hlt : isSpace (asc '<') = false := by decide
  obtain ⟨h1, h2, h3, h4⟩ := ht
  rw [drop_spaces hb]
  have hsp : ∀ x : Byte, Space x → (x != asc '<') = true := by unfold Space; decide +kernel
  cases t with
  | nil =>
    refine ⟨[], (by intro _ h; cases h), by simp, ?_⟩
    rw [List.nil_append, drop_spaces ha, List.dropWhile_cons_of_neg (by decide)]
    obtain ⟨e1, e2⟩ := takeWhile_all (p := (· != asc '<')) (s := []) (c := asc '<') (r := close) (by intro _ h; cases h) (by decide)
    unfold locText
    simp only []
    rw [List.nil_append] at e1 e2
    rw [e1, e2]
    rfl
  | cons c r =>
    refine ⟨a, ha, Nat.le_refl _, ?_⟩
    have hc : isSpace c = false := by
      cases e : isSpace c with
      | false => rfl
      | true => exact absurd ((space_eq c).2 e) (h3 c rfl)
    rw [List.cons_append, List.dropWhile_cons_of_neg (by simp [hc])]
    obtain ⟨e1, e2⟩ := takeWhile_all (p := (· != asc '<')) (s := (c :: r) ++ a) (c := asc '<') (r := close)
      (by
        intro x hx
        rcases List.mem_append.mp hx with hx | hx
        · rw [bne_iff_ne]; exact (h2 x hx).1
        · exact hsp x (ha x hx)) (by decide)
    unfold locText
    simp only []
    have ee : c :: (r ++ (a ++ asc '<' :: close)) = (c :: r) ++ a ++ asc '<' :: close := by simp
    rw [ee, e1, e2]
    have ed : ((c :: r) ++ a).dropWhile isSpace = (c :: r) ++ a := by rw [List.cons_append, List.dropWhile_cons_of_neg (by simp [hc])]
    rw [ed, dropEndSpace_concat h4 ha, List.drop_left' rfl, List.take_of_length_le (by exact h1)]

theorem leads_message (hnum : NumberOK number) {g : List (List Byte)} {n b t a s rest : List Byte} {cache : LocCache} (hg : g ≠ []) (hgn : ∀ m ∈ g, m ≠ []) (hn : MessageName n) (ht : MessageText t) (hb : Spaces b) (ha : Spaces a)
    (hl : (groupTag g ++ n).length ≤ 253) (hs : Spaces s) (hr : Ready number extent rest) (he : 1000 < extent) :
    Leads number extent incl locale
      ⟨asc '<' :: (ascText "message" ++ asc ' ' :: (ascText "name" ++ asc '=' :: asc '"' :: (n ++ asc '"' :: asc '>' :: (b ++ (t ++ (a ++ asc '<' :: (ascText "/message" ++ asc '>' :: (s ++ rest)))))))), groupTag g, cache⟩
      ⟨rest, groupTag g, cache ++ [(groupTag g ++ n ++ [asc '/'], t)]⟩ := by
  obtain ⟨a', ha', hal, htext⟩ := text_of (close := ascText "/message" ++ asc '>' :: (s ++ rest)) hb ha ht
  have htag : locCat (locCat (groupTag g) n) (ascText "/") = groupTag g ++ n ++ [asc '/'] := by
    rw [locCat_short (a := groupTag g) (b := n) (by rw [← List.length_append]; omega), locCat_short (a := groupTag g ++ n) (by show _ + 1 ≤ 255; omega)]
    rfl
  have hnl : n.length ≤ 253 := by rw [List.length_append] at hl; omega
  -- the begin
  refine Leads.trans (b := ⟨a' ++ asc '<' :: (ascText "/message" ++ asc '>' :: (s ++ rest)), locCat (locCat (groupTag g ++ n ++ [asc '/']) t) (ascText "\n"),
    cache ++ [(groupTag g ++ n ++ [asc '/'], t)]⟩) ?_ ?_
  · refine leads_one (by simp; omega) fun fuel => ?_
    have T1 := tok_word (number := number) (extent := extent) (c := asc '<') (w := ascText "message") (d := asc ' ')
      (rest := ascText "name" ++ asc '=' :: asc '"' :: (n ++ asc '"' :: asc '>' :: (b ++ (t ++ (a ++ asc '<' :: (ascText "/message" ++ asc '>' :: (s ++ rest))))))) (.inl rfl)
      (hnum.marks _ _ (.inl rfl)) (by decide) (by decide) (by show 7 + 2 < extent; omega)
    rw [List.dropWhile_cons_of_pos (by decide)] at T1
    have T1' : locToken number extent (asc '<' :: (ascText "message" ++ asc ' ' :: (ascText "name" ++ asc '=' :: asc '"' :: (n ++ asc '"' :: asc '>' :: (b ++ (t ++ (a ++ asc '<' :: (ascText "/message" ++ asc '>' :: (s ++ rest))))))))) =
        .ok (ascText "name" ++ asc '=' :: asc '"' :: (n ++ asc '"' :: asc '>' :: (b ++ (t ++ (a ++ asc '<' :: (ascText "/message" ++ asc '>' :: (s ++ rest)))))), ascText "<message") := by
      rw [T1]
      congr 2
    rw [loadLoop, if_neg (by simp), T1']
    simp only [Res.ok_bind]
    rw [if_neg (by decide), show locCopy (ascText "<message") = ascText "<message" by decide +kernel]
    simp only [show lcEqN (ascText "<message") (ascText "<!DOCTYPE") 9 = false by decide +kernel, show lcEqN (ascText "<message") (ascText "<!--") 4 = false by decide +kernel,
      show lcEq (ascText "<message") (ascText "<include") = false by decide +kernel, show lcEq (ascText "<message") (ascText "<locale") = false by decide +kernel,
      show lcEq (ascText "<message") (ascText "</locale>") = false by decide +kernel, show lcEq (ascText "<message") (ascText "<localemap>") = false by decide +kernel,
      show lcEq (ascText "<message") (ascText "</localemap>") = false by decide +kernel, show lcEq (ascText "<message") (ascText "<message") = true by decide +kernel,
      Bool.false_eq_true, if_false, if_true]
    have hfuel : ∃ N, (ascText "name" ++ asc '=' :: asc '"' :: (n ++ asc '"' :: asc '>' :: (b ++ (t ++ (a ++ asc '<' :: (ascText "/message" ++ asc '>' :: (s ++ rest))))))).length + 1 = N + 4 :=
      ⟨(ascText "name" ++ asc '=' :: asc '"' :: (n ++ asc '"' :: asc '>' :: (b ++ (t ++ (a ++ asc '<' :: (ascText "/message" ++ asc '>' :: (s ++ rest))))))).length - 3, by
        have : (ascText "name").length = 4 := rfl
        rw [List.length_append, this]; omega⟩
    obtain ⟨N, hN⟩ := hfuel
    rw [hN, message_attrs hnum N hn (by omega), htag]
    simp only [Res.ok_bind]
    rw [htext]
  -- the end
  · refine Leads.trans (b := ⟨asc '>' :: (s ++ rest), groupTag g, cache ++ [(groupTag g ++ n ++ [asc '/'], t)]⟩) ?_ (leads_close hnum hs hr (by omega))
    refine leads_one (by simp; omega) fun fuel => ?_
    have T := tok_tag (number := number) (extent := extent) (rest := s ++ rest) (c := asc '<') (w := ascText "/message") (.inl rfl) (hnum.marks _ _ (.inl rfl)) (by decide) (by show 8 + 3 < extent; omega)
    have T' : locToken number extent (a' ++ asc '<' :: (ascText "/message" ++ asc '>' :: (s ++ rest))) = .ok (asc '>' :: (s ++ rest), ascText "</message>") := by
      rw [locToken_space, drop_spaces ha', List.dropWhile_cons_of_neg (by decide)]; exact T
    rw [loadLoop, if_neg (by simp), T']
    simp only [Res.ok_bind]
    rw [if_neg (by decide), show locCopy (ascText "</message>") = ascText "</message>" by decide +kernel]
    simp only [show lcEqN (ascText "</message>") (ascText "<!DOCTYPE") 9 = false by decide +kernel, show lcEqN (ascText "</message>") (ascText "<!--") 4 = false by decide +kernel,
      show lcEq (ascText "</message>") (ascText "<include") = false by decide +kernel, show lcEq (ascText "</message>") (ascText "<locale") = false by decide +kernel,
      show lcEq (ascText "</message>") (ascText "</locale>") = false by decide +kernel, show lcEq (ascText "</message>") (ascText "<localemap>") = false by decide +kernel,
      show lcEq (ascText "</message>") (ascText "</localemap>") = false by decide +kernel, show lcEq (ascText "</message>") (ascText "<message") = false by decide +kernel,
      show lcEq (ascText "</message>") (ascText "</message>") = true by decide +kernel, Bool.false_eq_true, if_false, if_true]
    rw [chop_message hg (name_bytes hn).2.2.2.1 (fun h => (ht.2.1 _ h).2.1 rfl) hgn hl]

/-! ### Files -/

theorem ready_tag (hnum : NumberOK number) {w rest : List Byte} {d : Byte} (hw : ∀ b ∈ w, wordByte b = true) (hd : tokDelim d = true ∨ d = asc '>') (hl : w.length + 3 < extent) :
    Ready number extent (asc '<' :: (w ++ d :: rest)) := by
  refine ⟨?_, List.dropWhile_cons_of_neg (by decide)⟩
  rcases hd with hd | rfl
  · exact ⟨_, tok_word (.inl rfl) (hnum.marks _ _ (.inl rfl)) hw hd (by omega)⟩
  · exact ⟨_, tok_tag (.inl rfl) (hnum.marks _ _ (.inl rfl)) hw hl⟩

theorem ready_nil (he : 2 < extent) : Ready number extent [] := by
  refine ⟨⟨([], []), ?_⟩, rfl⟩
  exact getNextToken_of (number := number) (extent := extent) (s := []) (p := []) (tok := []) (by rfl) (by simp) (by simp) (by simp; omega)

theorem ready_body (hnum : NumberOK number) (he : 1000 < extent) {tail : List Byte} (ht : Ready number extent tail) {g : List (List Byte)} {items : List (Item × List Byte)}
    (h : WellFormed g items) (hg : ∀ m ∈ g, GroupName m) (hl : (groupTag g).length ≤ 253) : Ready number extent (body items ++ tail) := by
  cases items with
  | nil => exact ht
  | cons i r =>
    obtain ⟨i, s⟩ := i
    cases i with
    | «open» n =>
      have hn : n.length ≤ 253 := by have := h.2.1; unfold tagOf at this; simp at this; omega
      have := ready_tag hnum (extent := extent) (w := n) (d := asc '>') (rest := s ++ (body r ++ tail)) (fun b hb => ((group_bytes h.1).2 b hb).1) (.inr rfl) (by omega)
      have e : body ((.open n, s) :: r) ++ tail = asc '<' :: (n ++ asc '>' :: (s ++ (body r ++ tail))) := by
        simp [body, Item.text, txt, asc]
      rw [e]; exact this
    | close n =>
      obtain ⟨x, m, rfl⟩ : ∃ x m, g = x ++ [m] := by
        rcases nil_or_concat g with rfl | h'
        · cases h.1
        · exact h'
      have hm : m = n := by have := h.1; rw [List.getLast?_concat] at this; exact Option.some.inj this
      subst hm
      have hn : m.length ≤ 253 := by rw [groupTag_concat] at hl; simp at hl; omega
      have := ready_tag hnum (extent := extent) (w := asc '/' :: m) (d := asc '>') (rest := s ++ (body r ++ tail))
        (fun b hb => by
          rcases List.mem_cons.mp hb with rfl | hb
          · decide
          · exact ((group_bytes (hg m (by simp))).2 b hb).1) (.inr rfl) (by simp; omega)
      have e : body ((.close m, s) :: r) ++ tail = asc '<' :: (asc '/' :: m ++ asc '>' :: (s ++ (body r ++ tail))) := by
        simp [body, Item.text, txt, asc]
      rw [e]; exact this
    | message n b t a =>
      have := ready_tag hnum (extent := extent) (w := ascText "message") (d := asc ' ')
        (rest := ascText "name" ++ asc '=' :: asc '"' :: (n ++ asc '"' :: asc '>' :: (b ++ (t ++ (a ++ asc '<' :: (ascText "/message" ++ asc '>' :: (s ++ (body r ++ tail))))))))
        (by decide) (.inl (by decide)) (by show 7 + 3 < extent; omega)
      have e : body ((.message n b t a, s) :: r) ++ tail = asc '<' :: (ascText "message" ++ asc ' ' :: (ascText "name" ++ asc '=' :: asc '"' ::
          (n ++ asc '"' :: asc '>' :: (b ++ (t ++ (a ++ asc '<' :: (ascText "/message" ++ asc '>' :: (s ++ (body r ++ tail))))))))) := by
        simp [body, Item.text, txt, asc, ascText]
      rw [e]; exact this

theorem leads_body (hnum : NumberOK number) (he : 1000 < extent) {tail : List Byte} (htail : Ready number extent tail) (items : List (Item × List Byte)) (g : List (List Byte)) (cache : LocCache)
    (h : WellFormed g items) (hg : ∀ m ∈ g, GroupName m) (hl : (groupTag g).length ≤ 253) :
    ∃ tag, Leads number extent incl locale ⟨body items ++ tail, groupTag g, cache⟩ ⟨tail, tag, cache ++ (messages g items).map fun e => (e.1 ++ [asc '/'], e.2)⟩ := by
  have gne : ∀ {g : List (List Byte)}, (∀ m ∈ g, GroupName m) → ∀ m ∈ g, m ≠ [] := fun hg m hm => by
    obtain ⟨⟨c, r, e, _⟩, _⟩ := hg m hm
    rw [e]; simp
  induction items generalizing g cache with
  | nil => exact ⟨groupTag g, 0, by simp [body], fun fuel => by simp [body, messages]⟩
  | cons i r ih =>
    obtain ⟨i, s⟩ := i
    cases i with
    | «open» n =>
      obtain ⟨h1, h2, h3, h4⟩ := h
      have hg' : ∀ m ∈ g ++ [n], GroupName m := by
        intro m hm
        rcases List.mem_append.mp hm with hm | hm
        · exact hg m hm
        · rw [List.mem_singleton.mp hm]; exact h1
      have hl' : (groupTag (g ++ [n])).length ≤ 253 := by
        have e : tagOf (g ++ [n]) [] = groupTag (g ++ [n]) := List.append_nil _
        rw [← e]; exact h2
      obtain ⟨tag, ht⟩ := ih (g ++ [n]) cache h4 hg' hl'
      refine ⟨tag, Leads.trans ?_ ht⟩
      have e : body ((.open n, s) :: r) ++ tail = asc '<' :: (n ++ asc '>' :: (s ++ (body r ++ tail))) := by
        simp [body, Item.text, txt, asc]
      rw [e, groupTag_concat]
      rw [groupTag_concat] at hl'
      refine leads_open hnum h1 h3 (ready_body hnum he htail h4 hg' (by rw [groupTag_concat]; exact hl')) ?_ (by omega)
      simp at hl'; omega
    | close n =>
      obtain ⟨h1, h3, h4⟩ := h
      obtain ⟨x, m, rfl⟩ : ∃ x m, g = x ++ [m] := by
        rcases nil_or_concat g with rfl | h'
        · cases h1
        · exact h'
      have hm : m = n := by rw [List.getLast?_concat] at h1; exact Option.some.inj h1
      subst hm
      rw [List.dropLast_concat] at h4
      have hm := hg m (by simp)
      have hg' : ∀ k ∈ x, GroupName k := fun k hk => hg k (by simp [hk])
      have hl' : (groupTag x).length ≤ 253 := by rw [groupTag_concat] at hl; simp at hl; omega
      obtain ⟨tag, ht⟩ := ih x cache h4 hg' hl'
      refine ⟨tag, Leads.trans ?_ (by rw [messages, List.dropLast_concat]; exact ht)⟩
      have e : body ((.close m, s) :: r) ++ tail = asc '<' :: (asc '/' :: m ++ asc '>' :: (s ++ (body r ++ tail))) := by
        simp [body, Item.text, txt, asc]
      rw [e]
      have hml : m.length ≤ 252 := by rw [groupTag_concat] at hl; simp at hl; omega
      exact leads_end hnum hm hml h3 (ready_body hnum he htail h4 hg' hl') (chop_group (fun hb => ((group_bytes hm).2 _ hb).2.1 rfl) (gne hg') hl) (by omega)
    | message n b t a =>
      obtain ⟨h1, h2, h3, h4, h5, h6, h7, h8⟩ := h
      obtain ⟨tag, ht⟩ := ih g (cache ++ [(groupTag g ++ n ++ [asc '/'], t)]) h8 hg hl
      refine ⟨tag, Leads.trans ?_ (by
        have e : cache ++ (messages g ((.message n b t a, s) :: r)).map (fun e => (e.1 ++ [asc '/'], e.2)) =
            cache ++ [(groupTag g ++ n ++ [asc '/'], t)] ++ (messages g r).map (fun e => (e.1 ++ [asc '/'], e.2)) := by
          rw [messages, List.map_cons, List.append_assoc]; rfl
        rw [e]; exact ht)⟩
      have e : body ((.message n b t a, s) :: r) ++ tail = asc '<' :: (ascText "message" ++ asc ' ' :: (ascText "name" ++ asc '=' :: asc '"' ::
          (n ++ asc '"' :: asc '>' :: (b ++ (t ++ (a ++ asc '<' :: (ascText "/message" ++ asc '>' :: (s ++ (body r ++ tail))))))))) := by
        simp [body, Item.text, txt, asc, ascText]
      rw [e]
      exact leads_message hnum h1 (gne hg) h2 h3 h4 h5 h6 h7 (ready_body hnum he htail h8 hg hl) he

/-- `<?xml version="1.0"?>` and the white space behind it. -/
theorem leads_declaration (hnum : NumberOK number) {s rest : List Byte} {cache : LocCache} (hs : Spaces s) (hr : Ready number extent rest) (he : 1000 < extent) :
    Leads number extent incl locale ⟨txt "<?xml version=\"1.0\"?>" ++ (s ++ rest), [], cache⟩ ⟨rest, [], cache⟩ := by
  have M5 := hnum.marks (asc '?') (asc '>' :: (s ++ rest)) (.inr (.inr (.inr (.inl rfl))))
  have M6 := hnum.marks (asc '>') (s ++ rest) (.inr (.inl rfl))
  have T1 := tok_word (number := number) (extent := extent) (c := asc '<') (w := ascText "?xml") (d := asc ' ') (rest := ascText "version=\"1.0\"?>" ++ (s ++ rest)) (.inl rfl)
    (hnum.marks _ _ (.inl rfl)) (by decide) (by decide) (by show 4 + 2 < extent; omega)
  have T2 := tok_word (number := number) (extent := extent) (c := asc 'v') (w := ascText "ersion") (d := asc '=') (rest := ascText "\"1.0\"?>" ++ (s ++ rest)) (.inr (by decide))
    (hnum.marks _ _ (.inr (.inr (.inr (.inr rfl))))) (by decide) (by decide) (by show 6 + 2 < extent; omega)
  have T3 := tok_mark (number := number) (extent := extent) (c := asc '=') (rest := ascText "\"1.0\"?>" ++ (s ++ rest)) (.inr (.inl rfl)) (hnum.marks _ _ (.inr (.inr (.inl rfl)))) (by omega)
  have T4 := tok_quoted (number := number) (extent := extent) (w := ascText "1.0") (rest := asc '?' :: asc '>' :: (s ++ rest)) (by decide) (by decide) (by decide) (by show 3 + 1 < extent; omega)
  have T5 := tok_mark (number := number) (extent := extent) (c := asc '?') (rest := asc '>' :: (s ++ rest)) (.inr (.inr rfl)) M5 (by omega)
  have T6 := tok_mark (number := number) (extent := extent) (c := asc '>') (rest := s ++ rest) (.inl rfl) M6 (by omega)
  refine Leads.trans (b := ⟨ascText "version=\"1.0\"?>" ++ (s ++ rest), [], cache⟩) ?_ ?_
  · refine leads_one (by simp [txt, ascText]) fun fuel => ?_
    have T1' : locToken number extent (txt "<?xml version=\"1.0\"?>" ++ (s ++ rest)) = .ok (ascText "version=\"1.0\"?>" ++ (s ++ rest), ascText "<?xml") := by
      rw [List.dropWhile_cons_of_pos (by decide)] at T1
      exact T1
    rw [loadLoop, if_neg (by simp [txt]), T1']
    simp only [Res.ok_bind]
    rw [if_neg (by decide), show locCopy (ascText "<?xml") = ascText "<?xml" by decide +kernel]
    simp only [show lcEqN (ascText "<?xml") (ascText "<!DOCTYPE") 9 = false by decide +kernel, show lcEqN (ascText "<?xml") (ascText "<!--") 4 = false by decide +kernel,
      show lcEq (ascText "<?xml") (ascText "<include") = false by decide +kernel, show lcEq (ascText "<?xml") (ascText "<locale") = false by decide +kernel,
      show lcEq (ascText "<?xml") (ascText "</locale>") = false by decide +kernel, show lcEq (ascText "<?xml") (ascText "<localemap>") = false by decide +kernel,
      show lcEq (ascText "<?xml") (ascText "</localemap>") = false by decide +kernel, show lcEq (ascText "<?xml") (ascText "<message") = false by decide +kernel,
      show lcEq (ascText "<?xml") (ascText "</message>") = false by decide +kernel, Bool.false_eq_true, if_false]
    rw [if_pos (by decide), if_pos (by decide)]
  refine Leads.trans (b := ⟨asc '=' :: (ascText "\"1.0\"?>" ++ (s ++ rest)), [], cache⟩) (leads_one (by simp [ascText]) fun fuel => ?_) ?_
  · refine turn_other (tk := ascText "version") fuel (by simp [ascText]) ?_ (by decide) (by decide) ⟨_, T3⟩
    rw [List.dropWhile_cons_of_neg (by decide)] at T2
    exact T2
  refine Leads.trans (b := ⟨ascText "\"1.0\"?>" ++ (s ++ rest), [], cache⟩) (leads_one (by simp) fun fuel => ?_) ?_
  · refine turn_other (tk := [asc '=']) fuel (by simp) ?_ (by simp) (by decide) ⟨_, T4⟩
    exact T3
  refine Leads.trans (b := ⟨asc '?' :: asc '>' :: (s ++ rest), [], cache⟩) (leads_one (by simp [ascText]) fun fuel => ?_) ?_
  · refine turn_other (tk := ascText "1.0") fuel (by simp [ascText]) ?_ (by decide) (by decide) ⟨_, T5⟩
    rw [List.dropWhile_cons_of_neg (by decide)] at T4
    exact T4
  refine Leads.trans (b := ⟨asc '>' :: (s ++ rest), [], cache⟩) (leads_one (by simp) fun fuel => ?_) ?_
  · refine turn_other (tk := [asc '?']) fuel (by simp) ?_ (by simp) (by decide) ⟨_, T6⟩
    rw [List.dropWhile_cons_of_neg (by decide)] at T5
    exact T5
  exact leads_close hnum hs hr (by omega)

/-- `<locale name="...">` and the white space behind it. -/
theorem leads_locale (hnum : NumberOK number) {n s rest : List Byte} {cache : LocCache} (hn : MessageName n) (hs : Spaces s) (hr : Ready number extent rest) (he : n.length + 300 < extent) :
    Leads number extent incl locale ⟨asc '<' :: (ascText "locale" ++ asc ' ' :: (ascText "name" ++ asc '=' :: asc '"' :: (n ++ asc '"' :: asc '>' :: (s ++ rest)))), [], cache⟩ ⟨rest, [], cache⟩ := by
  obtain ⟨h1, h2, h3, h4, h5⟩ := name_bytes hn
  have T1 := tok_word (number := number) (extent := extent) (c := asc '<') (w := ascText "locale") (d := asc ' ')
    (rest := ascText "name" ++ asc '=' :: asc '"' :: (n ++ asc '"' :: asc '>' :: (s ++ rest))) (.inl rfl) (hnum.marks _ _ (.inl rfl)) (by decide) (by decide) (by show 6 + 2 < extent; omega)
  have T2 := tok_word (number := number) (extent := extent) (c := asc 'n') (w := ascText "ame") (d := asc '=') (rest := asc '"' :: (n ++ asc '"' :: asc '>' :: (s ++ rest))) (.inr (by decide))
    (hnum.name _) (by decide) (by decide) (by show 3 + 2 < extent; omega)
  have T3 := tok_mark (number := number) (extent := extent) (c := asc '=') (rest := asc '"' :: (n ++ asc '"' :: asc '>' :: (s ++ rest))) (.inr (.inl rfl)) (hnum.marks _ _ (.inr (.inr (.inl rfl)))) (by omega)
  have T4 := tok_quoted (number := number) (extent := extent) (w := n) (rest := asc '>' :: (s ++ rest)) h1 h2 h3 (by omega)
  have T5 := tok_mark (number := number) (extent := extent) (c := asc '>') (rest := s ++ rest) (.inl rfl) (hnum.marks _ _ (.inr (.inl rfl))) (by omega)
  rw [List.dropWhile_cons_of_neg (by decide)] at T2 T3 T4
  rw [drop_spaces hs, hr.first] at T5
  rw [List.dropWhile_cons_of_pos (by decide)] at T1
  refine leads_one (by simp; omega) fun fuel => ?_
  have T1' : locToken number extent (asc '<' :: (ascText "locale" ++ asc ' ' :: (ascText "name" ++ asc '=' :: asc '"' :: (n ++ asc '"' :: asc '>' :: (s ++ rest))))) =
      .ok (ascText "name" ++ asc '=' :: asc '"' :: (n ++ asc '"' :: asc '>' :: (s ++ rest)), ascText "<locale") := T1
  have T2' : locToken number extent (ascText "name" ++ asc '=' :: asc '"' :: (n ++ asc '"' :: asc '>' :: (s ++ rest))) =
    .ok (asc '=' :: asc '"' :: (n ++ asc '"' :: asc '>' :: (s ++ rest)), ascText "name") := T2
  rw [loadLoop, if_neg (by simp), T1']
  simp only [Res.ok_bind]
  rw [if_neg (by decide), show locCopy (ascText "<locale") = ascText "<locale" by decide +kernel]
  simp only [show lcEqN (ascText "<locale") (ascText "<!DOCTYPE") 9 = false by decide +kernel, show lcEqN (ascText "<locale") (ascText "<!--") 4 = false by decide +kernel,
    show lcEq (ascText "<locale") (ascText "<include") = false by decide +kernel, show lcEq (ascText "<locale") (ascText "<locale") = true by decide +kernel, Bool.false_eq_true, if_false, if_true]
  have hfuel : ∃ N, (ascText "name" ++ asc '=' :: asc '"' :: (n ++ asc '"' :: asc '>' :: (s ++ rest))).length + 1 = N + 4 :=
    ⟨(ascText "name" ++ asc '=' :: asc '"' :: (n ++ asc '"' :: asc '>' :: (s ++ rest))).length - 3, by
      have : (ascText "name").length = 4 := rfl
      rw [List.length_append, this]; omega⟩
  obtain ⟨N, hN⟩ := hfuel
  rw [hN, locAttrs, if_pos ⟨by decide, by simp⟩]
  rw [T2']
  simp only [Res.ok_bind]
  rw [if_pos (by decide), locAttrs, if_pos ⟨by decide, by simp⟩]
  rw [T3]
  simp only [Res.ok_bind]
  rw [if_neg (by simp [peek]), T4]
  simp only [Res.ok_bind]
  rw [locAttrs, if_pos ⟨h5, by simp⟩]
  rw [T5]
  simp only [Res.ok_bind]
  rw [if_pos (by show asc '>' ≠ asc '='; decide), locAttrs, if_neg (by rintro ⟨h, _⟩; exact h rfl)]
  simp only [Res.ok_bind]

/-- `</locale>`. -/
theorem leads_final (hnum : NumberOK number) {tag : List Byte} {cache : LocCache} (he : 1000 < extent) :
    ∃ tag', Leads number extent incl locale ⟨txt "</locale>", tag, cache⟩ ⟨[], tag', cache⟩ := by
  have T := tok_tag (number := number) (extent := extent) (rest := []) (c := asc '<') (w := ascText "/locale") (.inl rfl) (hnum.marks _ _ (.inl rfl)) (by decide) (by show 7 + 3 < extent; omega)
  refine ⟨locCat (chopLocale tag 1) (ascText "/"), Leads.trans (b := ⟨[asc '>'], locCat (chopLocale tag 1) (ascText "/"), cache⟩) ?_ (leads_close (s := []) hnum (by intro _ h; cases h) (ready_nil (by omega)) (by omega))⟩
  refine leads_one (by simp [txt]) fun fuel => ?_
  have T' : locToken number extent (txt "</locale>") = .ok ([asc '>'], ascText "</locale>") := T
  rw [loadLoop, if_neg (by simp [txt]), T']
  simp only [Res.ok_bind]
  rw [if_neg (by decide), show locCopy (ascText "</locale>") = ascText "</locale>" by decide +kernel]
  simp only [show lcEqN (ascText "</locale>") (ascText "<!DOCTYPE") 9 = false by decide +kernel, show lcEqN (ascText "</locale>") (ascText "<!--") 4 = false by decide +kernel,
    show lcEq (ascText "</locale>") (ascText "<include") = false by decide +kernel, show lcEq (ascText "</locale>") (ascText "<locale") = false by decide +kernel,
    show lcEq (ascText "</locale>") (ascText "</locale>") = true by decide +kernel, Bool.false_eq_true, if_false, if_true]

end

theorem fuel_split {k n : Nat} (h : k ≤ n) : ∃ f, n + 1 = (f + 1) + k := ⟨n - k, by omega⟩

theorem load_file {number : List Byte → Nat} (hnum : NumberOK number) (incl : List Byte → LocCache → Res LocCache) (locale : List Byte) {name s1 s2 : List Byte} {items : List (Item × List Byte)} (cache : LocCache)
    (hn : MessageName name) (h1 : Spaces s1) (h2 : Spaces s2) (h : WellFormed [] items) :
    loadLocaleCache number incl locale (file name s1 s2 items) cache = .ok (cache ++ (messages [] items).map fun e => (e.1 ++ [asc '/'], e.2)) := by
  have e : file name s1 s2 items = txt "<?xml version=\"1.0\"?>" ++ (s1 ++ (asc '<' :: (ascText "locale" ++ asc ' ' :: (ascText "name" ++ asc '=' :: asc '"' ::
      (name ++ asc '"' :: asc '>' :: (s2 ++ (body items ++ txt "</locale>"))))))) := by
    simp [file, txt, asc, ascText]
  unfold loadLocaleCache
  have he : 1000 < (file name s1 s2 items).length + 4096 := by omega
  have hlen : name.length + 300 < (file name s1 s2 items).length + 4096 := by rw [e]; simp; omega
  generalize (file name s1 s2 items).length + 4096 = extent at he hlen
  have htail : Ready number extent (txt "</locale>") := ready_tag (w := ascText "/locale") (d := asc '>') (rest := []) hnum (by decide) (.inr rfl) (by show 7 + 3 < extent; omega)
  have hbody := ready_body hnum he htail (g := []) h (by intro _ h; cases h) (by show 0 ≤ 253; omega)
  obtain ⟨tag, L3⟩ := leads_body (incl := incl) (locale := locale) hnum he htail items [] cache h (by intro _ h; cases h) (by show 0 ≤ 253; omega)
  obtain ⟨tag', L4⟩ := leads_final (incl := incl) (locale := locale) hnum (tag := tag) (cache := cache ++ (messages [] items).map fun e => (e.1 ++ [asc '/'], e.2)) he
  have L2 := leads_locale (incl := incl) (locale := locale) (cache := cache) hnum hn h2 hbody hlen
  have L1 := leads_declaration (incl := incl) (locale := locale) (cache := cache) hnum h1
    (ready_tag (extent := extent) (w := ascText "locale") (d := asc ' ') (rest := ascText "name" ++ asc '=' :: asc '"' :: (name ++ asc '"' :: asc '>' :: (s2 ++ (body items ++ txt "</locale>"))))
      hnum (by decide) (.inl (by decide)) (by show 6 + 3 < extent; omega)) he
  obtain ⟨k, hk, L⟩ := L1.trans (L2.trans (L3.trans L4))
  rw [e]
  have hk' : k ≤ (txt "<?xml version=\"1.0\"?>" ++ (s1 ++ (asc '<' :: (ascText "locale" ++ asc ' ' :: (ascText "name" ++ asc '=' :: asc '"' ::
      (name ++ asc '"' :: asc '>' :: (s2 ++ (body items ++ txt "</locale>")))))))).length := by
    have := hk; simp only [List.length_nil, Nat.zero_add] at this; exact this
  obtain ⟨f, hf⟩ := fuel_split hk'
  rw [hf, L (f + 1), loadLoop, if_pos rfl]

end Wizard

import Verif.Model.Token
import Verif.Lemmas.Res
import Verif.Props.Locale
/-! C11 (memory safety of the tokenizer) and C61 (progress). -/
namespace Wizard.Props
open Wizard

/-- Every `(` is followed by a `)` that is not escaped by a backslash. -/
def Closed (s : List Byte) : Prop :=
  ∀ a b, s = a ++ asc '(' :: b → ∃ u v, b = u ++ asc ')' :: v ∧ u.getLast? ≠ some (asc '\\')

/-- What is kept while scanning the text `s`: the pointer is inside it, the token leaves room for its
NUL and consists of characters of the text. -/
structure Post (extent : Nat) (s p tok : List Byte) : Prop where
  suf : p <:+ s
  len : tok.length < extent
  sub : ∀ c ∈ tok, c ∈ s

variable {cap extent : Nat} {s : List Byte}

theorem push_ok (hc : extent ≤ cap) {p tok : List Byte} (h : Post extent s p tok) {c : Byte}
    (hcs : c ∈ s) : (tokPush cap extent tok c).Ok (fun t => Post extent s p t) := by
  obtain ⟨h1, h2, h3⟩ := h
  unfold tokPush
  split
  · rw [if_pos (by omega)]
    refine ⟨_, rfl, h1, by simp; omega, ?_⟩
    intro d hd
    simp only [List.mem_append, List.mem_singleton] at hd
    rcases hd with hd | rfl
    · exact h3 d hd
    · exact hcs
  · exact ⟨_, rfl, h1, h2, h3⟩

theorem suf_tail {c : Byte} {r : List Byte} (h : (c :: r) <:+ s) : r <:+ s :=
  (List.suffix_cons c r).trans h

theorem suf_mem {c : Byte} {r : List Byte} (h : (c :: r) <:+ s) : c ∈ s := h.mem (by simp)

theorem Post.next {c : Byte} {r tok : List Byte} (h : Post extent s (c :: r) tok) :
    Post extent s r tok := ⟨suf_tail h.suf, h.len, h.sub⟩

theorem take_ok (hc : extent ≤ cap) {c : Byte} {r tok : List Byte}
    (h : Post extent s (c :: r) tok) : (tokTake cap extent (c :: r) tok).Ok (fun o =>
      Post extent s o.1 o.2 ∧ o.1.length ≤ r.length + 1 ∧
      (tok.length < extent - 1 → o.1.length ≤ r.length)) := by
  unfold tokTake
  split
  · rw [if_pos (by omega)]
    refine ⟨_, rfl, ⟨suf_tail h.suf, by simp; omega, ?_⟩, by simp, by simp⟩
    intro d hd
    simp only [List.mem_append, List.mem_singleton, peek, List.headD_cons] at hd
    rcases hd with hd | rfl
    · exact h.sub d hd
    · exact suf_mem h.suf
  · exact ⟨_, rfl, h, by simp, by intro; omega⟩

theorem quoted_ok (hc : extent ≤ cap) (escape : Byte) (p tok : List Byte)
    (h : Post extent s p tok) : (tokQuoted cap extent escape p tok).Ok (fun o =>
      Post extent s o.1 o.2 ∧ o.1.length ≤ p.length) := by
  fun_induction tokQuoted cap extent escape p tok with
  | case1 tok => exact ⟨_, rfl, h, by simp⟩
  | case2 tok => exact ⟨_, rfl, ⟨List.nil_suffix, h.len, h.sub⟩, by simp⟩
  | case3 tok c hc' =>
    refine (push_ok hc h.next (suf_mem h.suf)).bind fun t ht => ?_
    exact ⟨_, rfl, ht, by simp⟩
  | case4 tok c d r hcond ih =>
    have h' := h.next
    refine (push_ok hc h'.next (suf_mem h'.suf)).bind fun t ht => ?_
    exact (ih t ht).mono fun o ho => ⟨ho.1, by have := ho.2; simp; omega⟩
  | case5 => exact ⟨_, rfl, h.next, by simp⟩
  | case6 tok c d r _ _ ih =>
    refine (push_ok hc h.next (suf_mem h.suf)).bind fun t ht => ?_
    exact (ih t ht).mono fun o ho => ⟨ho.1, by have := ho.2; simp at this ⊢; omega⟩

theorem paren_ok (hc : extent ≤ cap) (prev : Byte) (p tok : List Byte) (h : Post extent s p tok)
    (hcl : ∃ u v, p = u ++ asc ')' :: v ∧ ((u = [] ∧ prev ≠ asc '\\') ∨
      ∃ x, u.getLast? = some x ∧ x ≠ asc '\\')) :
    (tokParen cap extent prev p tok).Ok (fun o => Post extent s o.1 o.2 ∧
      o.1.length ≤ p.length ∧ o.1 ≠ []) := by
  fun_induction tokParen cap extent prev p tok with
  | case1 => obtain ⟨u, v, h, _⟩ := hcl; simp at h
  | case2 prev c r tok ih =>
    refine (push_ok hc h (suf_mem h.suf)).bind fun t ht => ?_
    split
    · exact ⟨_, rfl, ht, by simp, by simp⟩
    · rename_i hn
      obtain ⟨u, v, hu, hlast⟩ := hcl
      have : ∃ u v, r = u ++ asc ')' :: v ∧ ((u = [] ∧ c ≠ asc '\\') ∨
          ∃ x, u.getLast? = some x ∧ x ≠ asc '\\') := by
        cases u with
        | nil =>
          simp only [List.nil_append, List.cons.injEq] at hu
          rcases hlast with ⟨_, hp⟩ | ⟨x, hx, _⟩
          · exact absurd ⟨hu.1, hp⟩ hn
          · cases hx
        | cons d u =>
          simp only [List.cons_append, List.cons.injEq] at hu
          refine ⟨u, v, hu.2, ?_⟩
          rcases hlast with ⟨h, _⟩ | ⟨x, hx, hne⟩
          · cases h
          · cases u with
            | nil => cases hx; exact .inl ⟨rfl, by rw [hu.1]; exact hne⟩
            | cons e u => exact .inr ⟨x, by simpa [List.getLast?_cons_cons] using hx, hne⟩
      refine (ih t ht.next this).mono fun o ho => ⟨ho.1, ?_, ho.2.2⟩
      have := ho.2.1
      simp; omega

theorem word_ok (hc : extent ≤ cap) (hcl : Closed s) : ∀ (f : Nat) (prev : Byte)
    (p tok : List Byte), p.length < f → Post extent s p tok →
    (tokWord cap extent f prev p tok).Ok (fun o => Post extent s o.1 o.2 ∧
      o.1.length ≤ p.length) := by
  intro f
  induction f with
  | zero => intro _ p _ h; omega
  | succ f ih =>
    intro prev p tok hf h
    cases p with
    | nil => exact ⟨_, rfl, h, by simp⟩
    | cons c r =>
      unfold tokWord
      split
      · exact ⟨_, rfl, h, by simp⟩
      · split
        · exact ⟨_, rfl, h, by simp⟩
        · refine (push_ok hc h (suf_mem h.suf)).bind fun t ht => ?_
          split
          · exact ⟨_, rfl, ht, by simp⟩
          · split
            · rename_i hpar
              subst hpar
              obtain ⟨a, ha⟩ := h.suf
              obtain ⟨u, v, huv, hlast⟩ := hcl a r ha.symm
              have hcl' : ∃ u v, r = u ++ asc ')' :: v ∧
                  ((u = [] ∧ asc '(' ≠ asc '\\') ∨ ∃ x, u.getLast? = some x ∧ x ≠ asc '\\') := by
                refine ⟨u, v, huv, ?_⟩
                cases hl : u.getLast? with
                | none => exact .inl ⟨by simpa using hl, by decide⟩
                | some x => exact .inr ⟨x, rfl, by rintro rfl; exact hlast hl⟩
              refine (paren_ok hc (asc '(') r t ht.next hcl').bind fun ⟨p, t'⟩ hp => ?_
              simp only at hp ⊢
              cases p with
              | nil => exact absurd rfl hp.2.2
              | cons d q =>
                simp only [adv, Res.ok_bind]
                have hl := hp.2.1
                simp only [List.length_cons] at hl hf
                refine (ih _ q t' (by omega) hp.1.next).mono fun o ho => ⟨ho.1, ?_⟩
                have := ho.2
                simp; omega
            · simp only [List.length_cons] at hf
              refine (ih c r t (by omega) ht.next).mono fun o ho => ⟨ho.1, ?_⟩
              have := ho.2
              simp; omega

theorem number_ok (hc : extent ≤ cap) : ∀ (n : Nat) (p tok : List Byte), n ≤ p.length →
    Post extent s p tok → (tokNumber cap extent n p tok).Ok (fun o => Post extent s o.1 o.2 ∧
      o.1.length ≤ p.length ∧ (0 < n → peek p ≠ asc ',' → o.1.length < p.length)) := by
  intro n
  induction n with
  | zero => intro p tok _ h; exact ⟨_, rfl, h, by simp, by simp⟩
  | succ n ih =>
    intro p tok hn h
    cases p with
    | nil => simp at hn
    | cons c r =>
      unfold tokNumber
      split
      · rename_i hcm; exact ⟨_, rfl, h, by simp, fun _ h => absurd hcm h⟩
      · refine (push_ok hc h (suf_mem h.suf)).bind fun t ht => ?_
        simp only [adv, Res.ok_bind]
        simp only [List.length_cons] at hn
        refine (ih r t (by omega) ht.next).mono fun o ho => ⟨ho.1, ?_, ?_⟩ <;>
        · have := ho.2.1
          simp; omega

theorem scan_ok (number : List Byte → Nat) (hnum : ∀ p, number p ≤ p.length) (hc : extent ≤ cap)
    (he : 1 ≤ extent) (hcl : Closed s) :
    (tokScan number cap extent s).Ok (fun o => Post extent s o.1 o.2 ∧
      (2 ≤ extent → s.dropWhile isSpace ≠ [] → o.1.length < (s.dropWhile isSpace).length)) := by
  have hsuf : s.dropWhile isSpace <:+ s := List.dropWhile_suffix _
  have h0 : Post extent s (s.dropWhile isSpace) [] := ⟨hsuf, by simp; omega, by simp⟩
  unfold tokScan
  simp only
  split
  · exact ⟨_, rfl, ⟨List.nil_suffix, by simp; omega, by simp⟩, by simp_all⟩
  · rename_i c r hp
    rw [hp] at h0
    have hq : ∀ esc, (tokQuoted cap extent esc r []).Ok (fun o => Post extent s o.1 o.2 ∧
      (2 ≤ extent → c :: r ≠ [] → o.1.length < (c :: r).length)) := fun esc =>
      (quoted_ok hc esc r [] h0.next).mono fun o ho =>
        ⟨ho.1, fun _ _ => by have := ho.2; simp; omega⟩
    have ht := take_ok hc h0
    rw [hp]
    split
    · exact hq _
    · split
      · exact hq _
      · split
        · exact hq _
        · split
          · refine ht.bind fun ⟨p, t⟩ hpt => ?_
            simp only at hpt ⊢
            split
            · rename_i hpk
              cases p with
              | nil =>
                have z1 : (0 : Byte) ≠ asc '>' := by decide
                have z2 : (0 : Byte) ≠ asc '/' := by decide
                simp [peek] at hpk
                rcases hpk with h | h
                · exact absurd h z1
                · exact absurd h z2
              | cons d q =>
                refine (take_ok hc hpt.1).mono fun o ho => ⟨ho.1, fun h2 _ => ?_⟩
                have := ho.2.1
                have := hpt.2.2 (by simp; omega)
                simp at *
                omega
            · refine ⟨_, rfl, hpt.1, fun h2 _ => ?_⟩
              have := hpt.2.2 (by simp; omega)
              simp; omega
          · split
            · rename_i hn
              refine (number_ok hc _ _ [] (hnum _) h0).bind fun ⟨p, t⟩ hpt => ?_
              simp only at hpt ⊢
              have hlt := hpt.2.2 (by omega) (by simpa [peek] using hn.2)
              split
              · rename_i hpk
                cases p with
                | nil =>
                  have z1 : (0 : Byte) ≠ asc '%' := by decide
                  exact absurd hpk z1
                | cons d q =>
                  refine (take_ok hc hpt.1).mono fun o ho => ⟨ho.1, fun h2 _ => ?_⟩
                  have := ho.2.1
                  simp at *
                  omega
              · exact ⟨_, rfl, hpt.1, fun _ _ => hlt⟩
            · split
              · exact ht.mono fun o ho => ⟨ho.1, fun h2 _ => by
                  have := ho.2.2 (by simp; omega); simp; omega⟩
              · rename_i h1 h2 h3 h4 h5 h6
                -- the first character of a word is never a delimiter, so it is consumed
                have hfirst : ∀ c : Byte, ¬ (isAlpha c = false ∧ c ≠ asc '/' ∧ c ≠ asc '#' ∧
                    c ≠ asc '<') → tokDelim c = false ∧ c ≠ asc '(' ∧ c ≠ asc '>' := by
                  decide +kernel
                obtain ⟨f1, f2, f3⟩ := hfirst c h6
                unfold tokWord
                rw [if_neg (by simp [f1]), if_neg (by simp)]
                refine (push_ok hc h0 (suf_mem h0.suf)).bind fun t ht => ?_
                rw [if_neg f3, if_neg f2]
                refine (word_ok hc hcl _ _ _ _ (by simp) ht.next).mono fun o ho =>
                  ⟨ho.1, fun _ _ => ?_⟩
                have := ho.2
                simp; omega

/-- The two tokens whose unwrapping writes before the buffer. -/
def BadUrl (fold : Byte → Byte) (tok : List Byte) : Prop :=
  localeNCompare fold (some tok) (some ("url(".toList.map asc)) 4 = .ok 0 ∧
    (tok.length = 4 ∨ (tok.length = 5 ∧ tok[4]? = some (asc '#')))

theorem finish_ok (fold : Byte → Byte) (hf : FoldOK fold) (tok : List Byte) (h0 : (0 : Byte) ∉ tok)
    (hl : tok.length < cap) :
    BadUrl fold tok ∨ (tokFinish fold cap tok).Ok (fun t => t.length ≤ tok.length) := by
  unfold tokFinish
  rw [if_pos hl]
  have hn := C06_ncompare fold hf tok ("url(".toList.map asc) 4 h0 (by decide)
  obtain ⟨r, hr, _, _, hr0⟩ := C06_compare_spec fold hf (tok.take 4)
    (("url(".toList.map asc).take 4) (fun h => h0 (List.mem_of_mem_take h)) (by decide)
  rw [hr] at hn
  rw [hn]
  simp only [Res.ok_bind]
  by_cases hz : r = 0
  · subst hz
    have hlen := congrArg List.length (hr0.mp rfl)
    have h4 : 4 ≤ tok.length := by
      simp only [List.length_map, List.length_take] at hlen
      have : ("url(".toList.map asc).length = 4 := rfl
      simp at hlen
      omega
    rw [if_pos rfl]
    by_cases hbad : BadUrl fold tok
    · exact .inl hbad
    right
    rw [if_neg]
    · exact ⟨_, rfl, by simp; omega⟩
    · intro hlt
      apply hbad
      refine ⟨hn, ?_⟩
      by_cases hh : peek (tok.drop 4) = asc '#'
      · rw [if_pos hh] at hlt
        have h5 : tok.length = 5 := by
          rcases Nat.lt_or_ge 4 tok.length with h | h
          · omega
          · have : tok.drop 4 = [] := List.drop_eq_nil_of_le h
            rw [this] at hh
            exact absurd hh (by decide)
        right
        refine ⟨h5, ?_⟩
        have : tok.drop 4 = [tok[4]'(by omega)] := by
          rw [List.drop_eq_getElem_cons (by omega)]
          rw [List.drop_eq_nil_of_le (by omega)]
        rw [this] at hh
        simp only [peek, List.headD_cons] at hh
        rw [List.getElem?_eq_getElem (by omega), hh]
      · rw [if_neg hh] at hlt
        left; omega
  · rw [if_neg hz]
    exact .inr ⟨_, rfl, Nat.le_refl _⟩

/-- **C11** (partial: the text must close its parentheses) For every such text, every extent ≥ 1 and
buffer of at least that size, `GetNextToken` reads only the text and writes only the buffer, unless
the token is `url(` or `url(#`; the token with its NUL fits the extent and the end pointer is inside
the text. -/
theorem C11_token_partial (fold : Byte → Byte) (hf : FoldOK fold) (number : List Byte → Nat)
    (hnum : ∀ p, number p ≤ p.length) (cap extent : Nat) (hc : extent ≤ cap) (he : 1 ≤ extent)
    (s : List Byte) (h0 : (0 : Byte) ∉ s) (hcl : Closed s) :
    (∃ p tok, getNextToken fold number cap extent s = .ok (p, tok) ∧ p <:+ s ∧
        tok.length < extent) ∨
      (∃ p tok, tokScan number cap extent s = .ok (p, tok) ∧ BadUrl fold tok) := by
  obtain ⟨⟨p, tok⟩, h1, h2, _⟩ := scan_ok number hnum hc he hcl
  simp only at h2
  rcases finish_ok (cap := cap) fold hf tok (fun h => h0 (h2.sub _ h))
    (by have := h2.len; omega) with hb | ⟨t, ht, hl⟩
  · exact .inr ⟨p, tok, h1, hb⟩
  · left
    refine ⟨p.dropWhile isSpace, t, ?_, (List.dropWhile_suffix _).trans h2.suf, ?_⟩
    · simp only [getNextToken, h1, ht, Res.ok_bind, Res.pure_eq]
    · have := h2.len; omega

/-- **C11** (partial) On texts without an opening parenthesis the tokenizer is safe for every extent
≥ 1, whatever else the text contains. -/
theorem C11_token_no_paren_partial (fold : Byte → Byte) (hf : FoldOK fold)
    (hpar : ∀ c, fold c = fold (asc '(') → c = asc '(')
    (number : List Byte → Nat)
    (hnum : ∀ p, number p ≤ p.length) (cap extent : Nat) (hc : extent ≤ cap) (he : 1 ≤ extent)
    (s : List Byte) (h0 : (0 : Byte) ∉ s) (hp : asc '(' ∉ s) :
    ∃ p tok, getNextToken fold number cap extent s = .ok (p, tok) ∧ p <:+ s ∧
      tok.length < extent := by
  have hcl : Closed s := by
    intro a b h; exact absurd (by rw [h]; simp) hp
  obtain ⟨⟨p, tok⟩, h1, h2, _⟩ := scan_ok number hnum hc he hcl
  rcases C11_token_partial fold hf number hnum cap extent hc he s h0 hcl with h | ⟨p', tok', h', hb⟩
  · exact h
  · exfalso
    rw [h1] at h'
    cases h'
    simp only at h2
    have h0t : (0 : Byte) ∉ tok := fun h => h0 (h2.sub _ h)
    have hn := C06_ncompare fold hf tok ("url(".toList.map asc) 4 h0t (by decide)
    obtain ⟨r, hr, _, _, hr0⟩ := C06_compare_spec fold hf (tok.take 4)
      (("url(".toList.map asc).take 4) (fun h => h0t (List.mem_of_mem_take h)) (by decide)
    rw [hr, hb.1] at hn
    injection hn with hn
    have hm := hr0.mp hn.symm
    have : fold (asc '(') ∈ (tok.take 4).map fold := by
      rw [hm]; exact List.mem_map.mpr ⟨asc '(', by decide, rfl⟩
    obtain ⟨c, hcm, hcf⟩ := List.mem_map.mp this
    have := hpar c hcf
    subst this
    exact hp (h2.sub _ (List.mem_of_mem_take hcm))

/-- An unterminated parenthesis makes the tokenizer read beyond the end of the text; and a token
`url(`, reachable for instance by quoting, makes it write before the token buffer. -/
theorem C11_token_violated (number : List Byte → Nat)
    (hnum : number ("a(".toList.map asc) = 0) :
    getNextToken asciiMap number 4096 4096 ("a(".toList.map asc) = .ub ∧
    getNextToken asciiMap number 4096 4096 ("\"url(\"".toList.map asc) = .ub := by
  constructor
  · have hd : ("a(".toList.map asc).dropWhile isSpace = [asc 'a', asc '('] := by decide +kernel
    have hl : "a(".toList.map asc = [asc 'a', asc '('] := rfl
    rw [hl] at hnum
    unfold getNextToken tokScan
    rw [hd]
    simp only [hnum]
    rfl
  · rfl

/-- **C61** With an extent of at least 2 (room for one character), a call on a text that is not all
blank moves the end pointer forward, so a loop over tokens terminates. -/
theorem C61_token_progress (fold : Byte → Byte) (number : List Byte → Nat)
    (hnum : ∀ p, number p ≤ p.length) (cap extent : Nat) (hc : extent ≤ cap) (he : 2 ≤ extent)
    (s : List Byte) (hcl : Closed s) (hne : s.dropWhile isSpace ≠ [])
    (p tok : List Byte) (h : getNextToken fold number cap extent s = .ok (p, tok)) :
    p.length < s.length := by
  obtain ⟨⟨p', tok'⟩, h1, _, h2⟩ := scan_ok number hnum hc (by omega) hcl
  simp only [getNextToken, h1, Res.ok_bind] at h
  have : p = p'.dropWhile isSpace := by
    cases hfin : tokFinish fold cap tok' with
    | ok t => rw [hfin] at h; simp at h; exact h.1.symm
    | ub => rw [hfin] at h; cases h
    | fatal => rw [hfin] at h; cases h
  have a1 := h2 he hne
  have a2 := (List.dropWhile_suffix isSpace (l := s)).length_le
  have a3 := (List.dropWhile_suffix isSpace (l := p')).length_le
  simp only at a1
  rw [this]
  omega

/-- With an extent of 1 there is no progress on a punctuation character: the same position is
returned for ever. -/
theorem C61_token_no_progress_extent1 (fold : Byte → Byte) (number : List Byte → Nat)
    (hf : fold 0 = 0) (hf' : fold (asc 'u') ≠ 0) :
    getNextToken fold number 1 1 [asc '/'] = .ok ([asc '/'], []) := by
  have : localeNCompare fold (some []) (some ("url(".toList.map asc)) 4 ≠ .ok 0 := by
    simp only [localeNCompare]
    have e : ("url(".toList.map asc) = asc 'u' :: ("rl(".toList.map asc) := rfl
    rw [e, localeNCompareLoop]
    rw [if_pos (by rw [hf]; exact Ne.symm hf')]
    intro h; injection h with h
    rw [hf] at h
    have : (fold (asc 'u')).toNat = 0 := by simp at h; omega
    exact hf' (BitVec.eq_of_toNat_eq this)
  have hs : tokScan number 1 1 [asc '/'] = .ok ([asc '/'], []) := rfl
  have hfin : tokFinish fold 1 [] = .ok [] := by
    unfold tokFinish
    rw [if_pos (by decide)]
    cases hn : localeNCompare fold (some []) (some ("url(".toList.map asc)) 4 with
    | ok r =>
      simp only [Res.ok_bind]
      rw [if_neg (by rintro rfl; exact this hn)]
      rfl
    | ub =>
      exfalso
      simp only [localeNCompare] at hn
      have e : ("url(".toList.map asc) = asc 'u' :: ("rl(".toList.map asc) := rfl
      rw [e, localeNCompareLoop] at hn
      split at hn <;> cases hn
    | fatal =>
      exfalso
      simp only [localeNCompare] at hn
      have e : ("url(".toList.map asc) = asc 'u' :: ("rl(".toList.map asc) := rfl
      rw [e, localeNCompareLoop] at hn
      split at hn <;> cases hn
  simp only [getNextToken, hs, hfin, Res.ok_bind]
  rfl

example : Closed ("a=rgb(1,2) b".toList.map asc) ∧ (0 : Byte) ∉ ("a=rgb(1,2) b".toList.map asc) := by
  constructor
  · intro a b h
    have key : ∀ k < 12, ("a=rgb(1,2) b".toList.map asc)[k]? = some (asc '(') →
        ("a=rgb(1,2) b".toList.map asc).drop (k + 1) = "1,2".toList.map asc ++
          asc ')' :: " b".toList.map asc := by decide
    have ha : a.length < 12 := by
      have := congrArg List.length h
      simp at this; omega
    have hk := key a.length ha (by rw [h]; simp)
    rw [h] at hk
    exact ⟨"1,2".toList.map asc, " b".toList.map asc, by simpa using hk, by decide⟩
  · decide

end Wizard.Props

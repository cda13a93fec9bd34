import Verif.Model.StringOps
import Verif.Lemmas.Copy
import Verif.Lemmas.Mem
import Verif.Spec.Strip
/-! C12: `StripString`. -/
namespace Wizard.Props
open Wizard

/-- Trailing white space removed. -/
def rstrip (s : List Byte) : List Byte := (s.reverse.dropWhile isSpace).reverse

/-- What `StripString` does to a text, as text: leading white space goes, then one opening quote;
then, never touching the first remaining character, trailing white space and one closing quote. -/
def stripSpec (s : List Byte) : List Byte :=
  let u := s.dropWhile isSpace
  let u := match u with
    | [] => []
    | c :: r => if isQuote c then r else c :: r
  match u with
  | [] => []
  | c :: r =>
    let r := rstrip r
    let r := match r.getLast? with
      | some d => if isQuote d then r.dropLast else r
      | none => r
    (c :: r).map nlToSpace

theorem rstrip_decomp (r : List Byte) : ∃ w, r = rstrip r ++ w ∧ (∀ x ∈ w, isSpace x = true) ∧
    (∀ d, (rstrip r).getLast? = some d → isSpace d = false) := by
  refine ⟨(r.reverse.takeWhile isSpace).reverse, ?_, ?_, ?_⟩
  · rw [rstrip, ← List.reverse_append, List.takeWhile_append_dropWhile, List.reverse_reverse]
  · intro x hx
    rw [List.mem_reverse] at hx
    exact List.all_eq_true.mp (List.all_takeWhile (p := isSpace)) x hx
  · intro d hd
    rw [rstrip, List.getLast?_reverse] at hd
    have := List.head?_dropWhile_not isSpace r.reverse
    rw [hd] at this
    simpa using this

theorem stripFwd_spec (pre w t : List Byte) (d : Byte) (hw : ∀ x ∈ w, isSpace x = true)
    (hd : isSpace d = false) (fuel : Nat) (hf : w.length < fuel) :
    stripFwd (pre ++ (w ++ d :: t)) fuel pre.length = .ok (pre.length + w.length) := by
  induction w generalizing pre fuel with
  | nil =>
    obtain ⟨f, rfl⟩ : ∃ f, fuel = f + 1 := ⟨fuel - 1, by simp at hf; omega⟩
    simp [stripFwd, rd, hd]
  | cons c w ih =>
    obtain ⟨f, rfl⟩ : ∃ f, fuel = f + 1 := ⟨fuel - 1, by simp at hf; omega⟩
    have hc : isSpace c = true := hw c (by simp)
    have := ih (pre ++ [c]) (fun x hx => hw x (by simp [hx])) f (by simp at hf; omega)
    simp only [stripFwd, List.cons_append, rd_append_mid, Res.ok_bind, hc, if_true]
    simp only [List.append_assoc, List.singleton_append, List.length_append,
      List.length_singleton] at this
    rw [this]; simp; omega

theorem stripBwd_le (m : List Byte) (p q : Nat) (hq : q ≤ p) (hm : q < m.length) :
    stripBwd m p q = .ok q := by
  cases q with
  | zero => simp [stripBwd, rd, List.getElem?_eq_getElem hm]
  | succ q =>
    simp only [stripBwd, rd, List.getElem?_eq_getElem hm, Res.ok_bind]
    rw [if_neg (by omega)]; rfl

theorem stripBwd_spec (pre w t : List Byte) (d : Byte) (p : Nat) (hp : p ≤ pre.length)
    (hw : ∀ x ∈ w, isSpace x = true) (hd : p = pre.length ∨ isSpace d = false) :
    stripBwd (pre ++ d :: (w ++ t)) p (pre.length + w.length) = .ok pre.length := by
  induction hn : w.length generalizing w t with
  | zero =>
    have : w = [] := List.eq_nil_of_length_eq_zero hn
    subst this
    rcases hd with hd | hd
    · exact stripBwd_le _ _ _ (by simp; omega) (by simp)
    · simp only [Nat.add_zero, List.nil_append]
      cases hl : pre.length with
      | zero => rw [stripBwd_le _ _ _ (by omega) (by simp; omega)]
      | succ l =>
        simp only [stripBwd]
        rw [← hl, rd_append_mid]
        simp [hd]
  | succ n ih =>
    obtain ⟨w', x, rfl⟩ : ∃ w' x, w = w' ++ [x] := by
      rcases List.eq_nil_or_concat w with h | ⟨w', x, h⟩
      · simp [h] at hn
      · exact ⟨w', x, by simpa using h⟩
    have hn' : w'.length = n := by simpa using hn
    have hx : isSpace x = true := hw x (by simp)
    rw [show pre.length + (n + 1) = (pre.length + n) + 1 by omega, stripBwd]
    have e : pre ++ d :: (w' ++ [x] ++ t) = (pre ++ d :: w') ++ x :: t := by simp
    have hl : pre.length + n + 1 = (pre ++ d :: w').length := by simp [hn']; omega
    rw [e, hl, rd_append_mid]
    simp only [Res.ok_bind, hx, true_and]
    rw [if_pos (by rw [← hl]; omega)]
    have := ih w' (x :: t) (fun y hy => hw y (by simp [hy])) hn'
    rw [← this]; simp

theorem strip_finish (a b t : List Byte) :
    (do
      let body ← rdN (a ++ b ++ t) a.length b.length
      let m ← wrN (a ++ b ++ t) 0 body
      let m ← wr m b.length 0
      wrN m 0 (body.map nlToSpace)) =
    if b.length < (a ++ b ++ t).length then
      .ok (b.map nlToSpace ++ 0 :: (a ++ b ++ t).drop (b.length + 1)) else .ub := by
  have h1 : rdN (a ++ b ++ t) a.length b.length = .ok b := by
    rw [rdN_ok (by simp only [List.length_append]; omega), List.append_assoc, List.drop_left, List.take_left]
  rw [h1, Res.ok_bind, wrN_ok (by simp only [List.length_append]; omega)]
  simp only [Res.ok_bind, List.take_zero, List.nil_append, Nat.zero_add]
  generalize hM : a ++ b ++ t = M
  have hML : b.length ≤ M.length := by rw [← hM]; simp; omega
  by_cases hlt : b.length < M.length
  · obtain ⟨x, M', e⟩ : ∃ x M', M.drop b.length = x :: M' := by
      cases hd : M.drop b.length with
      | nil => have := congrArg List.length hd; simp at this; omega
      | cons x M' => exact ⟨x, M', rfl⟩
    have e' : M.drop (b.length + 1) = M' := by rw [← List.drop_drop, e]; rfl
    rw [if_pos hlt, e, e']
    have : wr (b ++ x :: M') b.length 0 = .ok (b ++ 0 :: M') := by
      simp [wr]
    rw [this, Res.ok_bind, wrN_ok (by simp)]
    simp
  · rw [if_neg hlt]
    have : wr (b ++ M.drop b.length) b.length 0 = .ub := by simp [wr]; omega
    rw [this]; rfl

theorem dropWhile_decomp (s : List Byte) : ∃ w, s = w ++ s.dropWhile isSpace ∧
    (∀ x ∈ w, isSpace x = true) ∧ (∀ d, (s.dropWhile isSpace).head? = some d → isSpace d = false) := by
  refine ⟨s.takeWhile isSpace, (List.takeWhile_append_dropWhile).symm, ?_, ?_⟩
  · intro x hx
    exact List.all_eq_true.mp (List.all_takeWhile (p := isSpace)) x hx
  · intro d hd
    have := List.head?_dropWhile_not isSpace s
    rw [hd] at this
    simpa using this

/-- The part of `stripString` after the opening quote, at offset `a.length` of the text `a ++ u`. -/
theorem strip_tail (a u t : List Byte) (hne : a ++ u ≠ []) :
    (do
      let q ← stripBwd (a ++ u ++ 0 :: t) a.length ((a ++ u).length - 1)
      let q ← if q > a.length then do
          let c ← rd (a ++ u ++ 0 :: t) q
          pure (if isQuote c then q - 1 else q)
        else pure q
      let n := q + 1 - a.length
      let body ← rdN (a ++ u ++ 0 :: t) a.length n
      let m ← wrN (a ++ u ++ 0 :: t) 0 body
      let m ← wr m n 0
      wrN m 0 (body.map nlToSpace)) =
    let v := match u with
      | [] => []
      | c :: r =>
        let r := rstrip r
        let r := match r.getLast? with
          | some d => if isQuote d then r.dropLast else r
          | none => r
        (c :: r)
    .ok (v.map nlToSpace ++ 0 :: (a ++ u ++ 0 :: t).drop (v.length + 1)) := by
  cases u with
  | nil =>
    simp only [List.append_nil] at hne ⊢
    have hpos : 0 < a.length := List.length_pos_iff.mpr hne
    rw [stripBwd_le _ _ _ (by omega) (by simp; omega)]
    simp only [Res.ok_bind, gt_iff_lt]
    rw [if_neg (by omega)]
    have h := strip_finish a [] (0 :: t)
    simp only [List.append_nil, List.length_nil, List.map_nil, List.nil_append] at h
    simp only [Res.pure_eq, Res.ok_bind, show a.length - 1 + 1 - a.length = 0 by omega]
    rw [h, if_pos (by simp; omega)]
    simp
  | cons c r =>
    obtain ⟨w, hr, hw, hl⟩ := rstrip_decomp r
    simp only
    generalize hR : rstrip r = r1 at *
    subst hr
    rcases List.eq_nil_or_concat r1 with h | ⟨r2, d, h⟩
    · subst h
      have := stripBwd_spec a w (0 :: t) c a.length (Nat.le_refl _) hw (.inl rfl)
      simp only [List.nil_append]
      rw [show (a ++ c :: w).length - 1 = a.length + w.length by simp,
        show a ++ c :: w ++ 0 :: t = a ++ c :: (w ++ 0 :: t) by simp, this]
      simp only [Res.ok_bind, gt_iff_lt, Nat.lt_irrefl, if_false, Res.pure_eq,
        show a.length + 1 - a.length = [c].length by simp]
      have h := strip_finish a [c] (w ++ 0 :: t)
      rw [show a ++ c :: (w ++ 0 :: t) = a ++ [c] ++ (w ++ 0 :: t) by simp, h,
        if_pos (by simp; omega)]
      simp
    · simp only [List.concat_eq_append] at h
      subst h
      have hd : isSpace d = false := hl d (by simp)
      have := stripBwd_spec (a ++ c :: r2) w (0 :: t) d a.length (by simp) hw (.inr hd)
      rw [show (a ++ c :: (r2 ++ [d] ++ w)).length - 1 = (a ++ c :: r2).length + w.length by
          simp; omega,
        show a ++ c :: (r2 ++ [d] ++ w) ++ 0 :: t = a ++ c :: r2 ++ d :: (w ++ 0 :: t) by simp,
        this]
      simp only [Res.ok_bind, gt_iff_lt]
      rw [if_pos (by simp), rd_append_mid]
      simp only [Res.ok_bind, Res.pure_eq, List.getLast?_append, List.getLast?_singleton,
        Option.some_or]
      by_cases hq : isQuote d = true
      · simp only [hq, if_true, List.dropLast_append_cons, List.dropLast_singleton,
          List.append_nil]
        rw [show (a ++ c :: r2).length - 1 + 1 - a.length = (c :: r2).length by simp; omega]
        have h := strip_finish a (c :: r2) (d :: (w ++ 0 :: t))
        rw [h, if_pos (by simp; omega)]
      · simp only [hq, Bool.false_eq_true, if_false]
        rw [show (a ++ c :: r2).length + 1 - a.length = (c :: (r2 ++ [d])).length by simp; omega]
        have h := strip_finish a (c :: (r2 ++ [d])) (w ++ 0 :: t)
        rw [show a ++ c :: r2 ++ d :: (w ++ 0 :: t) = a ++ c :: (r2 ++ [d]) ++ (w ++ 0 :: t) by
          simp]
        rw [h, if_pos (by simp; omega)]

/-- On every string `StripString` touches only the string's own bytes (including the NUL)
and leaves exactly `stripSpec`, NUL-terminated. -/
theorem stripM (s t : List Byte) (hs : (0 : Byte) ∉ s) :
    ∃ rest, stripString (s ++ 0 :: t) = .ok (stripSpec s ++ 0 :: rest) ∧
      (stripSpec s ++ 0 :: rest).length = (s ++ 0 :: t).length ∧
      (0 : Byte) ∉ stripSpec s ∧ (∃ pre, rest = pre ++ t) := by
  have nz : ∀ v : List Byte, (0 : Byte) ∉ v → (0 : Byte) ∉ v.map nlToSpace := by
    intro v hv hm
    obtain ⟨x, hx, h0⟩ := List.mem_map.mp hm
    have : ∀ x : Byte, nlToSpace x = 0 → x = 0 := by decide +kernel
    exact hv (this x h0 ▸ hx)
  by_cases hnil : s = []
  · subst hnil
    exact ⟨t, by simp [stripString, rd, stripSpec], by simp [stripSpec], by simp [stripSpec],
      [], rfl⟩
  -- the common final step
  have fin : ∀ (a u v : List Byte), a ++ u = s → v.length ≤ s.length → (0 : Byte) ∉ v →
      ∃ rest, Res.ok (v.map nlToSpace ++ 0 :: (s ++ 0 :: t).drop (v.length + 1)) =
          .ok (v.map nlToSpace ++ 0 :: rest) ∧
        (v.map nlToSpace ++ 0 :: rest).length = (s ++ 0 :: t).length ∧
        (0 : Byte) ∉ v.map nlToSpace ∧ (∃ pre, rest = pre ++ t) := by
    intro a u v _ hv hz
    refine ⟨_, rfl, by simp; omega, nz v hz, (s ++ [0]).drop (v.length + 1), ?_⟩
    rw [show s ++ 0 :: t = (s ++ [0]) ++ t by simp, List.drop_append_of_le_length (by simp; omega)]
  obtain ⟨w, hw, hsp, hh⟩ := dropWhile_decomp s
  have rstrip_sub : ∀ r : List Byte, r.length ≥ (rstrip r).length ∧ ∀ x ∈ rstrip r, x ∈ r := by
    intro r
    obtain ⟨w, h, _⟩ := rstrip_decomp r
    constructor
    · have := congrArg List.length h
      simp at this; omega
    · intro x hx; rw [h]; simp [hx]
  have tail_sub : ∀ (c : Byte) (r : List Byte),
      let r' := match (rstrip r).getLast? with
          | some d => if isQuote d then (rstrip r).dropLast else rstrip r
          | none => rstrip r
      r'.length ≤ r.length ∧ ∀ x ∈ r', x ∈ r := by
    intro c r
    obtain ⟨h1, h2⟩ := rstrip_sub r
    simp only
    split
    · split
      · exact ⟨by simp; omega, fun x hx => h2 x (List.dropLast_subset _ hx)⟩
      · exact ⟨h1, h2⟩
    · exact ⟨h1, h2⟩
  -- unfold the model
  have hc0 : ∃ c, rd (s ++ 0 :: t) 0 = .ok c ∧ c ≠ 0 := by
    cases s with
    | nil => exact absurd rfl hnil
    | cons c s => exact ⟨c, by simp [rd], fun h => hs (by simp [h])⟩
  obtain ⟨c0, hrd0, hc0⟩ := hc0
  simp only [stripString, hrd0, Res.ok_bind, if_neg hc0, strlenMem_spec s t hs]
  generalize hu : s.dropWhile isSpace = u at *
  have hfwd : stripFwd (s ++ 0 :: t) (s ++ 0 :: t).length 0 = .ok w.length := by
    have hl : w.length < (s ++ 0 :: t).length := by rw [hw]; simp; omega
    cases u with
    | nil =>
      have := stripFwd_spec [] w t 0 hsp (by decide) _ hl
      simpa [hw] using this
    | cons d u =>
      have := stripFwd_spec [] w (u ++ 0 :: t) d hsp (hh d rfl) _ hl
      rw [hw]
      rw [hw] at this
      simpa using this
  rw [hfwd]
  simp only [Res.ok_bind]
  cases u with
  | nil =>
    have hrd : rd (s ++ 0 :: t) w.length = .ok 0 := by
      rw [hw]; simp [rd]
    have hq0 : isQuote 0 = false := by decide
    rw [hrd]
    simp only [Res.ok_bind, hq0, Bool.false_eq_true, if_false]
    have e := strip_tail w [] t (by rw [← hw]; exact hnil)
    rw [← hw] at e
    have e2 : stripSpec s = [] := by simp [stripSpec, hu]
    refine Eq.mpr ?_ (fin w [] [] hw.symm (by simp) (by simp))
    simp only [e2]
    have : ∀ {X Y : Res (List Byte)}, X = Y → ((∃ rest, Y = Res.ok (([] : List Byte).map nlToSpace ++ 0 :: rest) ∧
      (([] : List Byte).map nlToSpace ++ 0 :: rest).length = (s ++ 0 :: t).length ∧
        (0 : Byte) ∉ ([] : List Byte).map nlToSpace ∧ (∃ pre, rest = pre ++ t)) = (∃ rest, X = Res.ok ([] ++ 0 :: rest) ∧
        (([] : List Byte) ++ 0 :: rest).length = (s ++ 0 :: t).length ∧ (0 : Byte) ∉ ([] : List Byte) ∧ (∃ pre, rest = pre ++ t))) := by
      rintro _ _ rfl; simp
    rw [this]
    exact e
  | cons d u =>
    have hrd : rd (s ++ 0 :: t) w.length = .ok d := by
      rw [hw]; simp [rd]
    rw [hrd]
    simp only [Res.ok_bind]
    have key : ∀ a u', a ++ u' = s → 
        (∀ x, (if isQuote d then x + 1 else x) = a.length → True) →
        (stripSpec s = (match u' with
          | [] => []
          | c :: r =>
            let r := rstrip r
            let r := match r.getLast? with
              | some d => if isQuote d then r.dropLast else r
              | none => r
            (c :: r).map nlToSpace)) →
        (if isQuote d = true then w.length + 1 else w.length) = a.length →
        ∃ rest, (do
            let q ← stripBwd (s ++ 0 :: t) a.length (s.length - 1)
            let q ← if q > a.length then do
                let c ← rd (s ++ 0 :: t) q
                pure (if isQuote c then q - 1 else q)
              else pure q
            let n := q + 1 - a.length
            let body ← rdN (s ++ 0 :: t) a.length n
            let m ← wrN (s ++ 0 :: t) 0 body
            let m ← wr m n 0
            wrN m 0 (body.map nlToSpace)) = Res.ok (stripSpec s ++ 0 :: rest) ∧
          (stripSpec s ++ 0 :: rest).length = (s ++ 0 :: t).length ∧
          (0 : Byte) ∉ stripSpec s ∧ (∃ pre, rest = pre ++ t) := by
      intro a u' hau _ hspec _
      have e := strip_tail a u' t (by rw [hau]; exact hnil)
      rw [hau] at e
      rw [e]
      cases u' with
      | nil =>
        simp only at hspec
        have := fin a [] [] hau (by simp) (by simp)
        simpa [hspec] using this
      | cons c r =>
        simp only at hspec
        rw [hspec]
        simp only
        have ht := tail_sub c r
        simp only at ht
        refine fin a (c :: r) _ hau ?_ ?_
        · have := congrArg List.length hau
          simp at this
          simp only [List.length_cons]
          have := ht.1
          omega
        · intro h0
          have : (0 : Byte) ∈ c :: r := by
            rcases List.mem_cons.mp h0 with h | h
            · simp [h]
            · exact List.mem_cons_of_mem _ (ht.2 _ h)
          exact hs (by rw [← hau]; exact List.mem_append_right _ this)
    by_cases hq : isQuote d = true
    · simp only [hq, if_true]
      have := key (w ++ [d]) u (by rw [hw]; simp) (fun _ _ => trivial)
        (by simp [stripSpec, hu, hq]) (by simp [hq])
      simpa only [List.length_append, List.length_singleton] using this
    · simp only [hq, Bool.false_eq_true, if_false]
      exact key w (d :: u) hw.symm (fun _ _ => trivial)
        (by simp [stripSpec, hu, hq]) (by simp [hq])

theorem rstrip_append_space (r w : List Byte) (hw : ∀ x ∈ w, isSpace x = true) :
    rstrip (r ++ w) = rstrip r := by
  rw [rstrip, List.reverse_append, List.dropWhile_append_of_pos (by simpa using hw), ← rstrip]

theorem rstrip_of_last (r : List Byte) (d : Byte) (hd : isSpace d = false) :
    rstrip (r ++ [d]) = r ++ [d] := by
  simp [rstrip, hd]

theorem dropWhile_space (w r : List Byte) (hw : ∀ x ∈ w, isSpace x = true) :
    (w ++ r).dropWhile isSpace = r.dropWhile isSpace :=
  List.dropWhile_append_of_pos hw

theorem core_shape {a : Byte} {core : List Byte} {e : Byte} (h : core.head? = some a)
    (h' : core.getLast? = some e) : core = [a] ∧ a = e ∨ ∃ mid, core = a :: (mid ++ [e]) := by
  cases core with
  | nil => cases h
  | cons x r =>
    cases h
    rcases List.eq_nil_or_concat r with h | ⟨r2, d, h⟩
    · subst h; left; cases h'; exact ⟨rfl, rfl⟩
    · right
      subst h
      rw [List.concat_eq_append, ← List.cons_append, List.getLast?_append,
        List.getLast?_singleton, Option.some_or, Option.some.injEq] at h'
      exact ⟨r2, by simp [h']⟩

/-- Unquoted text: exactly the surrounding white space goes (and line feeds inside become
blanks). -/
theorem stripM_unquoted (w core w' : List Byte) (a e : Byte)
    (hw : ∀ x ∈ w, isSpace x = true) (hw' : ∀ x ∈ w', isSpace x = true)
    (ha : core.head? = some a) (he : core.getLast? = some e)
    (has : isSpace a = false) (hes : isSpace e = false)
    (haq : isQuote a = false) (heq : isQuote e = false) :
    stripSpec (w ++ core ++ w') = core.map nlToSpace := by
  rcases core_shape ha he with ⟨rfl, rfl⟩ | ⟨mid, rfl⟩
  · rw [stripSpec, List.append_assoc, dropWhile_space w _ hw]
    simp only [List.cons_append, List.nil_append, List.dropWhile_cons, has, haq,
      Bool.false_eq_true, if_false]
    have := rstrip_append_space [] w' hw'
    simp only [List.nil_append] at this
    rw [this]
    simp [rstrip]
  · rw [stripSpec, List.append_assoc, dropWhile_space w _ hw]
    simp only [List.cons_append, List.dropWhile_cons, has, haq,
      Bool.false_eq_true, if_false]
    rw [rstrip_append_space _ w' hw', rstrip_of_last _ _ hes]
    simp [heq]

/-- Quoted text: the surrounding white space and the one pair of quotes go, white space
inside the quotes stays. The body must be non-empty, see `C12_strip_empty_quotes_violated`. -/
theorem stripM_quoted (w body w' : List Byte) (q q' : Byte)
    (hw : ∀ x ∈ w, isSpace x = true) (hw' : ∀ x ∈ w', isSpace x = true)
    (hq : isQuote q = true) (hq' : isQuote q' = true) (hb : body ≠ []) :
    stripSpec (w ++ (q :: (body ++ [q'])) ++ w') = body.map nlToSpace := by
  have nsp : ∀ c, isQuote c = true → isSpace c = false := by decide +kernel
  rw [stripSpec, List.append_assoc, dropWhile_space w _ hw]
  cases body with
  | nil => exact absurd rfl hb
  | cons c r =>
    simp only [List.cons_append, List.dropWhile_cons, nsp q hq, hq, Bool.false_eq_true,
      if_false, if_true]
    rw [rstrip_append_space _ w' hw', rstrip_of_last _ _ (nsp q' hq')]
    simp [hq']

/-- All-blank text becomes empty. -/
theorem stripM_blank (w : List Byte) (hw : ∀ x ∈ w, isSpace x = true) : stripSpec w = [] := by
  have := dropWhile_space w [] hw
  simp only [List.append_nil, List.dropWhile_nil] at this
  simp [stripSpec, this]

/-- Idempotent on unquoted text. -/
theorem stripM_idempotent (w core w' : List Byte) (a e : Byte)
    (hw : ∀ x ∈ w, isSpace x = true) (hw' : ∀ x ∈ w', isSpace x = true)
    (ha : core.head? = some a) (he : core.getLast? = some e)
    (has : isSpace a = false) (hes : isSpace e = false)
    (haq : isQuote a = false) (heq : isQuote e = false) :
    stripSpec (stripSpec (w ++ core ++ w')) = stripSpec (w ++ core ++ w') := by
  rw [stripM_unquoted w core w' a e hw hw' ha he has hes haq heq]
  have nl : ∀ c, isSpace c = false → nlToSpace c = c := by decide +kernel
  have h2 : ∀ c, nlToSpace (nlToSpace c) = nlToSpace c := by decide +kernel
  have := stripM_unquoted [] (core.map nlToSpace) [] a e (by simp) (by simp)
    (by rw [List.head?_map, ha]; simp [nl a has]) (by rw [List.getLast?_map, he]; simp [nl e hes])
    has hes haq heq
  simp only [List.nil_append, List.append_nil, List.map_map] at this
  rw [this]
  congr 1
  funext c
  exact h2 c

theorem isSpace_spec : isSpace = Spec.Strip.blank := by funext c; revert c; decide +kernel
theorem isQuote_spec : isQuote = Spec.Strip.quote := by funext c; revert c; decide +kernel
theorem nlToSpace_spec : nlToSpace = Spec.Strip.unline := by funext c; revert c; decide +kernel

theorem stripSpec_eq (s : List Byte) : stripSpec s = Spec.Strip.strip s := by
  simp only [stripSpec, rstrip, isSpace_spec, isQuote_spec, nlToSpace_spec]
  rfl

/-- **C12** On every string `StripString` touches only the string's own bytes (including the NUL)
and leaves exactly `Spec.Strip.strip` of the text, NUL-terminated. -/
theorem C12_strip (s t : List Byte) (hs : (0 : Byte) ∉ s) :
    ∃ rest, stripString (s ++ 0 :: t) = .ok (Spec.Strip.strip s ++ 0 :: rest) ∧
      (Spec.Strip.strip s ++ 0 :: rest).length = (s ++ 0 :: t).length ∧
      (0 : Byte) ∉ Spec.Strip.strip s ∧ (∃ pre, rest = pre ++ t) := by
  rw [← stripSpec_eq]
  exact stripM s t hs

/-- **C12** Unquoted text: exactly the surrounding white space goes (and line feeds inside become
blanks). -/
theorem C12_strip_unquoted (w core w' : List Byte) (a e : Byte)
    (hw : ∀ x ∈ w, Spec.Strip.blank x = true) (hw' : ∀ x ∈ w', Spec.Strip.blank x = true)
    (ha : core.head? = some a) (he : core.getLast? = some e)
    (has : Spec.Strip.blank a = false) (hes : Spec.Strip.blank e = false)
    (haq : Spec.Strip.quote a = false) (heq : Spec.Strip.quote e = false) :
    Spec.Strip.strip (w ++ core ++ w') = core.map Spec.Strip.unline := by
  rw [← isSpace_spec] at *
  rw [← isQuote_spec] at *
  rw [← stripSpec_eq, ← nlToSpace_spec]
  exact stripM_unquoted w core w' a e hw hw' ha he has hes haq heq

/-- **C12** Quoted text: the surrounding white space and the one pair of quotes go, white space
inside the quotes stays. The body must be non-empty, see `C12_strip_empty_quotes_violated`. -/
theorem C12_strip_quoted_partial (w body w' : List Byte) (q q' : Byte)
    (hw : ∀ x ∈ w, Spec.Strip.blank x = true) (hw' : ∀ x ∈ w', Spec.Strip.blank x = true)
    (hq : Spec.Strip.quote q = true) (hq' : Spec.Strip.quote q' = true) (hb : body ≠ []) :
    Spec.Strip.strip (w ++ (q :: (body ++ [q'])) ++ w') = body.map Spec.Strip.unline := by
  rw [← isSpace_spec] at *
  rw [← isQuote_spec] at *
  rw [← stripSpec_eq, ← nlToSpace_spec]
  exact stripM_quoted w body w' q q' hw hw' hq hq' hb

/-- **C12** All-blank text becomes empty. -/
theorem C12_strip_blank (w : List Byte) (hw : ∀ x ∈ w, Spec.Strip.blank x = true) :
    Spec.Strip.strip w = [] := by
  rw [← isSpace_spec] at hw
  rw [← stripSpec_eq]
  exact stripM_blank w hw

/-- **C12** Idempotent on unquoted text. -/
theorem C12_strip_idempotent (w core w' : List Byte) (a e : Byte)
    (hw : ∀ x ∈ w, Spec.Strip.blank x = true) (hw' : ∀ x ∈ w', Spec.Strip.blank x = true)
    (ha : core.head? = some a) (he : core.getLast? = some e)
    (has : Spec.Strip.blank a = false) (hes : Spec.Strip.blank e = false)
    (haq : Spec.Strip.quote a = false) (heq : Spec.Strip.quote e = false) :
    Spec.Strip.strip (Spec.Strip.strip (w ++ core ++ w')) = Spec.Strip.strip (w ++ core ++ w') := by
  rw [← isSpace_spec] at *
  rw [← isQuote_spec] at *
  rw [← stripSpec_eq, ← stripSpec_eq]
  exact stripM_idempotent w core w' a e hw hw' ha he has hes haq heq

/-- An empty quoted string is not stripped to nothing: `""` becomes `"`; and an opening quote
followed by blanks leaves one blank. -/
theorem C12_strip_empty_quotes_violated :
    Spec.Strip.strip [asc '"', asc '"'] = [asc '"'] ∧
    Spec.Strip.strip [asc '"', asc ' ', asc ' '] = [asc ' '] := by decide +kernel

/-- On quoted text stripping is not idempotent. -/
theorem C12_strip_quoted_idempotent_violated :
    Spec.Strip.strip (Spec.Strip.strip [asc '"', asc ' ', asc 'x', asc '"']) ≠
      Spec.Strip.strip [asc '"', asc ' ', asc 'x', asc '"'] := by decide +kernel

example : stripString [0x20, 0x61, 0x0a, 0x62, 0x09, 0x00, 0x77] =
    .ok [0x61, 0x20, 0x62, 0x00, 0x09, 0x00, 0x77] := by decide +kernel
example : Spec.Strip.quote (asc '"') = true ∧ Spec.Strip.blank (asc ' ') = true ∧ Spec.Strip.quote (asc 'x') = false ∧
    Spec.Strip.blank (asc 'x') = false := by decide

end Wizard.Props

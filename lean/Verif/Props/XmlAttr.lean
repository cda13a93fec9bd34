import Verif.Spec.XmlAttr
/-! C166: setting attributes. -/
namespace Wizard.Props
open Wizard Wizard.Spec.XmlAttr

/-- The cells of an element with these attributes; all that the calls look at. -/
theorem cells_list (a : XmlAttrs) : ∃ rest, (cellsOf a).list = xmlPairs a ++ .null :: rest ∧ (a ≠ [] → rest = [.unset]) := by
  cases a with
  | nil => exact ⟨[], rfl, fun h => absurd rfl h⟩
  | cons p a => exact ⟨[.unset], rfl, fun _ => rfl⟩

theorem pairs_length (a : XmlAttrs) : (xmlPairs a).length = 2 * a.length := by
  induction a with
  | nil => rfl
  | cons p a ih => obtain ⟨n, v⟩ := p; simp only [xmlPairs, List.length_cons, ih]; omega

/-- Where the search ends. -/
theorem findCell_spec (tag : List Byte) (rest : List XmlCell) : ∀ (a : XmlAttrs) (i : Nat),
    (valueOf tag a = none ∧ findCell tag (xmlPairs a ++ .null :: rest) i = .ok (i + 2 * a.length)) ∨
    (∃ v a1 a2, a = a1 ++ (tag, v) :: a2 ∧ valueOf tag a1 = none ∧ valueOf tag a = some v ∧ findCell tag (xmlPairs a ++ .null :: rest) i = .ok (i + 2 * a1.length)) := by
  intro a
  induction a with
  | nil => intro i; exact .inl ⟨rfl, rfl⟩
  | cons p a ih =>
    obtain ⟨n, v⟩ := p
    intro i
    by_cases hn : n = tag
    · subst hn
      exact .inr ⟨v, [], a, rfl, rfl, by simp [valueOf], by simp [xmlPairs, findCell]⟩
    · rcases ih (i + 2) with ⟨h1, h2⟩ | ⟨w, a1, a2, h1, h2, h3, h4⟩
      · refine .inl ⟨by simp [valueOf, hn, h1], ?_⟩
        simp only [xmlPairs, List.cons_append, findCell, if_neg hn, h2, List.length_cons]
        congr 1; omega
      · refine .inr ⟨w, (n, v) :: a1, a2, by rw [h1]; rfl, by simp [valueOf, hn, h2], by simp [valueOf, hn, h3], ?_⟩
        simp only [xmlPairs, List.cons_append, findCell, if_neg hn, h4, List.length_cons]
        congr 1; omega

theorem endCell_spec (rest : List XmlCell) : ∀ (a : XmlAttrs) (i : Nat), endCell (xmlPairs a ++ .null :: rest) i = .ok (i + 2 * a.length) := by
  intro a
  induction a with
  | nil => intro i; rfl
  | cons p a ih =>
    obtain ⟨n, v⟩ := p
    intro i
    simp only [xmlPairs, List.cons_append, endCell, ih, List.length_cons]
    congr 1; omega

theorem pairs_append (a b : XmlAttrs) : xmlPairs (a ++ b) = xmlPairs a ++ xmlPairs b := by
  induction a with
  | nil => rfl
  | cons p a ih => obtain ⟨n, v⟩ := p; simp [xmlPairs, ih]

theorem cell_set (v : Option (List Byte)) : ∀ (l : List XmlCell) (i : Nat), l[i]? = some (xmlCell v) → xmlCellAt l i = .ok (xmlCell v) := by
  intro l i h
  unfold xmlCellAt
  rw [h]
  cases v <;> rfl

theorem cell_str (s : List Byte) (l : List XmlCell) (i : Nat) (h : l[i]? = some (.str s)) : xmlCellAt l i = .ok (.str s) := by
  unfold xmlCellAt; rw [h]

theorem cell_null (l : List XmlCell) (i : Nat) (h : l[i]? = some .null) : xmlCellAt l i = .ok .null := by
  unfold xmlCellAt; rw [h]

/-- **C166**, reading: `GetXMLTreeAttribute` gives for every element with every attributes the value of the first attribute of the name, and none if
there is none. -/
theorem C166_get (a : XmlAttrs) (tag : List Byte) : ownAttribute (cellsOf a) tag = .ok ((valueOf tag a).map xmlCell) := by
  obtain ⟨rest, hl, _⟩ := cells_list a
  unfold ownAttribute
  rw [hl]
  rcases findCell_spec tag rest a 0 with ⟨h1, h2⟩ | ⟨v, a1, a2, h1, h2, h3, h4⟩
  · rw [h2, Res.ok_bind, cell_null _ _ (by rw [List.getElem?_append_right (by rw [pairs_length]; omega), pairs_length]; simp), Res.ok_bind, if_pos rfl, h1]
    rfl
  · rw [h4, Res.ok_bind]
    have hx : xmlPairs a ++ .null :: rest = xmlPairs a1 ++ .str tag :: xmlCell v :: (xmlPairs a2 ++ .null :: rest) := by
      rw [h1, pairs_append]; simp [xmlPairs]
    rw [hx, cell_str tag _ _ (by rw [List.getElem?_append_right (by rw [pairs_length]; omega), pairs_length]; simp), Res.ok_bind, if_neg (by simp),
      cell_set v _ _ (by rw [List.getElem?_append_right (by rw [pairs_length]; omega), pairs_length, show 0 + 2 * a1.length + 1 - 2 * a1.length = 1 by omega]; rfl), Res.ok_bind, h3]
    rfl

/-- An attribute there is gets another value. -/
theorem set_present (a1 a2 : XmlAttrs) (tag : List Byte) (v : Option (List Byte)) (rest : List XmlCell) (s : List Byte) :
    setAttribute.finish (xmlPairs (a1 ++ (tag, v) :: a2) ++ .null :: rest) (2 * a1.length) (.text s) = .ok (.own (xmlPairs (a1 ++ (tag, some s) :: a2) ++ .null :: rest)) := by
  have hx : ∀ w, xmlPairs (a1 ++ (tag, w) :: a2) ++ XmlCell.null :: rest = xmlPairs a1 ++ .str tag :: xmlCell w :: (xmlPairs a2 ++ .null :: rest) := by
    intro w
    rw [pairs_append]; simp [xmlPairs]
  have hp := pairs_length a1
  unfold setAttribute.finish
  rw [hx, hx, List.drop_append, show (xmlPairs a1).drop (2 * a1.length) = [] by rw [← hp]; exact List.drop_length, hp, Nat.sub_self, List.drop_zero, List.nil_append]
  rw [show endCell (XmlCell.str tag :: xmlCell v :: (xmlPairs a2 ++ .null :: rest)) (2 * a1.length) = .ok (2 * a1.length + 2 + 2 * a2.length) from endCell_spec rest a2 _, Res.ok_bind]
  rw [cell_set v _ _ (by rw [List.getElem?_append_right (by rw [hp]; omega), hp, show 2 * a1.length + 1 - 2 * a1.length = 1 by omega]; rfl), Res.ok_bind]
  simp only [valueText, Res.ok_bind]
  rw [List.set_append_right _ _ (by rw [hp]; omega), hp, show 2 * a1.length + 1 - 2 * a1.length = 1 by omega]
  rfl

theorem put_present (a1 a2 : XmlAttrs) (tag s : List Byte) (v : Option (List Byte)) (h : valueOf tag a1 = none) : put tag s (a1 ++ (tag, v) :: a2) = a1 ++ (tag, some s) :: a2 := by
  induction a1 with
  | nil => simp [put]
  | cons p a1 ih =>
    obtain ⟨n, w⟩ := p
    by_cases hn : n = tag
    · simp [valueOf, hn] at h
    · simp only [valueOf, if_neg hn] at h
      simp only [List.cons_append, put, if_neg hn, ih h]

/-- One call that works. -/
theorem set_works (a : XmlAttrs) (tag : List Byte) (v : XmlValue) (h : Works a tag v) : setAttribute (cellsOf a) tag v = .ok (cellsOf (after a tag v)) := by
  obtain ⟨rest, hl, hr⟩ := cells_list a
  unfold setAttribute
  rw [hl]
  rcases findCell_spec tag rest a 0 with ⟨h1, h2⟩ | ⟨w, a1, a2, h1, h2, h3, h4⟩
  · have hc : xmlCellAt (xmlPairs a ++ .null :: rest) (0 + 2 * a.length) = .ok .null :=
      cell_null _ _ (by rw [List.getElem?_append_right (by rw [pairs_length]; omega), pairs_length]; simp)
    rw [h2, Res.ok_bind, hc, Res.ok_bind, if_pos rfl]
    cases v with
    | null => rfl
    | cell k => exact h.elim
    | text s =>
      rcases h with h | h
      · exact absurd h1 h
      · subst h
        rfl
  · have hx : xmlPairs a ++ .null :: rest = xmlPairs a1 ++ .str tag :: xmlCell w :: (xmlPairs a2 ++ .null :: rest) := by
      rw [h1, pairs_append]; simp [xmlPairs]
    have hc : xmlCellAt (xmlPairs a ++ .null :: rest) (0 + 2 * a1.length) = .ok (.str tag) :=
      cell_str _ _ _ (by rw [hx, List.getElem?_append_right (by rw [pairs_length]; omega), pairs_length]; simp)
    rw [h4, Res.ok_bind, hc, Res.ok_bind, if_neg (by simp)]
    cases v with
    | null => have h : valueOf tag a = none := h; rw [h3] at h; cases h
    | cell k => exact h.elim
    | text s =>
      have hne : a ≠ [] := by rw [h1]; simp
      rw [show (0 + 2 * a1.length) = 2 * a1.length by omega]
      have := set_present a1 a2 tag w rest s
      rw [← h1] at this
      rw [this]
      show _ = Res.ok (cellsOf (put tag s a))
      rw [h1, put_present a1 a2 tag s w h2, hr hne]
      cases a1 <;> rfl

/-- **C166** for the calls that work: for every element `NewXMLTree`, `NewXMLTreeTag` or `AddChildToXMLTree` makes, and every history of calls that give
other values to attributes there are, add an attribute to an element without attributes or remove attributes there are not, every attribute reads as the
history says.  What is missing: adding a second attribute (`C166_add_violated`), removing one (`C166_remove_violated`), and values that came from the
element itself (`C166_own_violated`). -/
theorem C166_set_partial (a : XmlAttrs) (calls : List (List Byte × XmlValue)) (h : AllWork a calls) :
    ∃ c, setAttributes (cellsOf a) calls = .ok c ∧ ∀ tag, ownAttribute c tag = .ok ((valueOf tag (afterAll a calls)).map xmlCell) := by
  have key : setAttributes (cellsOf a) calls = .ok (cellsOf (afterAll a calls)) := by
    induction calls generalizing a with
    | nil => rfl
    | cons p calls ih =>
      obtain ⟨tag, v⟩ := p
      rw [setAttributes, set_works a tag v h.1, Res.ok_bind]
      exact ih _ h.2
  exact ⟨_, key, fun tag => C166_get _ tag⟩

/-- What `put` does, in terms of values. -/
theorem put_reads (a : XmlAttrs) (tag s t : List Byte) : valueOf t (put tag s a) = if t = tag then some (some s) else valueOf t a := by
  induction a with
  | nil =>
    by_cases h : t = tag
    · simp [put, valueOf, h]
    · have h' : ¬ tag = t := fun e => h e.symm
      simp [put, valueOf, h, h']
  | cons p a ih =>
    obtain ⟨n, v⟩ := p
    by_cases hn : n = tag
    · subst hn
      by_cases h : t = n
      · simp [put, valueOf, h]
      · have h' : ¬ n = t := fun e => h e.symm
        simp [put, valueOf, h, h']
    · simp only [put, if_neg hn, valueOf, ih]
      by_cases h : n = t
      · subst h; simp [hn]
      · simp [h]

/-- **C166 is false** of adding: on every element with attributes, setting an attribute it does not have reads a string through a pointer that was
never set. -/
theorem C166_add_violated (a : XmlAttrs) (ha : a ≠ []) (tag : List Byte) (h : valueOf tag a = none) (s : List Byte) : setAttribute (cellsOf a) tag (.text s) = .ub := by
  obtain ⟨rest, hl, hr⟩ := cells_list a
  have hr := hr ha
  subst hr
  have hc : xmlCellAt (xmlPairs a ++ [.null, .unset]) (0 + 2 * a.length) = .ok .null :=
    cell_null _ _ (by rw [List.getElem?_append_right (by rw [pairs_length]; omega), pairs_length]; simp)
  have ho : cellsOf a = .own (xmlPairs a ++ [.null, .unset]) := by
    cases a with
    | nil => exact absurd rfl ha
    | cons p a => rfl
  unfold setAttribute
  rw [hl]
  rcases findCell_spec tag [.unset] a 0 with ⟨_, h2⟩ | ⟨w, a1, a2, h1, h2, h3, h4⟩
  · rw [h2, Res.ok_bind, hc, Res.ok_bind, if_pos rfl]
    simp only [ho]
    have hp := pairs_length a
    have : addCell (.own (xmlPairs a ++ [.null, .unset])) (0 + 2 * a.length) tag = .ub := by
      unfold addCell
      simp only [Nat.zero_add, List.length_append, hp, List.length_cons, List.length_nil]
      rw [List.take_of_length_le (by simp [hp])]
      rw [List.getElem?_set_ne (by omega), List.getElem?_set_ne (by omega), List.append_assoc, List.getElem?_append_right (by omega), hp,
        show 2 * a.length + 1 - 2 * a.length = 1 by omega]
      rfl
    rw [this]
    rfl
  · rw [h] at h3; cases h3

/-- **C166 is false** of removing: on every element, removing an attribute it has moves bytes through a pointer that was never set. -/
theorem C166_remove_violated (a : XmlAttrs) (tag : List Byte) (h : valueOf tag a ≠ none) : setAttribute (cellsOf a) tag .null = .ub := by
  have ha : a ≠ [] := by rintro rfl; exact h rfl
  obtain ⟨rest, hl, hr⟩ := cells_list a
  have hr := hr ha
  subst hr
  unfold setAttribute
  rw [hl]
  rcases findCell_spec tag [.unset] a 0 with ⟨h1, _⟩ | ⟨w, a1, a2, h1, h2, h3, h4⟩
  · exact absurd h1 h
  · have hx : xmlPairs a ++ [XmlCell.null, .unset] = xmlPairs a1 ++ .str tag :: xmlCell w :: (xmlPairs a2 ++ [.null, .unset]) := by
      rw [h1, pairs_append]; simp [xmlPairs]
    have hp := pairs_length a1
    have hp2 := pairs_length a2
    rw [h4, Res.ok_bind, hx, cell_str tag _ _ (by rw [List.getElem?_append_right (by omega), hp]; simp), Res.ok_bind, if_neg (by simp)]
    unfold setAttribute.finish
    rw [show 0 + 2 * a1.length = 2 * a1.length by omega, List.drop_append, show (xmlPairs a1).drop (2 * a1.length) = [] by rw [← hp]; exact List.drop_length, hp, Nat.sub_self, List.drop_zero, List.nil_append]
    rw [show endCell (XmlCell.str tag :: xmlCell w :: (xmlPairs a2 ++ [.null, .unset])) (2 * a1.length) = .ok (2 * a1.length + 2 + 2 * a2.length) from endCell_spec _ a2 _, Res.ok_bind]
    rw [cell_set w _ _ (by rw [List.getElem?_append_right (by omega), hp, show 2 * a1.length + 1 - 2 * a1.length = 1 by omega]; rfl), Res.ok_bind]
    simp only [valueText, Res.ok_bind]
    have : removeCell (xmlPairs a1 ++ .str tag :: xmlCell w :: (xmlPairs a2 ++ [.null, .unset])) (2 * a1.length) (2 * a1.length + 2 + 2 * a2.length) = .ub := by
      unfold removeCell
      rw [if_pos (by simp only [List.length_append, hp, hp2, List.length_cons, List.length_nil]; omega)]
      simp only []
      have e1 : (xmlPairs a1 ++ XmlCell.str tag :: xmlCell w :: (xmlPairs a2 ++ [.null, .unset])).take (2 * a1.length) = xmlPairs a1 := by
        rw [← hp]; exact List.take_left
      have e2 : (xmlPairs a1 ++ XmlCell.str tag :: xmlCell w :: (xmlPairs a2 ++ [.null, .unset])).drop (2 * a1.length + 2) = xmlPairs a2 ++ [.null, .unset] := by
        rw [← List.drop_drop, ← hp, List.drop_left]; rfl
      rw [e1, e2, show 2 * a1.length + 2 + 2 * a2.length - 2 * a1.length = 2 + 2 * a2.length by omega, List.take_of_length_le (l := xmlPairs a2 ++ [XmlCell.null, .unset]) (by simp [hp2]; omega)]
      rw [List.getElem?_take_of_lt (by omega), List.append_assoc, List.getElem?_append_right (by omega), hp, List.append_assoc, List.getElem?_append_right (by omega), hp2,
        show 2 * a1.length + 2 + 2 * a2.length - 1 - 2 * a1.length - 2 * a2.length = 1 by omega]
      rfl
    rw [this]
    rfl

/-- **C166 is false** of a value that came from the element: setting an attribute to the pointer `GetXMLTreeAttribute` returned for it reads the string
after it was freed. -/
theorem C166_own_violated (a1 a2 : XmlAttrs) (tag s : List Byte) (h : valueOf tag a1 = none) :
    setAttribute (cellsOf (a1 ++ (tag, some s) :: a2)) tag (.cell (2 * a1.length + 1)) = .ub := by
  obtain ⟨a, ha⟩ : ∃ a, a = a1 ++ (tag, some s) :: a2 := ⟨_, rfl⟩
  rw [← ha]
  obtain ⟨rest, hl, _⟩ := cells_list a
  have hp := pairs_length a1
  have hx : xmlPairs a ++ XmlCell.null :: rest = xmlPairs a1 ++ .str tag :: .str s :: (xmlPairs a2 ++ .null :: rest) := by
    rw [ha, pairs_append]; simp [xmlPairs, xmlCell]
  have hf : ∀ (a1 : XmlAttrs) (i : Nat), valueOf tag a1 = none → findCell tag (xmlPairs a1 ++ .str tag :: .str s :: (xmlPairs a2 ++ .null :: rest)) i = .ok (i + 2 * a1.length) := by
    intro a1
    induction a1 with
    | nil => intro i _; simp [xmlPairs, findCell]
    | cons p a1 ih =>
      obtain ⟨n, w⟩ := p
      intro i h
      by_cases hn : n = tag
      · simp [valueOf, hn] at h
      · simp only [valueOf, if_neg hn] at h
        simp only [xmlPairs, List.cons_append, findCell, if_neg hn, ih _ h, List.length_cons]
        congr 1; omega
  unfold setAttribute
  rw [hl, hx, hf a1 0 h, Res.ok_bind, cell_str tag _ _ (by rw [List.getElem?_append_right (by omega), hp]; simp), Res.ok_bind, if_neg (by simp)]
  unfold setAttribute.finish
  rw [show 0 + 2 * a1.length = 2 * a1.length by omega, List.drop_append, show (xmlPairs a1).drop (2 * a1.length) = [] by rw [← hp]; exact List.drop_length, hp, Nat.sub_self, List.drop_zero, List.nil_append]
  rw [show endCell (XmlCell.str tag :: .str s :: (xmlPairs a2 ++ .null :: rest)) (2 * a1.length) = .ok (2 * a1.length + 2 + 2 * a2.length) from endCell_spec _ a2 _, Res.ok_bind]
  rw [cell_str s _ _ (by rw [List.getElem?_append_right (by omega), hp, show 2 * a1.length + 1 - 2 * a1.length = 1 by omega]; rfl), Res.ok_bind]
  simp only [valueText, if_pos]
  rfl

-- x="1" y, then y gets "2", z is not removed, x gets "3"
def sampleCalls : List (List Byte × XmlValue) := [([121], .text [50]), ([122], .null), ([120], .text [51])]

example : AllWork [([120], some [49]), ([121], none)] sampleCalls ∧ afterAll [([120], some [49]), ([121], none)] sampleCalls = [([120], some [51]), ([121], some [50])] := by
  simp [AllWork, sampleCalls, Works, after, afterAll, put, valueOf]

-- an element without attributes
example : AllWork [] [([121], .text [50]), ([121], .text [51])] := by
  simp [AllWork, Works, after, put, valueOf]

example : setAttributes .sentinel [([121], .text [50]), ([121], .text [51])] = .ok (.own [.str [121], .str [51], .null, .unset]) := by decide +kernel

example : setAttributes .sentinel [([121], .text [50]), ([122], .text [51])] = .ub := by decide +kernel

example : setAttributes .sentinel [([121], .text [50]), ([121], .null)] = .ub := by decide +kernel

end Wizard.Props

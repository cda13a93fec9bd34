import Verif.Spec.Configure
/-! C140: looking up configurations. C141: listing them. C142: where they are looked for. C143: loading them. -/
namespace Wizard.Props
open Wizard Spec.Configure

/-! ### C140 -/

def isNamed (fold : Byte → Byte) (name : List Byte) (e : CfgEntry) : Bool :=
  match e.name with
  | none => false
  | some n => decide (n.map fold = name.map fold)

theorem isNamed_iff {fold : Byte → Byte} {name : List Byte} {e : CfgEntry} : isNamed fold name e = true ↔ ∃ n, e.name = some n ∧ Same fold n name := by
  unfold isNamed Same
  cases h : e.name with
  | none => simp
  | some n => simp

theorem firstNamed_iff {fold : Byte → Byte} {es : List CfgEntry} {name : List Byte} {e : CfgEntry} :
    FirstNamed fold es name e ↔ es.find? (isNamed fold name) = some e := by
  rw [List.find?_eq_some_iff_append]
  constructor
  · rintro ⟨b, a, n, rfl, h1, h2, h3⟩
    refine ⟨isNamed_iff.2 ⟨n, h1, h2⟩, b, a, rfl, fun x hx => ?_⟩
    cases hx' : isNamed fold name x with
    | false => rfl
    | true => obtain ⟨m, hm, hs⟩ := isNamed_iff.1 hx'; exact absurd hs (h3 x hx m hm)
  · rintro ⟨h, b, a, rfl, h3⟩
    obtain ⟨n, h1, h2⟩ := isNamed_iff.1 h
    refine ⟨b, a, n, rfl, h1, h2, fun x hx m hm hs => ?_⟩
    have := h3 x hx
    rw [isNamed_iff.2 ⟨m, hm, hs⟩] at this
    cases this

theorem notNamed_iff {fold : Byte → Byte} {es : List CfgEntry} {name : List Byte} : NotNamed fold es name ↔ es.find? (isNamed fold name) = none := by
  rw [List.find?_eq_none]
  exact ⟨fun h x hx hn => by obtain ⟨m, hm, hs⟩ := isNamed_iff.1 hn; exact h x hx m hm hs, fun h x hx m hm hs => h x hx (isNamed_iff.2 ⟨m, hm, hs⟩)⟩

theorem cfgFind_eq {fold : Byte → Byte} {name : List Byte} {es : List CfgEntry} (h : AllNamed es) : cfgFind fold name es = .ok (es.find? (isNamed fold name)) := by
  induction es with
  | nil => rfl
  | cons e es ih =>
    obtain ⟨n, hn⟩ := h e (List.mem_cons_self ..)
    rw [cfgFind, hn]
    simp only []
    by_cases hs : name.map fold = n.map fold
    · rw [if_pos hs, List.find?_cons_of_pos (isNamed_iff.2 ⟨n, hn, hs.symm⟩)]
    · rw [if_neg hs, List.find?_cons_of_neg (fun hx => by obtain ⟨m, hm, hs'⟩ := isNamed_iff.1 hx; rw [hn] at hm; cases hm; exact hs hs'.symm)]
      exact ih fun x hx => h x (List.mem_cons_of_mem _ hx)

/-- Moving the first entry of a name to the front does not change which entry is the first of a name. -/
theorem find_moved {fold : Byte → Byte} {es : List CfgEntry} {n0 : List Byte} {e : CfgEntry} (h : es.find? (isNamed fold n0) = some e) (name : List Byte) :
    (e :: es.erase e).find? (isNamed fold name) = es.find? (isNamed fold name) := by
  obtain ⟨he, b, a, rfl, hb⟩ := List.find?_eq_some_iff_append.1 h
  have hmem : e ∉ b := fun hm => by have := hb e hm; rw [he] at this; cases this
  have er : (b ++ e :: a).erase e = b ++ a := by rw [List.erase_append_right _ hmem, List.erase_cons_head]
  rw [er]
  by_cases hn : isNamed fold name e = true
  · have hbn : b.find? (isNamed fold name) = none := by
      rw [List.find?_eq_none]
      intro x hx hxn
      obtain ⟨m, hm, hs⟩ := isNamed_iff.1 hxn
      obtain ⟨k, hk, hs'⟩ := isNamed_iff.1 hn
      obtain ⟨k', hk', hs''⟩ := isNamed_iff.1 he
      rw [hk] at hk'; cases hk'
      have hx' := hb x hx
      have : isNamed fold n0 x = true := isNamed_iff.2 ⟨m, hm, by unfold Same at *; rw [hs, ← hs', hs'']⟩
      rw [this] at hx'
      cases hx'
    rw [List.find?_cons_of_pos hn, List.find?_append, hbn, Option.none_or, List.find?_cons_of_pos hn]
  · rw [List.find?_cons_of_neg hn, List.find?_append, List.find?_append, List.find?_cons_of_neg hn]

theorem allNamed_moved {es : List CfgEntry} {e : CfgEntry} (h : AllNamed es) (he : e ∈ es) : AllNamed (e :: es.erase e) := by
  intro x hx
  rcases List.mem_cons.mp hx with rfl | hx
  · exact h _ he
  · exact h x (List.mem_of_mem_erase hx)

theorem lookups_ok {fold : Byte → Byte} (history : List (Option (List Byte))) {loaded : List CfgEntry} (h : AllNamed loaded) :
    ∃ cache, cfgLookups fold history loaded = .ok cache ∧ AllNamed cache ∧ ∀ name, cache.find? (isNamed fold name) = loaded.find? (isNamed fold name) := by
  induction history generalizing loaded with
  | nil => exact ⟨loaded, rfl, h, fun _ => rfl⟩
  | cons n ns ih =>
    rw [cfgLookups]
    cases n with
    | none => exact ih h
    | some n =>
      rw [getConfigureInfo]
      split
      · exact ih h
      · rw [cfgFind_eq h]
        simp only [Res.ok_bind]
        cases hf : loaded.find? (isNamed fold n) with
        | none => exact ih h
        | some e =>
          obtain ⟨c, h1, h2, h3⟩ := ih (allNamed_moved h (List.mem_of_find?_eq_some hf))
          exact ⟨c, h1, h2, fun name => by rw [h3, find_moved hf]⟩

/-- **C140** (partial: every entry has a name; see the violation) Whatever was looked up before, looking up a name gives the entry that was loaded first
among those with the name, in upper or lower case, without a warning; if there is none, it gives none and warns. -/
theorem C140_first_partial (fold : Byte → Byte) (loaded : List CfgEntry) (h : AllNamed loaded) (history : List (Option (List Byte))) :
    ∃ cache, cfgLookups fold history loaded = .ok cache ∧ ∀ name, ¬ Same fold name (ascText "*") →
      (∀ e, FirstNamed fold loaded name e → ∃ c, getConfigureInfo fold (some name) cache = .ok (some e, false, c)) ∧
      (NotNamed fold loaded name → ∃ c, getConfigureInfo fold (some name) cache = .ok (none, true, c)) := by
  obtain ⟨cache, h1, h2, h3⟩ := lookups_ok (fold := fold) history h
  refine ⟨cache, h1, fun name hn => ⟨fun e he => ?_, fun he => ?_⟩⟩
  · rw [firstNamed_iff, ← h3] at he
    refine ⟨e :: cache.erase e, ?_⟩
    rw [getConfigureInfo]
    rw [if_neg (show ¬ (List.map fold name = List.map fold (ascText "*")) from hn), cfgFind_eq h2, he]
    rfl
  · rw [notNamed_iff, ← h3] at he
    refine ⟨cache, ?_⟩
    rw [getConfigureInfo]
    rw [if_neg (show ¬ (List.map fold name = List.map fold (ascText "*")) from hn), cfgFind_eq h2, he]
    rfl

/-- Two entries of the same name, looked up after the last of three entries was. -/
example : AllNamed [⟨some (ascText "a"), [], some (ascText "1"), false⟩, ⟨some (ascText "A"), [], some (ascText "2"), false⟩, ⟨some (ascText "b"), [], none, false⟩] ∧
    FirstNamed id [⟨some (ascText "a"), [], some (ascText "1"), false⟩, ⟨some (ascText "A"), [], some (ascText "2"), false⟩, ⟨some (ascText "b"), [], none, false⟩] (ascText "b") ⟨some (ascText "b"), [], none, false⟩ := by
  constructor
  · intro x hx; simp at hx; rcases hx with rfl | rfl | rfl <;> exact ⟨_, rfl⟩
  · rw [firstNamed_iff]; decide +kernel

/-- **C140** (violated): one `<configure>` element without a name, in whatever file, makes looking up any name that is not loaded before it crash. -/
theorem C140_unnamed_violated (fold : Byte → Byte) (before after : List CfgEntry) (value : Option (List Byte)) (path : List Byte) (name : List Byte) (hs : ¬ Same fold name (ascText "*"))
    (hb : AllNamed before) (hn : NotNamed fold before name) :
    getConfigureInfo fold (some name) (before ++ ⟨none, path, value, false⟩ :: after) = .ub := by
  have : cfgFind fold name (before ++ ⟨none, path, value, false⟩ :: after) = .ub := by
    clear hs
    induction before with
    | nil => rfl
    | cons e es ih =>
      obtain ⟨n, he⟩ := hb e (List.mem_cons_self ..)
      rw [List.cons_append, cfgFind, he]
      simp only []
      rw [if_neg fun h => hn e (List.mem_cons_self ..) n he h.symm]
      exact ih (fun x hx => hb x (List.mem_cons_of_mem _ hx)) (fun x hx => hn x (List.mem_cons_of_mem _ hx))
  rw [getConfigureInfo]
  rw [if_neg (show ¬ (List.map fold name = List.map fold (ascText "*")) from hs), this]
  rfl

/-! ### C141 -/

theorem caseLe_iff {fold : Byte → Byte} {a b : List Byte} : caseLe fold a b = true ↔ Before fold a b := by
  induction a generalizing b with
  | nil => simp only [caseLe, true_iff]; exact .empty _
  | cons x a ih =>
    cases b with
    | nil => simp only [caseLe, Bool.false_eq_true, false_iff]; intro h; cases h
    | cons y b =>
      rw [caseLe]
      split
      · rename_i h
        rw [ih]
        exact ⟨fun hb => .rest h hb, fun hb => by cases hb with
          | first _ _ h' => rw [h] at h'; omega
          | rest _ h' => exact h'⟩
      · rename_i h
        rw [decide_eq_true_iff]
        exact ⟨fun hb => .first _ _ hb, fun hb => by cases hb with
          | first _ _ h' => exact h'
          | rest h' _ => exact absurd h' h⟩

/-- Which entries match. -/
def shown (glob : List Byte → List Byte → Bool) (pattern : List Byte) (e : CfgEntry) : Bool :=
  !e.stealth && (pattern == [] || pattern == [42] || glob (e.name.getD []) pattern)

theorem cfgSelect_eq {glob : List Byte → List Byte → Bool} {pattern : List Byte} {es : List CfgEntry} (h : AllNamed es) : cfgSelect glob pattern es = .ok (es.filter (shown glob pattern)) := by
  induction es with
  | nil => rfl
  | cons e es ih =>
    obtain ⟨n, hn⟩ := h e (List.mem_cons_self ..)
    rw [cfgSelect, ih fun x hx => h x (List.mem_cons_of_mem _ hx), List.filter_cons]
    have hstar : ascText "*" = [42] := rfl
    by_cases hs : e.stealth = true
    · simp [hs, shown]
    · by_cases hp : pattern = [] ∨ pattern = [42]
      · have hp' : (pattern == [] || pattern == [42]) = true := by rcases hp with rfl | rfl <;> rfl
        simp only [hs, hstar, hp, shown, hp', if_true, if_false, Res.ok_bind, Bool.true_or, Bool.and_true, Bool.not_false, Bool.false_eq_true]
      · have hp' : (pattern == [] || pattern == [42]) = false := by
          rw [Bool.or_eq_false_iff, beq_eq_false_iff_ne, beq_eq_false_iff_ne]
          exact ⟨fun e => hp (.inl e), fun e => hp (.inr e)⟩
        simp only [hs, hstar, hp, shown, hp', if_false, hn, Res.ok_bind, Bool.false_or, Bool.not_false, Bool.true_and, Bool.false_eq_true, Option.getD_some]

/-- **C141** (partial: configurations whose entries all have names; see the violations) The list of configurations for a pattern has the names of all entries
that are not hidden and match the pattern, in alphabetical order. -/
theorem C141_names_partial (fold : Byte → Byte) (glob : List Byte → List Byte → Bool) (qsort : List (List Byte) → List (List Byte)) (hq : Sorts (caseLe fold) qsort) (pattern : List Byte) (cache : List CfgEntry)
    (h : AllNamed cache) (hc : cache ≠ []) : ∃ names, getConfigureList glob qsort pattern cache = .ok (some names) ∧ Listing fold glob pattern cache names := by
  refine ⟨_, by rw [getConfigureList, if_neg hc, cfgSelect_eq h]; rfl, ?_, ?_⟩
  · exact (hq _).1
  · exact (hq _).2.imp fun h => caseLe_iff.1 h

/-- **C141** (partial: as above) The entries listed for a pattern are all those that are not hidden and match, in the order of their files and, in each file, of
their names. So it is for MIME types and messages. -/
theorem C141_entries_partial (fold : Byte → Byte) (glob : List Byte → List Byte → Bool) (qsort : List CfgEntry → List CfgEntry) (hq : Sorts (cfgInfoLe fold) qsort) (pattern : List Byte) (cache : List CfgEntry)
    (h : AllNamed cache) (hc : cache ≠ []) :
    ∃ es, getConfigureInfoList glob qsort pattern cache = .ok (some es) ∧
      es.Perm (cache.filter fun e => !e.stealth && (pattern == [] || pattern == [42] || glob (e.name.getD []) pattern)) ∧
      es.Pairwise fun x y => (Same fold x.path y.path → Before fold (x.name.getD []) (y.name.getD [])) ∧ (¬ Same fold x.path y.path → Before fold x.path y.path) := by
  have hnone : ∀ l : List CfgEntry, (∀ x ∈ l, x ∈ cache) → l.any (fun e => e.name.isNone) = false := by
    intro l hl
    rw [List.any_eq_false]
    intro x hx
    obtain ⟨n, hn⟩ := h x (hl x hx)
    rw [hn]; simp
  refine ⟨qsort (cache.filter (shown glob pattern)), ?_, (hq _).1, (hq _).2.imp fun {x y} hxy => ?_⟩
  · rw [getConfigureInfoList, if_neg hc, cfgSelect_eq h]
    simp only [Res.ok_bind]
    rw [if_neg]
    rw [hnone _ fun x hx => (List.mem_filter.1 hx).1]
    simp
  · unfold cfgInfoLe at hxy
    split at hxy
    · exact ⟨fun _ => caseLe_iff.1 hxy, fun hn => absurd ‹_› hn⟩
    · exact ⟨fun hs => absurd hs ‹_›, fun _ => caseLe_iff.1 hxy⟩

theorem caseLe_total (fold : Byte → Byte) (a b : List Byte) : (caseLe fold a b || caseLe fold b a) = true := by
  induction a generalizing b with
  | nil => simp [caseLe]
  | cons x a ih =>
    cases b with
    | nil => simp [caseLe]
    | cons y b =>
      rw [caseLe, caseLe]
      by_cases h : fold x = fold y
      · rw [if_pos h, if_pos h.symm]; exact ih b
      · have hne : (fold x).toNat ≠ (fold y).toNat := fun e => h (BitVec.eq_of_toNat_eq e)
        rw [if_neg h, if_neg (Ne.symm h), Bool.or_eq_true, decide_eq_true_iff, decide_eq_true_iff]
        omega

theorem before_trans {fold : Byte → Byte} {a b c : List Byte} (h1 : Before fold a b) (h2 : Before fold b c) : Before fold a c := by
  induction h1 generalizing c with
  | empty => exact .empty _
  | first a b h =>
    cases h2 with
    | first _ _ h' => exact .first _ _ (by omega)
    | rest h' _ => exact .first _ _ (by rw [← h']; exact h)
  | rest h _ ih =>
    cases h2 with
    | first _ _ h' => exact .first _ _ (by rw [h]; exact h')
    | rest h' hb => exact .rest (h.trans h') (ih hb)

/-- There are functions that sort. -/
theorem sorts_exist (fold : Byte → Byte) : Sorts (caseLe fold) fun l => l.mergeSort (caseLe fold) := fun l =>
  ⟨List.mergeSort_perm l _, List.pairwise_mergeSort (le := caseLe fold) (fun _ _ _ h1 h2 => caseLe_iff.2 (before_trans (caseLe_iff.1 h1) (caseLe_iff.1 h2))) (caseLe_total fold) l⟩

/-- **C141** (violated): an entry without a name that is not hidden makes listing by any pattern but `*` and the empty one crash (for MIME types: an entry
without a type). -/
theorem C141_unnamed_violated (glob : List Byte → List Byte → Bool) (qsort : List (List Byte) → List (List Byte)) (pattern : List Byte) (hp : pattern ≠ [] ∧ pattern ≠ ascText "*") (before after : List CfgEntry)
    (hb : AllNamed before) (path : List Byte) (value : Option (List Byte)) : getConfigureList glob qsort pattern (before ++ ⟨none, path, value, false⟩ :: after) = .ub := by
  have : cfgSelect glob pattern (before ++ ⟨none, path, value, false⟩ :: after) = .ub := by
    induction before with
    | nil => simp [cfgSelect, hp]
    | cons e es ih =>
      obtain ⟨n, hn⟩ := hb e (List.mem_cons_self ..)
      rw [List.cons_append, cfgSelect, ih fun x hx => hb x (List.mem_cons_of_mem _ hx), hn]
      cases e.stealth <;> simp [hp] <;> rfl
  rw [getConfigureList, if_neg (by simp), this]
  rfl

/-- **C141 is false** of messages: `GetLocaleList` leaves out the first message, whatever the messages are. -/
theorem C141_locale_violated (fold : Byte → Byte) (glob : List Byte → List Byte → Bool) (qsort : List (List Byte) → List (List Byte)) (hq : Sorts (caseLe fold) qsort) (first : CfgEntry) (cache : List CfgEntry)
    (h : AllNamed (first :: cache)) (hs : first.stealth = false) :
    ∃ names, getLocaleList glob qsort (ascText "*") (first :: cache) = .ok (some names) ∧ Listing fold glob (ascText "*") cache names ∧ ¬ Listing fold glob (ascText "*") (first :: cache) names := by
  have hc : AllNamed cache := fun x hx => h x (List.mem_cons_of_mem _ hx)
  refine ⟨_, by rw [getLocaleList, if_neg (by simp), List.drop_one, List.tail_cons, cfgSelect_eq hc]; rfl, ⟨(hq _).1, (hq _).2.imp fun h => caseLe_iff.1 h⟩, ?_⟩
  rintro ⟨hp, _⟩
  have h1 := hp.length_eq
  have h2 := (hq ((cache.filter (shown glob (ascText "*"))).map fun e => e.name.getD [])).1.length_eq
  have hshown : (first :: cache).filter (fun e => !e.stealth && (ascText "*" == [] || ascText "*" == [42] || glob (e.name.getD []) (ascText "*"))) = first :: cache.filter (shown glob (ascText "*")) := by
    rw [List.filter_cons, if_pos (by rw [hs]; rfl)]
    rfl
  rw [hshown] at h1
  have := h2.symm.trans h1
  simp at this

/-- **C141 is false** of MIME types: `GetMimeList` sorts by the addresses of its strings, not by the strings. Here `b` is before `a`, however it is sorted. -/
theorem C141_mime_violated (glob : List Byte → List Byte → Bool) (qsort : List (BitVec 64 × List Byte) → List (BitVec 64 × List Byte)) (hq : Sorts (mimeSlotLe id) qsort) :
    getMimeList glob qsort [0x555555559010, 0x555555559020] (ascText "*") [⟨some (ascText "b"), [], none, false⟩, ⟨some (ascText "a"), [], none, false⟩] = .ok (some [ascText "b", ascText "a"]) ∧
      ¬ Before id (ascText "b") (ascText "a") := by
  constructor
  · have e : getMimeList glob qsort [0x555555559010, 0x555555559020] (ascText "*") [⟨some (ascText "b"), [], none, false⟩, ⟨some (ascText "a"), [], none, false⟩] =
        .ok (some ((qsort [(0x555555559010, ascText "b"), (0x555555559020, ascText "a")]).map (·.2))) := rfl
    rw [e]
    obtain ⟨h1, h2⟩ := hq [(0x555555559010, ascText "b"), (0x555555559020, ascText "a")]
    generalize qsort [(0x555555559010, ascText "b"), (0x555555559020, ascText "a")] = l at h1 h2
    match l, h1.length_eq with
    | [x, y], _ =>
      have hx : x ∈ [((0x555555559010 : BitVec 64), ascText "b"), (0x555555559020, ascText "a")] := h1.subset (by simp)
      have hy : y ∈ [((0x555555559010 : BitVec 64), ascText "b"), (0x555555559020, ascText "a")] := h1.subset (by simp)
      have ha : ((0x555555559020 : BitVec 64), ascText "a") ∈ [x, y] := h1.symm.subset (by simp)
      have hb : ((0x555555559010 : BitVec 64), ascText "b") ∈ [x, y] := h1.symm.subset (by simp)
      have hle : mimeSlotLe id x y = true := by simpa using h2
      simp only [List.mem_cons, List.not_mem_nil, or_false] at hx hy ha hb
      rcases hx with rfl | rfl
      · rcases hy with rfl | rfl
        · exact absurd ha (by decide)
        · rfl
      · rcases hy with rfl | rfl
        · exact absurd hle (by decide +kernel)
        · exact absurd hb (by decide)
  · rw [← caseLe_iff]; decide

example : ∃ names, getConfigureList (fun _ _ => false) (fun l => l.mergeSort (caseLe id)) (ascText "*") [⟨some (ascText "b"), [], none, false⟩, ⟨some (ascText "a"), [], none, false⟩, ⟨some (ascText "c"), [], none, true⟩] = .ok (some names) ∧
    names = [ascText "a", ascText "b"] := by
  refine ⟨_, rfl, ?_⟩
  simp [List.mergeSort, List.merge, show caseLe id (ascText "b") (ascText "a") = false from by decide]

/-! ### Finding files -/

theorem filterMap_congr' {α β : Type} {f g : α → Option β} {l : List α} (h : ∀ x ∈ l, f x = g x) : l.filterMap f = l.filterMap g := by
  induction l with
  | nil => rfl
  | cons a l ih => rw [List.filterMap_cons, List.filterMap_cons, h a (List.mem_cons_self ..), ih fun x hx => h x (List.mem_cons_of_mem _ hx)]

theorem withSlash_eq {d : List Byte} (h : d.length ≤ 4094) : withSlash d = asPrefix d := by
  unfold withSlash asPrefix pathCut
  by_cases h1 : d = []
  · rw [if_neg (fun hn => hn.1 h1), if_pos (.inl h1)]
  by_cases h2 : d.getLast? = some 47
  · rw [if_neg (fun hn => hn.2 h2), if_pos (.inr h2)]
  · rw [if_pos ⟨h1, h2⟩, if_neg (fun h => h.elim h1 h2), List.take_of_length_le (by simp; omega)]
    rfl

theorem before_colon {d : List Byte} (h : (58 : Byte) ∉ d) (r : List Byte) : (d ++ 58 :: r).dropWhile (· != 58) = 58 :: r ∧ (d ++ 58 :: r).takeWhile (· != 58) = d := by
  have hp : ∀ a ∈ d, (a != (58 : Byte)) = true := fun x hx => bne_iff_ne.2 fun e => h (e ▸ hx)
  exact ⟨by rw [List.dropWhile_append_of_pos hp]; rfl, by rw [List.takeWhile_append_of_pos hp]; simp⟩

theorem cfgDirs_joined (ds : List (List Byte)) : ∀ d, (∀ x ∈ d :: ds, x.length ≤ 4094 ∧ (58 : Byte) ∉ x) → cfgDirs (joined (d :: ds)) = (d :: ds).map asPrefix := by
  induction ds with
  | nil =>
    intro d h
    obtain ⟨h1, h2⟩ := h d (List.mem_cons_self ..)
    have hp : ∀ a ∈ d, (a != (58 : Byte)) = true := fun x hx => bne_iff_ne.2 fun e => h2 (e ▸ hx)
    have e1 : d.takeWhile (· != (58 : Byte)) = d := by
      have := List.takeWhile_append_of_pos (l₂ := []) hp
      simpa using this
    have e2 : d.dropWhile (· != (58 : Byte)) = [] := by
      have := List.dropWhile_append_of_pos (l₂ := []) hp
      simpa using this
    rw [joined, cfgDirs]
    have e3 : (pathCut d).takeWhile (· != asc ':') = d := by
      rw [pathCut, List.take_of_length_le (by omega)]; exact e1
    rw [e3, withSlash_eq h1]
    split
    · rfl
    · rename_i h0
      exact absurd (e2.symm.trans h0) (by simp)
  | cons d' ds ih =>
    intro d h
    obtain ⟨h1, h2⟩ := h d (List.mem_cons_self ..)
    obtain ⟨e2, e1⟩ := before_colon h2 (joined (d' :: ds))
    rw [joined, cfgDirs]
    · have e3 : (pathCut (d ++ 58 :: joined (d' :: ds))).takeWhile (· != asc ':') = d := by
        obtain ⟨k, hk⟩ : ∃ k, 4095 - d.length = k + 1 := ⟨4094 - d.length, by omega⟩
        rw [pathCut, List.take_append, List.take_of_length_le (by omega), hk, List.take_succ_cons]
        exact (before_colon h2 _).2
      rw [e3, withSlash_eq h1]
      split
      · rename_i h0
        exact absurd (e2.symm.trans h0) (by simp)
      · rename_i h0
        have := e2.symm.trans h0
        simp only [List.cons.injEq] at this
        obtain ⟨_, rfl⟩ := this
        simp only [ih d' fun x hx => h x (List.mem_cons_of_mem _ hx)]
        rfl
    · simp

/-- **C142** (partial): the files of a name are found in the directories of `WIZARD_CONFIGURE_PATH`, in the order of the directories, then in those the
library was installed with, then in `$HOME/.config/WizardsToolkit`, and what is found first comes first: for directories without colons whose names, with
the name of the file, are within the limit of paths, while `XDG_CONFIG_HOME` is not set. -/
theorem C142_found_partial {α : Type} (fs : List Byte → Option α) (d : List Byte) (ds installed : List (List Byte)) (home filename : List Byte)
    (hd : ∀ x ∈ d :: ds, x.length + filename.length ≤ 4094 ∧ (58 : Byte) ∉ x) (hi : ∀ x ∈ installed, x.length + filename.length ≤ 4095) (hh : home.length + filename.length ≤ 4071) :
    getConfigureOptions fs { configurePath := some (joined (d :: ds)), home := some home } installed filename =
      ((d :: ds).map asPrefix ++ installed ++ [home ++ ascText "/.config/WizardsToolkit/"]).filterMap fun dir => (fs (dir ++ filename)).map fun x => (dir ++ filename, x) := by
  have l24 : (ascText "/.config/WizardsToolkit/").length = 24 := by decide +kernel
  rw [getConfigureOptions, getConfigurePaths]
  simp only []
  rw [cfgDirs_joined ds d fun x hx => ⟨by have := hd x hx; omega, (hd x hx).2⟩, pathCut, List.take_of_length_le (by rw [List.length_append, l24]; omega), List.append_nil]
  refine filterMap_congr' fun x hx => ?_
  have : pathCut (x ++ filename) = x ++ filename := by
    refine List.take_of_length_le ?_
    rw [List.length_append]
    rcases List.mem_append.1 hx with hx | hx
    · rcases List.mem_append.1 hx with hx | hx
      · obtain ⟨y, hy, rfl⟩ := List.mem_map.1 hx
        have := (hd y hy).1
        unfold asPrefix
        split
        · omega
        · rw [List.length_append]; simp; omega
      · exact hi x hx
    · rw [List.mem_singleton.1 hx, List.length_append, l24]; omega
  simp only [this]

example : getConfigureOptions (fun p => if p = ascText "/b/log.xml" then some 1 else if p = ascText "/h/.config/WizardsToolkit/log.xml" then some 2 else none)
    { configurePath := some (ascText "/a:/b"), home := some (ascText "/h") } [] (ascText "log.xml") = [(ascText "/b/log.xml", 1), (ascText "/h/.config/WizardsToolkit/log.xml", 2)] := by
  rw [show ascText "/a:/b" = joined [ascText "/a", ascText "/b"] from by decide +kernel, C142_found_partial _ (ascText "/a") [ascText "/b"] [] (ascText "/h") _ (by decide +kernel) (by simp) (by decide +kernel)]
  decide +kernel

/-- **C142 is false** where `XDG_CONFIG_HOME` is set: a file in `$XDG_CONFIG_HOME/WizardsToolkit` is not found, whatever its name, unless there is a file
whose path ends in the name twice. -/
theorem C142_xdg_violated {α : Type} (xdg filename : List Byte) (contents : α) (h : xdg.length + 2 * filename.length ≤ 4079) (hf : filename ≠ []) :
    getConfigureOptions (fun p => if p = xdg ++ ascText "/WizardsToolkit/" ++ filename then some contents else none) { xdgConfigHome := some xdg } [] filename = [] ∧
    getConfigureOptions (fun p => if p = xdg ++ ascText "/WizardsToolkit/" ++ (filename ++ filename) then some contents else none) { xdgConfigHome := some xdg } [] filename =
      [(xdg ++ ascText "/WizardsToolkit/" ++ (filename ++ filename), contents)] := by
  have l16 : (ascText "/WizardsToolkit/").length = 16 := by decide +kernel
  have hl : 0 < filename.length := List.length_pos_iff.2 hf
  have e1 : pathCut (xdg ++ ascText "/WizardsToolkit/" ++ filename) = xdg ++ ascText "/WizardsToolkit/" ++ filename := List.take_of_length_le (by simp only [List.length_append, l16]; omega)
  have e2 : pathCut (xdg ++ ascText "/WizardsToolkit/" ++ filename ++ filename) = xdg ++ ascText "/WizardsToolkit/" ++ (filename ++ filename) := by
    rw [pathCut, List.take_of_length_le (by simp only [List.length_append, l16]; omega)]; simp only [List.append_assoc]
  constructor
  · simp only [getConfigureOptions, getConfigurePaths, List.append_nil, List.nil_append, e1, List.filterMap_cons, List.filterMap_nil, e2]
    rw [if_neg]
    · rfl
    · intro e
      have := congrArg List.length e
      simp only [List.length_append] at this
      omega
  · simp only [getConfigureOptions, getConfigurePaths, List.append_nil, List.nil_append, e1, List.filterMap_cons, List.filterMap_nil, e2, if_true]
    rfl

/-- **C142** (violated): a directory whose path is longer than the limit is cut, and the name of the file is dropped: whatever is at the first
4095 bytes of the path is taken for the file. -/
theorem C142_long_violated {α : Type} (fs : List Byte → Option α) (d filename : List Byte) (hl : 4095 ≤ d.length) (hc : (58 : Byte) ∉ d) :
    getConfigureOptions fs { configurePath := some d } [] filename = ((fs (d.take 4095)).map fun x => (d.take 4095, x)).toList := by
  have hp : ∀ a ∈ d, (a != asc ':') = true := fun x hx => bne_iff_ne.2 fun e => hc ((show x = 58 from e) ▸ hx)
  have hp' : ∀ a ∈ d.take 4095, (a != asc ':') = true := fun x hx => hp x (List.mem_of_mem_take hx)
  have h4 : (d.take 4095).length = 4095 := by rw [List.length_take]; omega
  have h1 : (d.take 4095).takeWhile (· != asc ':') = d.take 4095 := by
    have := List.takeWhile_append_of_pos (l₂ := []) hp'
    simpa using this
  have h2 : d.dropWhile (· != asc ':') = [] := by
    have := List.dropWhile_append_of_pos (l₂ := []) hp
    simpa using this
  have e : cfgDirs d = [d.take 4095] := by
    rw [cfgDirs, pathCut, h1]
    split
    · unfold withSlash
      split
      · rw [pathCut, List.take_left' h4]
      · rfl
    · rename_i h0; rw [h2] at h0; simp at h0
  rw [getConfigureOptions, getConfigurePaths]
  simp only [e, List.append_nil, List.filterMap_cons, List.filterMap_nil]
  rw [pathCut, List.take_left' h4]
  cases fs (d.take 4095) <;> rfl

/-! ### Loading -/

mutual
theorem loads_load {r p : List Byte → List Byte → List Byte} {fs : List Byte → Option CfgDoc} (hfs : ∀ g d, fs g = some d → ∀ a, some a ∈ d.includes → r g a = p g a) {n : Nat} {f : List Byte} {doc : CfgDoc} {es : List CfgEntry}
    (hf : ∀ a, some a ∈ doc.includes → r f a = p f a) : Loads p fs n f doc es → ∀ N, n ≤ N → ∀ cache, loadCfg r fs N f doc cache = cache ++ es
  | .file h, N, hN, cache => by
    rw [loadCfg, includes_load hfs hf h N hN cache, List.append_assoc]

theorem includes_load {r p : List Byte → List Byte → List Byte} {fs : List Byte → Option CfgDoc} (hfs : ∀ g d, fs g = some d → ∀ a, some a ∈ d.includes → r g a = p g a) {n : Nat} {f : List Byte} {is : List (Option (List Byte))} {es : List CfgEntry}
    (hf : ∀ a, some a ∈ is → r f a = p f a) : Includes p fs n f is es → ∀ N, n ≤ N → ∀ cache, loadIncludes r fs N f is cache = cache ++ es
  | .done, N, hN, cache => by simp [loadIncludes]
  | .unnamed h, N, hN, cache => by
    rw [loadIncludes]
    exact includes_load hfs (fun a ha => hf a (List.mem_cons_of_mem _ ha)) h N hN cache
  | .missing h0 h, N, hN, cache => by
    have ih := includes_load hfs (fun a ha => hf a (List.mem_cons_of_mem _ ha)) h N hN cache
    cases N with
    | zero => rw [loadIncludes]; exact ih
    | succ N => rw [loadIncludes, hf _ (List.mem_cons_self ..), h0]; exact ih
  | .found h0 h1 h, N, hN, cache => by
    obtain ⟨M, rfl⟩ : ∃ M, N = M + 1 := ⟨N - 1, by omega⟩
    rw [loadIncludes, hf _ (List.mem_cons_self ..), h0]
    simp only []
    rw [loads_load hfs (hfs _ _ h0) h1 M (by omega) cache, includes_load hfs (fun a ha => hf a (List.mem_cons_of_mem _ ha)) h (M + 1) hN _, List.append_assoc]
end

theorem cfgHead_slash {f : List Byte} (h : cfgHead f ≠ [] ∨ (47 : Byte) ∉ f) : (if cfgHead f ≠ [] then cfgHead f ++ [asc '/'] else cfgHead f) = (f.reverse.dropWhile (· != 47)).reverse := by
  have e : cfgHead f = ((f.reverse.dropWhile (· != (47 : Byte))).drop 1).reverse := rfl
  cases hd : f.reverse.dropWhile (· != (47 : Byte)) with
  | nil => rw [e, hd]; simp
  | cons c r =>
    have hc : c = 47 := by
      have := List.head?_dropWhile_not (· != (47 : Byte)) f.reverse
      rw [hd] at this
      simpa using this
    subst hc
    have hmem : (47 : Byte) ∈ f := by
      have : (47 : Byte) ∈ f.reverse.dropWhile (· != (47 : Byte)) := by rw [hd]; exact List.mem_cons_self ..
      exact List.mem_reverse.1 ((List.dropWhile_suffix _).subset this)
    have hne : cfgHead f ≠ [] := h.resolve_right fun hn => hn hmem
    rw [if_pos hne, e, hd]
    simp
    rfl

/-- A path that can be resolved: that of a file which is not in the root directory, and that of a file beside it, within the limit of paths. -/
def Resolvable (f a : List Byte) : Prop := (cfgHead f ≠ [] ∨ (47 : Byte) ∉ f) ∧ (place f a).length ≤ 4095

theorem cut_twice {l a : List Byte} (h : (l ++ a).length ≤ 4095) : pathCut (pathCut l ++ a) = l ++ a := by
  rw [List.length_append] at h
  rw [pathCut, pathCut, List.take_of_length_le (l := l) (by omega), List.take_of_length_le (by rw [List.length_append]; exact h)]

theorem mimeInclude_eq {f a : List Byte} (h : Resolvable f a) : mimeInclude f a = place f a := by
  obtain ⟨h1, h2⟩ := h
  unfold mimeInclude place at *
  simp only []
  by_cases ha : a.head? = some 47
  · rw [if_pos ha] at h2
    rw [if_pos ha, if_pos (show a.head? = some (asc '/') from ha), pathCut, List.take_of_length_le h2]
  · rw [if_neg ha] at h2
    rw [if_neg ha, if_neg (show ¬ a.head? = some (asc '/') from ha)]
    rw [← cfgHead_slash h1] at h2 ⊢
    by_cases hh : cfgHead f ≠ []
    · rw [if_pos hh] at h2 ⊢
      rw [if_pos hh, cut_twice h2]
    · rw [if_neg hh] at h2 ⊢
      rw [if_neg hh, pathCut, List.take_of_length_le h2]

theorem cfgInclude_eq {f a : List Byte} (h : Resolvable f a) (ha : a.head? ≠ some 47) : cfgInclude f a = place f a := by
  rw [← mimeInclude_eq h, mimeInclude, if_neg (show ¬ a.head? = some (asc '/') from ha)]
  rfl

/-- **C143** (partial): loading a configuration file adds the entries of the files it includes and then its own, all of them, in order, to those that were
there, and records of each in which file it is; an included file is looked for beside the file that includes it. For files that include one another 201 deep
at most, with relative names, that are not in the root directory and whose paths are within the limit. -/
theorem C143_configure_partial (fs : List Byte → Option CfgDoc) (f : List Byte) (doc : CfgDoc) (n : Nat) (es cache : List CfgEntry) (h : Loads place fs n f doc es) (hn : n ≤ 201)
    (hf : ∀ a, some a ∈ doc.includes → Resolvable f a ∧ a.head? ≠ some 47) (hfs : ∀ g d, fs g = some d → ∀ a, some a ∈ d.includes → Resolvable g a ∧ a.head? ≠ some 47) :
    loadCfg cfgInclude fs 201 f doc cache = cache ++ es :=
  loads_load (fun g d hg a ha => cfgInclude_eq (hfs g d hg a ha).1 (hfs g d hg a ha).2) (fun a ha => cfgInclude_eq (hf a ha).1 (hf a ha).2) h 201 hn cache

/-- **C143** (partial): the same of MIME files; an included file whose name begins with a separator is taken from there. -/
theorem C143_mime_partial (fs : List Byte → Option CfgDoc) (f : List Byte) (doc : CfgDoc) (n : Nat) (es cache : List CfgEntry) (h : Loads place fs n f doc es) (hn : n ≤ 201)
    (hf : ∀ a, some a ∈ doc.includes → Resolvable f a) (hfs : ∀ g d, fs g = some d → ∀ a, some a ∈ d.includes → Resolvable g a) :
    loadCfg mimeInclude fs 201 f doc cache = cache ++ es :=
  loads_load (fun g d hg a ha => mimeInclude_eq (hfs g d hg a ha)) (fun a ha => mimeInclude_eq (hf a ha)) h 201 hn cache

/-- **C143** (partial): the cache has the built-in entry and then those of all files that were found, those of the file found first first, so that (C140) a
file in an earlier directory overrides those of later ones. -/
theorem C143_cache_partial (fs : List Byte → Option CfgDoc) (env : CfgEnv) (installed : List (List Byte)) (load : List Byte → CfgDoc → List CfgEntry)
    (h : ∀ f d, (f, d) ∈ getConfigureOptions fs env installed (ascText "configure.xml") → ∃ n ≤ 201, Loads place fs n f d (load f d))
    (hfs : ∀ g d, fs g = some d → ∀ a, some a ∈ d.includes → Resolvable g a ∧ a.head? ≠ some 47) :
    acquireConfigureCache fs env installed =
      ⟨some (ascText "NAME"), ascText "[built-in]", some (ascText "ImageMagick"), false⟩ :: (getConfigureOptions fs env installed (ascText "configure.xml")).flatMap fun f => load f.1 f.2 := by
  have hread : ∀ f d, (f, d) ∈ getConfigureOptions fs env installed (ascText "configure.xml") → fs f = some d := by
    intro f d hf
    obtain ⟨x, _, hx⟩ := List.mem_filterMap.1 hf
    simp only [Option.map_eq_some_iff, Prod.mk.injEq] at hx
    obtain ⟨y, h1, h2, h3⟩ := hx
    rw [← h2, ← h3]; exact h1
  unfold acquireConfigureCache
  have key : ∀ (l : List (List Byte × CfgDoc)) (cache : List CfgEntry), (∀ f d, (f, d) ∈ l → fs f = some d ∧ ∃ n ≤ 201, Loads place fs n f d (load f d)) →
      l.foldl (fun cache f => loadCfg cfgInclude fs 201 f.1 f.2 cache) cache = cache ++ l.flatMap fun f => load f.1 f.2 := by
    intro l
    induction l with
    | nil => intro cache _; simp
    | cons x l ih =>
      intro cache hl
      obtain ⟨hx, n, hn, hlo⟩ := hl x.1 x.2 (List.mem_cons_self ..)
      rw [List.foldl_cons, C143_configure_partial fs x.1 x.2 n _ cache hlo hn (hfs _ _ hx) hfs, ih _ fun f d hf => hl f d (List.mem_cons_of_mem _ hf), List.flatMap_cons, List.append_assoc]
  rw [key _ _ fun f d hf => ⟨hread f d hf, h f d hf⟩]
  rfl

/-- Two files, the second included by the first. -/
def twoFiles (p : List Byte) : Option CfgDoc := if p = ascText "/etc/b.xml" then some ⟨[], [⟨some (ascText "inner"), [], none, false⟩]⟩ else none

example (cache : List CfgEntry) : loadCfg cfgInclude twoFiles 201 (ascText "/etc/a.xml") ⟨[some (ascText "b.xml")], [⟨some (ascText "outer"), [], none, false⟩]⟩ cache =
    cache ++ [⟨some (ascText "inner"), ascText "/etc/b.xml", none, false⟩, ⟨some (ascText "outer"), ascText "/etc/a.xml", none, false⟩] := by
  refine C143_configure_partial twoFiles _ _ 1 _ cache (.file (es := [_]) (.found (es := [_]) (es' := []) (d := ⟨[], [⟨some (ascText "inner"), [], none, false⟩]⟩) ?_ (.file (es := []) .done) .done)) (by decide) ?_ ?_
  · rw [show place (ascText "/etc/a.xml") (ascText "b.xml") = ascText "/etc/b.xml" from by decide +kernel, twoFiles, if_pos rfl]
  · intro a ha
    have : a = ascText "b.xml" := by simpa using ha
    subst this
    exact ⟨⟨.inl (by decide +kernel), by decide +kernel⟩, by decide +kernel⟩
  · intro g d hg a ha
    unfold twoFiles at hg
    split at hg
    · cases hg; simp at ha
    · cases hg

/-- **C143** (violated): `LoadConfigureCache` looks for an included file whose name begins with a separator beside the file that includes it, though
`LoadMimeCache` does not: whatever the names are. -/
theorem C143_absolute_violated (dir a : List Byte) (name : List Byte) (hd : dir ≠ []) (hn : (47 : Byte) ∉ name) (hl : dir.length + a.length + 2 ≤ 4095) :
    cfgInclude (dir ++ 47 :: name) (47 :: a) = dir ++ 47 :: 47 :: a ∧ mimeInclude (dir ++ 47 :: name) (47 :: a) = 47 :: a := by
  have hp : ∀ x ∈ name.reverse, (x != asc '/') = true := fun x hx => bne_iff_ne.2 fun e => hn ((show x = 47 from e) ▸ List.mem_reverse.1 hx)
  have hh : cfgHead (dir ++ 47 :: name) = dir := by
    rw [cfgHead, List.reverse_append, List.reverse_cons, List.append_assoc, List.dropWhile_append_of_pos hp]
    have e : ([47] ++ dir.reverse).dropWhile (· != asc '/') = [47] ++ dir.reverse := rfl
    rw [e]
    simp
  constructor
  · unfold cfgInclude
    simp only [hh]
    rw [if_pos hd, cut_twice]
    · simp; rfl
    · simp; omega
  · unfold mimeInclude
    simp only [hh]
    rw [if_pos (show (47 :: a : List Byte).head? = some (asc '/') from rfl), pathCut, List.take_of_length_le (by simp; omega)]

/-- **C143** (violated): a file in the root directory includes files of the working directory. -/
theorem C143_root_violated (name a : List Byte) (hn : (47 : Byte) ∉ name) (ha : a.head? ≠ some 47) (hl : a.length ≤ 4095) :
    cfgInclude (47 :: name) a = a ∧ mimeInclude (47 :: name) a = a ∧ place (47 :: name) a = 47 :: a := by
  have hp : ∀ x ∈ name.reverse, (x != asc '/') = true := fun x hx => bne_iff_ne.2 fun e => hn ((show x = 47 from e) ▸ List.mem_reverse.1 hx)
  have e0 : (47 :: name).reverse.dropWhile (· != asc '/') = [47] := by
    rw [List.reverse_cons, List.dropWhile_append_of_pos hp]; rfl
  have hh : cfgHead (47 :: name) = [] := by rw [cfgHead, e0]; rfl
  refine ⟨?_, ?_, ?_⟩
  · unfold cfgInclude
    simp only [hh]
    exact List.take_of_length_le hl
  · unfold mimeInclude
    simp only [hh]
    rw [if_neg (show ¬ a.head? = some (asc '/') from ha)]
    exact List.take_of_length_le hl
  · rw [place, if_neg ha]
    have : (47 :: name).reverse.dropWhile (· != (47 : Byte)) = [47] := e0
    rw [this]
    rfl

end Wizard.Props

import Verif.Spec.Expand
import Verif.Props.Option
import Verif.Props.Path
import Verif.Props.Glob
import Verif.Props.Locale
/-! Patterns on the command line. -/
namespace Wizard.Props
open Wizard Wizard.Spec Wizard.Spec.Opt Wizard.Spec.Path Wizard.Spec.Expand

/-- No mnemonic of a command begins like an argument that is commonly written. -/
theorem command_signs : ∀ fold, fold = asciiMap ∨ fold = cLocaleLower → ∀ c : Byte, c ≠ asc '-' → c ≠ asc '+' →
    ∀ o ∈ commandOptions, (o.mnemonic.map fold).head? ≠ some (fold c) := by
  intro fold hf c h1 h2 o ho
  have hm : ∀ o ∈ commandOptions, o.mnemonic.head? = some (asc '-') ∨ o.mnemonic.head? = some (asc '+') := by decide +kernel
  have hb : ∀ i : Fin 256, BitVec.ofFin (w := 8) i ≠ asc '-' → BitVec.ofFin (w := 8) i ≠ asc '+' →
      (asciiMap (BitVec.ofFin i) ≠ asciiMap (asc '-') ∧ asciiMap (BitVec.ofFin i) ≠ asciiMap (asc '+')) ∧
      (cLocaleLower (BitVec.ofFin i) ≠ cLocaleLower (asc '-') ∧ cLocaleLower (BitVec.ofFin i) ≠ cLocaleLower (asc '+')) := by decide +kernel
  have hc := hb c.toFin h1 h2
  rw [List.head?_map]
  rcases hm o ho with h | h <;> rw [h] <;> rcases hf with rfl | rfl <;> intro e <;> have e := Option.some.inj e
  · exact hc.1.1 e.symm
  · exact hc.2.1 e.symm
  · exact hc.1.2 e.symm
  · exact hc.2.2 e.symm

/-- An argument that is commonly written is not found among the commands. -/
theorem common_unknown {fold : Byte → Byte} (hf : fold = asciiMap ∨ fold = cLocaleLower) {token a : List Byte} (ht : token.length = 4096) (ha : Common a) :
    parseOption fold commandOptions false token a = .ok none := by
  obtain ⟨sign, c, w, rfl, hs, h1, h2, h3⟩ := ha.form
  have hl := ha.short
  have hent : ∀ u, entry fold commandOptions (c :: u) = none := by
    intro u
    unfold entry
    rw [List.find?_eq_none]
    intro o ho e
    have e := of_decide_eq_true e
    exact command_signs fold hf c h1 h2 o ho (by rw [← e]; rfl)
  have hn : named fold commandOptions (c :: w) = none := by
    unfold named
    rw [hent]
    show (if _ then entry fold commandOptions (c :: _) else none) = none
    rw [hent]
    split <;> rfl
  have hform : Item.Form ⟨[], sign, false, c :: w, [], 0⟩ :=
    ⟨fun c hc => absurd hc List.not_mem_nil, hs,
      fun x hx => let h := ha.plain x (List.mem_append_right _ hx); ⟨h.1, h.2.1, h.2.2.1⟩,
      ⟨c, w, rfl, h3, fun _ _ => ⟨h1, h2⟩⟩, by rw [List.length_append] at hl; show (c :: w).length < 4096; omega,
      ⟨fun c hc => absurd hc List.not_mem_nil, fun c hc => by cases hc⟩⟩
  have := (C51_unknown fold (foldOK_of hf) commandOptions (tables_no_nul _ (List.mem_cons_self ..)) token _ hform ht hn
    (Or.inl (by rw [List.length_append] at hl; show (c :: w).length < 2049; omega)) [] (Or.inl rfl)).1 false
  have e : Item.text ⟨[], sign, false, c :: w, [], 0⟩ ++ [] = sign ++ c :: w := by simp [Opt.Item.text]
  rwa [e] at this

theorem globByte_iff (c : Byte) : globByte c = true ↔ c ∈ [asc '*', asc '?', asc '{', asc '}', asc '[', asc ']'] := by
  simp only [globByte, Bool.or_eq_true, beq_iff_eq, List.mem_cons, List.not_mem_nil, or_false, or_assoc]

/-- The loop over arguments that are commonly written. -/
theorem expand_loop {env : ExpandEnv} (hs : Sane env) (f : List Byte → List (List Byte)) : ∀ (args : List (List Byte)) (fuel : Nat), args.length < fuel →
    (∀ a ∈ args, Common a ∧ expandArgument env a = .ok (f a)) → expandLoop env fuel args = .ok (args.flatMap f) := by
  intro args
  induction args with
  | nil =>
    intro fuel hfuel _
    obtain ⟨k, rfl⟩ : ∃ k, fuel = k + 1 := ⟨fuel - 1, by simp at hfuel; omega⟩
    rfl
  | cons a args ih =>
    intro fuel hfuel h
    rw [List.length_cons] at hfuel
    obtain ⟨k, rfl⟩ : ∃ k, fuel = k + 1 := ⟨fuel - 1, by omega⟩
    obtain ⟨h1, h2⟩ := h a (List.mem_cons_self ..)
    rw [expandLoop, common_unknown hs.fold hs.token h1, Res.ok_bind]
    simp only [Nat.lt_irrefl, if_false]
    rw [h2, Res.ok_bind, ih k (by omega) (fun x hx => h x (List.mem_cons_of_mem _ hx)), Res.ok_bind, List.flatMap_cons]

/-- The parts of an argument. -/
theorem argument_parts {env : ExpandEnv} (hs : Sane env) {h t : List Byte} (hne : under h t ≠ []) (h0 : ∀ c ∈ under h t, c ≠ 0 ∧ c ≠ asc ':') (hl : (under h t).length < 2049)
    (hb : t.getLast? ≠ some (asc ']')) (ht : asc '/' ∉ t) (htn : t ≠ []) :
    Gives env.found (under h t) .head env.memory h ∧ Gives env.found (under h t) .tail env.memory t := by
  have hw : wizardPathExtent = 4096 := rfl
  have hd : Drive env.found (under h t) [] (under h t) := .inl ⟨rfl, rfl, .inl (fun hm => (h0 _ hm).2 rfl)⟩
  have hsub : Subnode (under h t) (under h t) [] := by
    refine .inl ⟨rfl, rfl, fun ⟨a, u, e⟩ => hb ?_⟩
    have e2 : (under h t).getLast? = some (asc ']') := by rw [e, List.getLast?_concat]
    rw [← e2]
    unfold under
    split
    · rfl
    · cases t with
      | nil => exact absurd rfl htn
      | cons x xs => simp [List.getLast?_append, List.getLast?_cons]
  have key := C57_head_tail_partial env.found (under h t) env.memory [] _ _ [] hne (fun hm => (h0 _ hm).1 rfl) (by rw [hw]; omega)
    (by rw [hw, hs.memory]; omega) hd (.inl rfl) hsub
  by_cases hh : h = []
  · subst hh
    exact key.2 (by unfold under; rw [if_pos rfl]; exact ht)
  · exact key.1 h t (by unfold under; rw [if_neg hh]) ht

/-- Arguments that are no patterns stay. -/
theorem expand_literal {env : ExpandEnv} (hs : Sane env) {a : List Byte} (hc : Common a) (hl : Literal a) : expandArgument env a = .ok [a] := by
  unfold expandArgument
  by_cases hq : a.head? = some (asc '"') ∨ a.head? = some (asc '\'')
  · rw [if_pos hq]
  · rw [if_neg hq]
    have hp : ∀ c ∈ a, c ∉ [asc '*', asc '?', asc '{', asc '}', asc '[', asc ']'] := by
      rcases hl with h | h | h
      · exact absurd (Or.inl h) hq
      · exact absurd (Or.inr h) hq
      · exact h
    have hne : a ≠ [] := by
      obtain ⟨s, c, w, rfl, _⟩ := hc.form
      simp
    have hlen := hc.short
    have hw : wizardPathExtent = 4096 := rfl
    obtain ⟨hd, hsub⟩ := plain env.found a (fun hm => (hc.plain _ hm).2.2.2 rfl) (fun hm => hp _ hm (by simp))
    have key := C57_head_tail_partial env.found a env.memory [] _ _ [] hne (fun hm => (hc.plain _ hm).2.2.1 rfl) (by rw [hw]; omega)
      (by rw [hw, hs.memory]; omega) hd (.inl rfl) hsub
    have : ∃ t, (∀ c ∈ t, c ∈ a) ∧ Gives env.found a .tail env.memory t := by
      rcases last_split isSeparator _ a (Nat.le_refl _) with h | ⟨x, c, b, hx, hcs, hb⟩
      · exact ⟨a, fun _ h => h, (key.2 (fun hm => by have := h _ hm; revert this; decide)).2⟩
      · have : c = asc '/' := by unfold isSeparator at hcs; simpa using hcs
        subst this
        exact ⟨b, fun y hy => by rw [hx]; exact List.mem_append_right _ (List.mem_cons_of_mem _ hy),
          (key.1 x b hx (fun hm => by have := hb _ hm; revert this; decide)).2⟩
    obtain ⟨t, ht, m, hm1, hm2, _⟩ := this
    rw [hm1, Res.ok_bind, hm2]
    have hg : isGlob env t = false := by
      unfold isGlob
      split
      · rfl
      · rw [List.any_eq_false]
        intro c hct e
        exact hp c (ht c hct) ((globByte_iff c).mp e)
    rw [if_pos hg]

/-- Names whose letter case aside order is `LocaleCompare`'s. -/
noncomputable def before (fold : Byte → Byte) (x y : List Byte) : Bool := by
  classical exact decide (¬ DictLT (y.map fold) (x.map fold))

theorem before_iff (fold : Byte → Byte) (x y : List Byte) : before fold x y = true ↔ ¬ DictLT (y.map fold) (x.map fold) := by
  unfold before
  exact decide_eq_true_iff

theorem fileCompare_before {env : ExpandEnv} (hf : FoldOK env.fold) {x y : List Byte} (hx : (0 : Byte) ∉ x) (hy : (0 : Byte) ∉ y) :
    fileCompare env x y = before env.fold x y := by
  obtain ⟨r, h1, h2, h3, h4⟩ := C06_compare_spec env.fold hf x y hx hy
  unfold fileCompare
  rw [h1, Bool.eq_iff_iff, before_iff, ← h3]
  simp only [decide_eq_true_eq]
  omega

/-- The sorted list has the same names, in order. -/
theorem sorted_files {env : ExpandEnv} (hf : FoldOK env.fold) (l : List (List Byte)) (h0 : ∀ n ∈ l, (0 : Byte) ∉ n) :
    (l.mergeSort (fileCompare env)).Perm l ∧ (l.mergeSort (fileCompare env)).Pairwise (fun x y => ¬ DictLT (y.map env.fold) (x.map env.fold)) := by
  refine ⟨List.mergeSort_perm .., ?_⟩
  have e : l.mergeSort (fileCompare env) = l.mergeSort (before env.fold) := by
    have := List.map_mergeSort (r := fileCompare env) (s := before env.fold) (f := id) (l := l)
      (fun a ha b hb => fileCompare_before hf (h0 a ha) (h0 b hb))
    simpa using this
  rw [e]
  have := List.pairwise_mergeSort (le := before env.fold) (by
    intro a b c h1 h2
    rw [before_iff] at h1 h2 ⊢
    intro h3
    rcases dict_total (a.map env.fold) (b.map env.fold) with h | h | h
    · exact h2 (dict_trans h3 h)
    · rw [h] at h3; exact h2 h3
    · exact h1 h) (by
    intro a b
    rw [Bool.or_eq_true, before_iff, before_iff]
    by_cases h : DictLT (b.map env.fold) (a.map env.fold)
    · exact Or.inr (dict_asymm h)
    · exact Or.inl h) l
  exact this.imp (fun h => (before_iff ..).mp h)

open Classical in
/-- Which names are listed. -/
theorem list_entries {env : ExpandEnv} {ps : List Elem} (hwf : ∀ e ∈ ps, e.WF) (hne : ps ≠ []) : ∀ names : List (List Byte), (∀ n ∈ names, (0 : Byte) ∉ n) →
    listEntries env (patternText ps) names =
      .ok ((names.filter (fun n => decide (n.head? ≠ some (asc '.') ∧ (env.directory n = true ∨ Matches false ps n)))).map (listedAs env)) := by
  intro names
  induction names with
  | nil => intro _; rfl
  | cons n names ih =>
    intro h0
    have ih := ih (fun x hx => h0 x (List.mem_cons_of_mem _ hx))
    rw [listEntries]
    by_cases hd : n.head? = some (asc '.')
    · rw [if_pos hd, ih, List.filter_cons_of_neg (by simp [hd])]
    · rw [if_neg hd]
      obtain ⟨b, hb, hb2⟩ : ∃ b, listedName env (patternText ps) n = .ok b ∧ (b = true ↔ env.directory n = true ∨ Matches false ps n) := by
        unfold listedName
        cases hdir : env.directory n with
        | true => exact ⟨true, by rw [if_pos rfl], by simp⟩
        | false =>
          obtain ⟨b, h1, h2⟩ := C10_glob false ps n hwf (h0 n (List.mem_cons_self ..)) hne
          exact ⟨b, by rw [if_neg (by simp)]; exact h1, by rw [h2]; simp⟩
      rw [hb, Res.ok_bind, ih, Res.ok_bind]
      cases b with
      | true =>
        have := hb2.mp rfl
        rw [if_pos rfl, List.filter_cons_of_pos (by simp [hd, this]), List.map_cons]
      | false =>
        have : ¬ (env.directory n = true ∨ Matches false ps n) := fun h => by have := hb2.mpr h; cases this
        rw [if_neg (by simp), List.filter_cons_of_neg (by simp only [decide_eq_true_eq]; exact fun h => this h.2)]

theorem cut_short {s : List Byte} (h : s.length < 4096) : cutPath s = s := by
  unfold cutPath
  exact List.take_of_length_le (by unfold pathExtent; omega)

theorem under_length (h n : List Byte) : (under h n).length ≤ h.length + 1 + n.length := by
  unfold under
  split
  · omega
  · simp only [List.length_append, List.length_cons]; omega

theorem name_length (h n : List Byte) : n.length ≤ (under h n).length := by
  unfold under
  split
  · omega
  · simp only [List.length_append, List.length_cons]; omega

theorem under_append (h n t : List Byte) : under h (n ++ t) = under h n ++ t := by
  unfold under
  split
  · rfl
  · simp

/-- Which of the listed names go on. -/
theorem transfer_spec {env : ExpandEnv} {h : List Byte} (files : List (List Byte)) (hl : ∀ n ∈ files, (under h n).length < 4096) :
    transferFiles env h files = (files.filter (fun n => env.regular (under h n))).map (under h) := by
  unfold transferFiles
  have e : files.map (fun file => cutPath (h ++ (if h = [] then [] else [asc '/']) ++ file)) = files.map (under h) := by
    apply List.map_congr_left
    intro n hn
    have : h ++ (if h = [] then [] else [asc '/']) ++ n = under h n := by
      unfold under
      split
      · rename_i hh; rw [hh]; rfl
      · simp
    rw [this, cut_short (hl n hn)]
  rw [e, List.filter_map]
  rfl

theorem listed_files {env : ExpandEnv} (hs : Sane env) {h : List Byte} : ∀ l : List (List Byte), (∀ n ∈ l, (under h n).length < 4095) →
    (l.map (listedAs env)).filter (fun n => env.regular (under h n)) = l.filter (fun n => !env.directory n && env.regular (under h n)) := by
  intro l
  induction l with
  | nil => intro _; rfl
  | cons n l ih =>
    intro hl
    have hn := hl n (List.mem_cons_self ..)
    have := name_length h n
    rw [List.map_cons, List.filter_cons, List.filter_cons, ih (fun x hx => hl x (List.mem_cons_of_mem _ hx))]
    cases hd : env.directory n with
    | true =>
      have e : listedAs env n = n ++ [asc '/'] := by
        unfold listedAs
        rw [if_pos hd, cut_short (by rw [List.length_append]; show n.length + 1 < 4096; omega)]
      rw [e, under_append, hs.slash]
      simp
    | false =>
      have e : listedAs env n = n := by unfold listedAs; rw [if_neg (by simp [hd])]
      rw [e]
      simp

theorem pattern_some {ps : List Elem} (h : ∃ c ∈ patternText ps, c ∈ [asc '*', asc '?', asc '{', asc '}', asc '[', asc ']']) : ps ≠ [] ∧ patternText ps ≠ [] := by
  obtain ⟨c, hc, _⟩ := h
  refine ⟨?_, fun e => by rw [e] at hc; cases hc⟩
  rintro rfl
  cases hc

/-- What an argument becomes whose name is a pattern, before it is asked whether it fits anything. -/
theorem expand_given {env : ExpandEnv} {h : List Byte} {ps : List Elem} {names : List (List Byte)} {a : List Byte}
    (hg1 : Gives env.found a .head env.memory h) (hg2 : Gives env.found a .tail env.memory (patternText ps)) (hwf : ∀ e ∈ ps, e.WF)
    (hsp : ∃ c ∈ patternText ps, c ∈ [asc '*', asc '?', asc '{', asc '}', asc '[', asc ']'])
    (hq : a.head? ≠ some (asc '"') ∧ a.head? ≠ some (asc '\'')) (htil : h.head? ≠ some (asc '~')) (habs : env.regular (patternText ps) = false)
    (hlist : env.names (if h = [] then env.cwd else h) = some names) (hnul : ∀ n ∈ names, (0 : Byte) ∉ n) :
    ∃ files : List (List Byte), listEntries env (patternText ps) names = .ok files ∧
      expandArgument env a = .ok (if (files.mergeSort (fileCompare env)).all env.directory then [a] else transferFiles env h (files.mergeSort (fileCompare env))) := by
  classical
  obtain ⟨hne, htn⟩ := pattern_some hsp
  obtain ⟨m1, g1, t1, _⟩ := hg1
  obtain ⟨m2, g2, t2, _⟩ := hg2
  have hent := list_entries (env := env) hwf hne names hnul
  refine ⟨_, hent, ?_⟩
  have hg : isGlob env (patternText ps) = true := by
    unfold isGlob
    rw [if_neg (by rw [habs]; simp), List.any_eq_true]
    obtain ⟨c, h1, h2⟩ := hsp
    exact ⟨c, h1, (globByte_iff c).mpr h2⟩
  have hx : expandFilename env h = h := by
    cases h with
    | nil => rfl
    | cons c r =>
      have hc : c ≠ asc '~' := fun e => htil (by rw [e]; rfl)
      unfold expandFilename
      exact if_pos hc
  unfold expandArgument
  rw [if_neg (not_or.mpr hq), g2, Res.ok_bind, t2, if_neg (by rw [hg]; simp), g1, Res.ok_bind, t1, hx]
  unfold listFiles
  simp only [hlist, hent, Res.ok_bind]
  split <;> rfl

theorem expand_pattern {env : ExpandEnv} (hs : Sane env) {h : List Byte} {ps : List Elem} {names : List (List Byte)} {a : List Byte}
    (hp : Pattern env h ps names a) (hc : Common a) :
    ∃ files : List (List Byte), listEntries env (patternText ps) names = .ok files ∧
      expandArgument env a = .ok (if (files.mergeSort (fileCompare env)).all env.directory then [a] else transferFiles env h (files.mergeSort (fileCompare env))) := by
  obtain ⟨hne, htn⟩ := pattern_some hp.special
  have ht := hp.text
  have hun : a ≠ [] := by
    obtain ⟨s, c, w, rfl, _⟩ := hc.form
    simp
  obtain ⟨g1, g2⟩ := argument_parts hs (h := h) (t := patternText ps) (by rw [← ht]; exact hun)
    (by rw [← ht]; exact fun c hx => let q := hc.plain c hx; ⟨q.2.2.1, q.2.2.2⟩) (by rw [← ht]; exact hc.short) hp.last hp.one htn
  rw [← ht] at g1 g2
  exact expand_given g1 g2 hp.wf hp.special hp.quote hp.tilde hp.absent hp.listing hp.nul

/-- A pattern becomes what it stands for. -/
theorem expand_files {env : ExpandEnv} (hs : Sane env) {h : List Byte} {ps : List Elem} {names : List (List Byte)} {a : List Byte}
    (hp : Pattern env h ps names a) (hc : Common a) (hcl : Clear env h ps names) : ∃ r, expandArgument env a = .ok r ∧ Expands env a r := by
  classical
  obtain ⟨files, hfl, he⟩ := expand_pattern hs hp hc
  obtain ⟨hne, htn⟩ := pattern_some hp.special
  have hfl2 := list_entries (env := env) hp.wf hne names hp.nul
  rw [hfl] at hfl2
  have hfl2 := Res.ok.inj hfl2
  have hroom : ∀ n ∈ names, n.length < 4095 := fun n hn => Nat.lt_of_le_of_lt (name_length h n) (hp.room n hn)
  have hmem : ∀ x, x ∈ files.mergeSort (fileCompare env) ↔ ∃ n ∈ names, (n.head? ≠ some (asc '.') ∧ (env.directory n = true ∨ Matches false ps n)) ∧ listedAs env n = x := by
    intro x
    rw [List.mem_mergeSort, hfl2, List.mem_map]
    constructor
    · rintro ⟨n, h1, h2⟩
      rw [List.mem_filter] at h1
      exact ⟨n, h1.1, of_decide_eq_true h1.2, h2⟩
    · rintro ⟨n, h1, h2, h3⟩
      exact ⟨n, List.mem_filter.mpr ⟨h1, decide_eq_true h2⟩, h3⟩
  have hdirs : ∀ n ∈ names, env.directory n = true → listedAs env n = n ++ [asc '/'] := by
    intro n hn hd
    have := hroom n hn
    unfold listedAs
    rw [if_pos hd, cut_short (by rw [List.length_append]; show n.length + 1 < 4096; omega)]
  have hplain : ∀ n, env.directory n = false → listedAs env n = n := by
    intro n hd
    unfold listedAs
    rw [if_neg (by simp [hd])]
  by_cases hnone : ∀ n ∈ names, Fits ps n → env.regular (under h n) = false
  · refine ⟨[a], ?_, .none hp hnone⟩
    rw [he, if_pos]
    rw [List.all_eq_true]
    intro x hx
    obtain ⟨n, hn, ⟨h1, h2⟩, h3⟩ := (hmem x).mp hx
    have hd : env.directory n = true := h2.elim id (fun h2 => hcl.2 hnone n hn ⟨h1, h2⟩)
    rw [← h3, hdirs n hn hd]
    exact hs.again n hd
  · have ⟨n, hn, hfit, hreg⟩ : ∃ n ∈ names, Fits ps n ∧ env.regular (under h n) = true := by
      apply Classical.byContradiction
      intro hno
      apply hnone
      intro n hn hf
      cases hr : env.regular (under h n) with
      | false => rfl
      | true => exact absurd ⟨n, hn, hf, hr⟩ hno
    have hd := hcl.1 n hn hfit hreg
    have hin : n ∈ files.mergeSort (fileCompare env) := (hmem n).mpr ⟨n, hn, ⟨hfit.1, .inr hfit.2⟩, hplain n hd⟩
    have hlen : ∀ x ∈ files.mergeSort (fileCompare env), (under h x).length < 4096 := by
      intro x hx
      obtain ⟨y, hy, _, h3⟩ := (hmem x).mp hx
      have hr := hp.room y hy
      rw [← h3]
      cases hyd : env.directory y with
      | false => rw [hplain y hyd]; omega
      | true => rw [hdirs y hy hyd, under_append, List.length_append]; show (under h y).length + 1 < 4096; omega
    have hnul : ∀ x ∈ files, (0 : Byte) ∉ x := by
      intro x hx
      obtain ⟨y, hy, _, h3⟩ := (hmem x).mp (List.mem_mergeSort.mpr hx)
      rw [← h3]
      cases hyd : env.directory y with
      | false => rw [hplain y hyd]; exact hp.nul y hy
      | true =>
        rw [hdirs y hy hyd, List.mem_append]
        rintro (h | h)
        · exact hp.nul y hy h
        · revert h; decide
    obtain ⟨hperm, hsort⟩ := sorted_files (foldOK_of hs.fold) files hnul
    refine ⟨_, he, ?_⟩
    rw [if_neg (by rw [Bool.not_eq_true, List.all_eq_false]; exact ⟨n, hin, by simp [hd]⟩), transfer_spec _ hlen]
    have hkept : ∀ x, x ∈ (files.mergeSort (fileCompare env)).filter (fun n => env.regular (under h n)) ↔ x ∈ names ∧ Fits ps x ∧ env.regular (under h x) = true := by
      intro x
      rw [List.mem_filter]
      constructor
      · rintro ⟨h1, h2⟩
        obtain ⟨y, hy, ⟨h3, h4⟩, h5⟩ := (hmem x).mp h1
        cases hyd : env.directory y with
        | true =>
          rw [hdirs y hy hyd] at h5
          rw [← h5, under_append, hs.slash] at h2
          cases h2
        | false =>
          rw [hplain y hyd] at h5
          subst h5
          exact ⟨hy, ⟨h3, h4.elim (fun h => by rw [hyd] at h; cases h) id⟩, h2⟩
      · rintro ⟨h1, h2, h3⟩
        exact ⟨(hmem x).mpr ⟨x, h1, ⟨h2.1, .inr h2.2⟩, hplain x (hcl.1 x h1 h2 h3)⟩, h3⟩
    refine .files hp ?_ hkept ?_ ?_
    · intro e
      have : n ∈ ([] : List (List Byte)) := by rw [← e]; exact (hkept n).mpr ⟨hn, hfit, hreg⟩
      cases this
    · exact List.Pairwise.sublist List.filter_sublist hsort
    · intro hnd
      have hp2 : ((files.mergeSort (fileCompare env)).filter (fun n => env.regular (under h n))).Perm (files.filter (fun n => env.regular (under h n))) :=
        hperm.filter _
      rw [hp2.nodup_iff, hfl2, listed_files hs _ (fun n hn => hp.room n (List.mem_filter.mp hn).1)]
      exact ((hnd.sublist List.filter_sublist).sublist List.filter_sublist)

/-- **C175** (partial) For every command line and every file system: each argument is replaced on its own, in place.  An argument that
begins with a quote or has nothing in it that makes it a pattern stays.  A pattern becomes the regular files of its directory that match
it and are not hidden, in dictionary order but for letter case, and stays if there are none.  Missing: arguments with colons, spaces or
commas, patterns in the root directory (`C175_root_violated`) and patterns that end with a bracket (`C175_bracket_violated`), patterns that
are themselves names of files (`C175_exists_violated`), names that clash with directories of the working directory
(`C175_hidden_violated`, `C175_vanishes_violated`), and what becomes of parameters of options (`C175_parameters_violated`). -/
theorem C175_expand_partial (env : ExpandEnv) (hs : Sane env) (args : List (List Byte))
    (h : ∀ a ∈ args, Common a ∧ (Literal a ∨ ∃ d ps names, Pattern env d ps names a ∧ Clear env d ps names)) :
    ∃ f : List Byte → List (List Byte), (∀ a ∈ args, Expands env a (f a)) ∧ expandFilenames env args = .ok (args.flatMap f) := by
  classical
  have key : ∀ a ∈ args, ∃ r, expandArgument env a = .ok r ∧ Expands env a r := by
    intro a ha
    obtain ⟨hc, hl | ⟨d, ps, names, hp, hcl⟩⟩ := h a ha
    · exact ⟨[a], expand_literal hs hc hl, .stays hl⟩
    · exact expand_files hs hp hc hcl
  have : ∀ a, ∃ r, a ∈ args → expandArgument env a = .ok r ∧ Expands env a r := by
    intro a
    by_cases ha : a ∈ args
    · obtain ⟨r, hr⟩ := key a ha
      exact ⟨r, fun _ => hr⟩
    · exact ⟨[], fun h => absurd h ha⟩
  obtain ⟨f, hf⟩ := Classical.axiomOfChoice this
  refine ⟨f, fun a ha => (hf a ha).2, ?_⟩
  exact expand_loop hs f args _ (Nat.lt_succ_self _) (fun a ha => ⟨(h a ha).1, (hf a ha).1⟩)

/-! ### What goes wrong -/

theorem under_inj {h x y : List Byte} (e : under h x = under h y) : x = y := by
  unfold under at e
  split at e
  · exact e
  · exact List.cons.inj (List.append_cancel_left e) |>.2

theorem expand_one {env : ExpandEnv} (hs : Sane env) {a : List Byte} (hc : Common a) {r : List (List Byte)} (h : expandArgument env a = .ok r) :
    expandFilenames env [a] = .ok r := by
  have := expand_loop hs (fun _ => r) [a] 2 (by simp) (by simpa using ⟨hc, h⟩)
  rw [expandFilenames, show [a].length + 1 = 2 from rfl, this]
  simp

/-- If a name fits that is no directory, the files go on. -/
theorem expand_goes {env : ExpandEnv} {ps : List Elem} {names files : List (List Byte)} (hwf : ∀ e ∈ ps, e.WF) (hne : ps ≠ []) (hnul : ∀ n ∈ names, (0 : Byte) ∉ n)
    (hf : listEntries env (patternText ps) names = .ok files) {n : List Byte} (hn : n ∈ names) (hfit : Fits ps n) (hd : env.directory n = false) :
    (files.mergeSort (fileCompare env)).all env.directory = false ∧ n ∈ files.mergeSort (fileCompare env) := by
  classical
  have h2 := list_entries (env := env) hwf hne names hnul
  rw [hf] at h2
  have h2 := Res.ok.inj h2
  have hin : n ∈ files.mergeSort (fileCompare env) := by
    rw [List.mem_mergeSort, h2, List.mem_map]
    exact ⟨n, List.mem_filter.mpr ⟨hn, decide_eq_true ⟨hfit.1, .inr hfit.2⟩⟩, by unfold listedAs; rw [if_neg (by simp [hd])]⟩
  exact ⟨by rw [List.all_eq_false]; exact ⟨n, hin, by simp [hd]⟩, hin⟩

theorem listed_from {env : ExpandEnv} {ps : List Elem} {names files : List (List Byte)} (hwf : ∀ e ∈ ps, e.WF) (hne : ps ≠ []) (hnul : ∀ n ∈ names, (0 : Byte) ∉ n)
    (hf : listEntries env (patternText ps) names = .ok files) {x : List Byte} (hx : x ∈ files.mergeSort (fileCompare env)) :
    ∃ n ∈ names, n.head? ≠ some (asc '.') ∧ (env.directory n = true ∨ Matches false ps n) ∧ listedAs env n = x := by
  classical
  have h2 := list_entries (env := env) hwf hne names hnul
  rw [hf] at h2
  have h2 := Res.ok.inj h2
  rw [List.mem_mergeSort, h2, List.mem_map] at hx
  obtain ⟨n, h3, h4⟩ := hx
  rw [List.mem_filter] at h3
  have := of_decide_eq_true h3.2
  exact ⟨n, h3.1, this.1, this.2, h4⟩

/-- The listed name, and whether it is a directory. -/
theorem listedAs_cases {env : ExpandEnv} {h n : List Byte} (hr : (under h n).length < 4095) :
    (env.directory n = true ∧ listedAs env n = n ++ [asc '/']) ∨ (env.directory n = false ∧ listedAs env n = n) := by
  have := name_length h n
  unfold listedAs
  cases hd : env.directory n with
  | true => exact .inl ⟨rfl, by rw [if_pos rfl, cut_short (by rw [List.length_append]; show n.length + 1 < 4096; omega)]⟩
  | false => exact .inr ⟨rfl, by rw [if_neg (by simp)]⟩

theorem listed_short {env : ExpandEnv} {h : List Byte} {ps : List Elem} {names files : List (List Byte)} (hwf : ∀ e ∈ ps, e.WF) (hne : ps ≠ []) (hnul : ∀ n ∈ names, (0 : Byte) ∉ n)
    (hf : listEntries env (patternText ps) names = .ok files) (hroom : ∀ n ∈ names, (under h n).length < 4095) :
    ∀ x ∈ files.mergeSort (fileCompare env), (under h x).length < 4096 := by
  intro x hx
  obtain ⟨n, hn, _, _, e⟩ := listed_from hwf hne hnul hf hx
  have := hroom n hn
  rcases listedAs_cases (env := env) this with ⟨_, e2⟩ | ⟨_, e2⟩ <;> rw [← e, e2]
  · rw [under_append, List.length_append]; show (under h n).length + 1 < 4096; omega
  · omega

/-- **C175** (violated) Parameters of options are expanded too, although the code says they are not: the number of parameters of an
option is never found (`C51_command_violated`).  For every option, if its parameter is a pattern that a file fits, the parameter is
replaced by the files: a key or a passphrase given as `-key` with a `*` or `?` in it is lost. -/
theorem C175_parameters_violated (env : ExpandEnv) (hs : Sane env) (o : OptionInfo) (ho : o ∈ commandOptions)
    (h : List Byte) (ps : List Elem) (names : List (List Byte)) (a : List Byte) (hc : Common a) (hp : Pattern env h ps names a) (hcl : Clear env h ps names)
    (n : List Byte) (hn : n ∈ names) (hfit : Fits ps n) (hreg : env.regular (under h n) = true) :
    ∃ files, expandFilenames env [o.mnemonic, a] = .ok (o.mnemonic :: files) ∧ under h n ∈ files ∧ (env.regular a = false → a ∉ files) := by
  have hco : Common o.mnemonic ∧ Literal o.mnemonic := by
    have key : ∀ o ∈ commandOptions, (o.mnemonic.head? = some (asc '-') ∨ o.mnemonic.head? = some (asc '+')) ∧ 2 ≤ o.mnemonic.length ∧
        ((o.mnemonic.drop 1).head? ≠ some (asc '-') ∧ (o.mnemonic.drop 1).head? ≠ some (asc '+') ∧ (o.mnemonic.drop 1).head? ≠ some (asc '!')) ∧
        (∀ c ∈ o.mnemonic, isSpaceC c = false ∧ c ≠ asc ',' ∧ c ≠ 0 ∧ c ≠ asc ':') ∧ o.mnemonic.length < 2049 ∧
        ∀ c ∈ o.mnemonic, c ∉ [asc '*', asc '?', asc '{', asc '}', asc '[', asc ']'] := by decide +kernel
    obtain ⟨k1, k2, k3, k4, k5, k6⟩ := key o ho
    refine ⟨⟨?_, k4, k5⟩, .inr (.inr k6)⟩
    match hm : o.mnemonic, k2 with
    | s :: c :: w, _ =>
      rw [hm] at k1 k3
      refine ⟨[s], c, w, rfl, .inr ?_, fun e => k3.1 (by rw [e]; rfl), fun e => k3.2.1 (by rw [e]; rfl), fun e => k3.2.2 (by rw [e]; rfl)⟩
      rcases k1 with k | k <;> have k := Option.some.inj k <;> rw [k]
      · exact .inl rfl
      · exact .inr rfl
  have e1 : expandArgument env o.mnemonic = .ok [o.mnemonic] := expand_literal hs hco.1 hco.2
  obtain ⟨files, hfl, e2⟩ := expand_pattern hs hp hc
  obtain ⟨hne, _⟩ := pattern_some hp.special
  have hd := hcl.1 n hn hfit hreg
  obtain ⟨g1, g2⟩ := expand_goes hp.wf hne hp.nul hfl hn hfit hd
  rw [g1, if_neg (by simp), transfer_spec _ (listed_short hp.wf hne hp.nul hfl hp.room)] at e2
  refine ⟨((files.mergeSort (fileCompare env)).filter (fun n => env.regular (under h n))).map (under h), ?_, ?_, ?_⟩
  · rw [expandFilenames]
    show expandLoop env 3 [o.mnemonic, a] = .ok ([o.mnemonic] ++ _)
    rw [expandLoop, common_unknown hs.fold hs.token hco.1, Res.ok_bind]
    simp only [Nat.lt_irrefl, if_false]
    rw [e1, Res.ok_bind, expandLoop, common_unknown hs.fold hs.token hc, Res.ok_bind]
    simp only [Nat.lt_irrefl, if_false]
    rw [e2, Res.ok_bind, expandLoop, Res.ok_bind, List.append_nil, Res.ok_bind]
  · exact List.mem_map.mpr ⟨n, List.mem_filter.mpr ⟨g2, hreg⟩, rfl⟩
  · intro hr hin
    obtain ⟨x, hx, hx2⟩ := List.mem_map.mp hin
    rw [← hx2] at hr
    have := (List.mem_filter.mp hx).2
    simp only [hr] at this
    cases this

/-- **C175** (violated) A pattern in the root directory stands for files of the working directory: if one of those fits, `/*` becomes
exactly what `*` does. -/
theorem C175_root_violated (env : ExpandEnv) (hs : Sane env) (ps : List Elem) (names : List (List Byte))
    (hc : Common (patternText ps)) (hcr : Common (asc '/' :: patternText ps)) (hp : Pattern env [] ps names (patternText ps))
    (n : List Byte) (hn : n ∈ names) (hfit : Fits ps n) (hd : env.directory n = false) :
    ∃ files, expandFilenames env [asc '/' :: patternText ps] = .ok files ∧ expandFilenames env [patternText ps] = .ok files ∧
      (env.regular n = true → n ∈ files) := by
  obtain ⟨hne, htn⟩ := pattern_some hp.special
  obtain ⟨files, hfl, e⟩ := expand_pattern hs hp hc
  obtain ⟨g1, g2⟩ := expand_goes hp.wf hne hp.nul hfl hn hfit hd
  have hsub : Subnode (asc '/' :: patternText ps) (asc '/' :: patternText ps) [] := by
    refine .inl ⟨rfl, rfl, fun ⟨a, u, e⟩ => hp.last ?_⟩
    have e2 : (asc '/' :: patternText ps).getLast? = some (asc ']') := by rw [e, List.getLast?_concat]
    rw [← e2]
    cases hpt : patternText ps with
    | nil => exact absurd hpt htn
    | cons x xs => rw [List.getLast?_cons_cons]
  have hw : wizardPathExtent = 4096 := rfl
  have hl := hcr.short
  obtain ⟨k1, k2⟩ := (C57_head_tail_partial env.found (asc '/' :: patternText ps) env.memory [] _ _ [] (by simp) (fun hm => (hcr.plain _ hm).2.2.1 rfl) (by rw [hw]; omega)
    (by rw [hw, hs.memory]; omega) (.inl ⟨rfl, rfl, .inl (fun hm => (hcr.plain _ hm).2.2.2 rfl)⟩) (.inl rfl) hsub).1 [] _ rfl hp.one
  obtain ⟨files2, hfl2, e2⟩ := expand_given k1 k2 hp.wf hp.special ⟨by rw [List.head?_cons]; decide, by rw [List.head?_cons]; decide⟩ (by simp) hp.absent hp.listing hp.nul
  rw [hfl] at hfl2
  cases hfl2
  rw [g1, if_neg (by simp)] at e e2
  refine ⟨_, expand_one hs hcr e2, expand_one hs hc e, ?_⟩
  intro hr
  rw [transfer_spec _ (listed_short hp.wf hne hp.nul hfl hp.room)]
  exact List.mem_map.mpr ⟨n, List.mem_filter.mpr ⟨g2, hr⟩, rfl⟩

/-- **C175** (violated) Brackets at the end of a pattern are ignored: if a file fits what is before them, `*.[ch]` becomes exactly what
`*.` does. -/
theorem C175_bracket_violated (env : ExpandEnv) (hs : Sane env) (h : List Byte) (ps : List Elem) (names : List (List Byte)) (a set : List Byte)
    (hc : Common a) (hcb : Common (a ++ asc '[' :: set ++ [asc ']'])) (hset : asc '[' ∉ set) (hp : Pattern env h ps names a)
    (n : List Byte) (hn : n ∈ names) (hfit : Fits ps n) (hd : env.directory n = false) :
    ∃ files, expandFilenames env [a ++ asc '[' :: set ++ [asc ']']] = .ok files ∧ expandFilenames env [a] = .ok files ∧
      (env.regular (under h n) = true → under h n ∈ files) := by
  obtain ⟨hne, htn⟩ := pattern_some hp.special
  obtain ⟨files, hfl, e⟩ := expand_pattern hs hp hc
  obtain ⟨g1, g2⟩ := expand_goes hp.wf hne hp.nul hfl hn hfit hd
  have hw : wizardPathExtent = 4096 := rfl
  have hl := hcb.short
  have hane : a ≠ [] := by
    obtain ⟨s, c, w, rfl, _⟩ := hc.form
    simp
  have key := C57_head_tail_partial env.found (a ++ asc '[' :: set ++ [asc ']']) env.memory [] _ a set (by simp) (fun hm => (hcb.plain _ hm).2.2.1 rfl) (by rw [hw]; omega)
    (by rw [hw, hs.memory]; omega) (.inl ⟨rfl, rfl, .inl (fun hm => (hcb.plain _ hm).2.2.2 rfl)⟩) (.inl rfl) (.inr ⟨rfl, hset⟩)
  have hg : Gives env.found (a ++ asc '[' :: set ++ [asc ']']) .head env.memory h ∧ Gives env.found (a ++ asc '[' :: set ++ [asc ']']) .tail env.memory (patternText ps) := by
    have ht := hp.text
    by_cases hh : h = []
    · subst hh
      have ht : a = patternText ps := ht
      have := key.2 (by rw [ht]; exact hp.one)
      rw [← ht]
      exact this
    · exact key.1 h _ (by rw [ht]; unfold under; rw [if_neg hh]) hp.one
  have hq : (a ++ asc '[' :: set ++ [asc ']']).head? = a.head? := by
    cases a with
    | nil => exact absurd rfl hane
    | cons x xs => rfl
  obtain ⟨files2, hfl2, e2⟩ := expand_given hg.1 hg.2 hp.wf hp.special (by rw [hq]; exact hp.quote) hp.tilde hp.absent hp.listing hp.nul
  rw [hfl] at hfl2
  cases hfl2
  rw [g1, if_neg (by simp)] at e e2
  refine ⟨_, expand_one hs hcb e2, expand_one hs hc e, ?_⟩
  intro hr
  rw [transfer_spec _ (listed_short hp.wf hne hp.nul hfl hp.room)]
  exact List.mem_map.mpr ⟨n, List.mem_filter.mpr ⟨g2, hr⟩, rfl⟩

/-- **C175** (violated) A file is left out if the working directory has a directory of the same name: whether a name is one of a directory
is asked of the working directory, not of the directory that is listed. -/
theorem C175_hidden_violated (env : ExpandEnv) (hs : Sane env) (h : List Byte) (ps : List Elem) (names : List (List Byte)) (a : List Byte)
    (hc : Common a) (hp : Pattern env h ps names a) (n : List Byte) (hreg : env.regular (under h n) = true)
    (hd : env.directory n = true) (hself : n ≠ patternText ps) :
    ∃ files, expandFilenames env [a] = .ok files ∧ under h n ∉ files := by
  obtain ⟨hne, htn⟩ := pattern_some hp.special
  obtain ⟨files, hfl, e⟩ := expand_pattern hs hp hc
  refine ⟨_, expand_one hs hc e, ?_⟩
  intro hin
  split at hin
  · rw [List.mem_singleton, hp.text] at hin
    exact hself (under_inj hin)
  · rw [transfer_spec _ (listed_short hp.wf hne hp.nul hfl hp.room)] at hin
    obtain ⟨x, hx, hx2⟩ := List.mem_map.mp hin
    have hx2 := under_inj hx2
    subst hx2
    obtain ⟨y, hy, _, _, hy2⟩ := listed_from hp.wf hne hp.nul hfl (List.mem_filter.mp hx).1
    rcases listedAs_cases (env := env) (hp.room y hy) with ⟨_, e2⟩ | ⟨e1, e2⟩
    · rw [e2] at hy2
      rw [← hy2, under_append, hs.slash] at hreg
      cases hreg
    · rw [e2] at hy2
      rw [hy2, hd] at e1
      cases e1

/-- **C175** (violated) An argument vanishes if its pattern fits something in another directory, such as a directory there, but no regular
file: the program goes on with one argument less. -/
theorem C175_vanishes_violated (env : ExpandEnv) (hs : Sane env) (h : List Byte) (ps : List Elem) (names : List (List Byte)) (a : List Byte)
    (hc : Common a) (hp : Pattern env h ps names a) (hnone : ∀ n ∈ names, Fits ps n → env.regular (under h n) = false)
    (n : List Byte) (hn : n ∈ names) (hfit : Fits ps n) (hd : env.directory n = false) : expandFilenames env [a] = .ok [] := by
  obtain ⟨hne, htn⟩ := pattern_some hp.special
  obtain ⟨files, hfl, e⟩ := expand_pattern hs hp hc
  obtain ⟨g1, g2⟩ := expand_goes hp.wf hne hp.nul hfl hn hfit hd
  rw [g1, if_neg (by simp), transfer_spec _ (listed_short hp.wf hne hp.nul hfl hp.room)] at e
  rw [expand_one hs hc e]
  congr 1
  rw [List.map_eq_nil_iff, List.filter_eq_nil_iff]
  intro x hx hr
  obtain ⟨y, hy, h1, h2, hy2⟩ := listed_from hp.wf hne hp.nul hfl hx
  rcases listedAs_cases (env := env) (hp.room y hy) with ⟨_, e2⟩ | ⟨e1, e2⟩
  · rw [e2] at hy2
    rw [← hy2, under_append, hs.slash] at hr
    cases hr
  · rw [e2] at hy2
    subst hy2
    rw [hnone y hy ⟨h1, h2.elim (fun h => by rw [e1] at h; cases h) id⟩] at hr
    cases hr

/-- **C175** (violated) A file in another directory whose own name has brackets, stars or question marks cannot be named: although it
exists its name is taken as a pattern, because the file is looked for in the working directory.  If that pattern fits other files and
not the name itself, the program gets those instead. -/
theorem C175_exists_violated (env : ExpandEnv) (hs : Sane env) (h : List Byte) (ps : List Elem) (names : List (List Byte)) (a : List Byte)
    (hc : Common a) (hp : Pattern env h ps names a) (hself : ¬ Fits ps (patternText ps)) (hsd : env.directory (patternText ps) = false)
    (n : List Byte) (hn : n ∈ names) (hfit : Fits ps n) (hreg : env.regular (under h n) = true) (hd : env.directory n = false) :
    ∃ files, expandFilenames env [a] = .ok files ∧ under h n ∈ files ∧ a ∉ files := by
  obtain ⟨hne, htn⟩ := pattern_some hp.special
  obtain ⟨files, hfl, e⟩ := expand_pattern hs hp hc
  obtain ⟨g1, g2⟩ := expand_goes hp.wf hne hp.nul hfl hn hfit hd
  rw [g1, if_neg (by simp), transfer_spec _ (listed_short hp.wf hne hp.nul hfl hp.room)] at e
  refine ⟨_, expand_one hs hc e, List.mem_map.mpr ⟨n, List.mem_filter.mpr ⟨g2, hreg⟩, rfl⟩, ?_⟩
  intro hin
  obtain ⟨x, hx, hx2⟩ := List.mem_map.mp hin
  rw [hp.text] at hx2
  have hx2 := under_inj hx2
  obtain ⟨y, hy, h1, h2, hy2⟩ := listed_from hp.wf hne hp.nul hfl (List.mem_filter.mp hx).1
  rcases listedAs_cases (env := env) (hp.room y hy) with ⟨_, e2⟩ | ⟨e1, e2⟩
  · rw [hx2, e2] at hy2
    exact hp.one (by rw [← hy2]; simp)
  · rw [hx2, e2] at hy2
    rw [hy2] at h1 h2
    exact hself ⟨h1, h2.elim (fun h => by rw [hsd] at h; cases h) id⟩

/-- **C175** (violated) An empty argument makes the program read memory that was never written, and beyond the buffer if there is neither
a NUL nor a dash in it. -/
theorem C175_empty_violated (env : ExpandEnv) (hs : Sane env) (hj : ∀ c ∈ env.token, c ≠ 0 ∧ c ≠ asc '-') (rest : List (List Byte)) :
    expandFilenames env ([] :: rest) = .ub := by
  unfold expandFilenames
  rw [List.length_cons, expandLoop, C51_empty_violated env.fold (foldOK_of hs.fold) commandOptions (tables_no_nul _ (List.mem_cons_self ..))
    (by decide +kernel) false [] (fun c hc => absurd hc List.not_mem_nil) env.token hj]
  rfl

/-! ### An example -/

/-- What matches `a[b]c` has three bytes. -/
theorem matches_length {t : List Byte} (h : Matches false [.lit (asc 'a'), .cls [.chr (asc 'b')], .lit (asc 'c')] t) : t.length = 3 := by
  cases h with
  | lit _ h => cases h with
    | cls _ h => cases h with
      | lit _ h => cases h with
        | nil => rfl

/-- A working directory with two files and two directories, one of which has files. -/
def exEnv : ExpandEnv where
  fold := asciiMap
  found := fun _ => false
  regular := fun p => [ascText "x.c", ascText "Y.c", ascText "sub/z.c", ascText "sub/lib", ascText "sub/a[b]c", ascText "sub/abc"].contains p
  directory := fun p => [ascText "lib", ascText "sub"].contains (p.reverse.dropWhile (· == asc '/')).reverse
  names := fun p => if p = ascText "/w" then some [ascText "x.c", ascText "lib", ascText "Y.c", ascText ".c", ascText "sub"]
    else if p = ascText "sub" then some [ascText "z.c", ascText "lib", ascText "dir", ascText "abc", ascText "a[b]c"] else none
  cwd := ascText "/w"
  home := none
  passwd := fun _ => none
  token := List.replicate 4096 1
  memory := List.replicate 4096 1

theorem ex_sane : Sane exEnv := by
  refine ⟨.inl rfl, ?_, ?_, List.length_replicate, List.length_replicate⟩
  · intro p
    show List.contains _ _ = false
    rw [← Bool.not_eq_true, List.contains_iff_mem]
    intro h
    have key : ∀ t ∈ [ascText "x.c", ascText "Y.c", ascText "sub/z.c", ascText "sub/lib", ascText "sub/a[b]c", ascText "sub/abc"], t.getLast? ≠ some (asc '/') := by
      decide +kernel
    exact key _ h List.getLast?_concat
  · intro p h
    show List.contains _ (((p ++ [asc '/']).reverse.dropWhile (· == asc '/')).reverse) = true
    rw [List.reverse_append]
    exact h

/-- `*.c` in the working directory. -/
def exStar : List Elem := [.star, .lit (asc '.'), .lit (asc 'c')]

theorem ex_star : Common (ascText "*.c") ∧ Pattern exEnv [] exStar [ascText "x.c", ascText "lib", ascText "Y.c", ascText ".c", ascText "sub"] (ascText "*.c") := by
  refine ⟨⟨⟨[], asc '*', ascText ".c", by decide +kernel, .inl rfl, by decide, by decide, by decide⟩, by decide +kernel, by decide +kernel⟩, ?_⟩
  refine ⟨by decide +kernel, ?_, ⟨asc '*', by decide +kernel, by decide⟩, by decide +kernel, by decide +kernel, by decide +kernel, by decide, by decide +kernel, by decide +kernel, by decide +kernel, by decide +kernel⟩
  intro e he
  simp only [exStar, List.mem_cons, List.not_mem_nil, or_false] at he
  rcases he with rfl | rfl | rfl
  · trivial
  · show _ ∧ _; decide
  · show _ ∧ _; decide

theorem ex_fits : Fits exStar (ascText "x.c") ∧ Fits exStar (ascText "Y.c") :=
  ⟨⟨by decide +kernel, .star (u := [asc 'x']) (.lit rfl (.lit rfl .nil))⟩, ⟨by decide +kernel, .star (u := [asc 'Y']) (.lit rfl (.lit rfl .nil))⟩⟩

theorem ex_clear : Clear exEnv [] exStar [ascText "x.c", ascText "lib", ascText "Y.c", ascText ".c", ascText "sub"] := by
  refine ⟨fun n hn _ => ?_, fun h => ?_⟩
  · have key : ∀ n ∈ [ascText "x.c", ascText "lib", ascText "Y.c", ascText ".c", ascText "sub"], exEnv.regular (under [] n) = true → exEnv.directory n = false := by
      decide +kernel
    exact key n hn
  · have := h _ (List.mem_cons_self ..) ex_fits.1
    exact absurd this (by decide +kernel)

-- a program, an option, a quoted pattern and a pattern: the hypotheses of `C175_expand_partial`
example : ∃ f : List Byte → List (List Byte), (∀ a ∈ [ascText "digest", ascText "-hash", ascText "'*'", ascText "*.c"], Expands exEnv a (f a)) ∧
    expandFilenames exEnv [ascText "digest", ascText "-hash", ascText "'*'", ascText "*.c"] =
      .ok ([ascText "digest", ascText "-hash", ascText "'*'", ascText "*.c"].flatMap f) := by
  apply C175_expand_partial exEnv ex_sane
  intro a ha
  simp only [List.mem_cons, List.not_mem_nil, or_false] at ha
  rcases ha with rfl | rfl | rfl | rfl
  · exact ⟨⟨⟨[], asc 'd', ascText "igest", by decide +kernel, .inl rfl, by decide, by decide, by decide⟩, by decide +kernel, by decide +kernel⟩, .inl (.inr (.inr (by decide +kernel)))⟩
  · exact ⟨⟨⟨[asc '-'], asc 'h', ascText "ash", by decide +kernel, .inr (.inl rfl), by decide, by decide, by decide⟩, by decide +kernel, by decide +kernel⟩, .inl (.inr (.inr (by decide +kernel)))⟩
  · exact ⟨⟨⟨[], asc '\'', ascText "*'", by decide +kernel, .inl rfl, by decide, by decide, by decide⟩, by decide +kernel, by decide +kernel⟩, .inl (.inr (.inl (by decide +kernel)))⟩
  · exact ⟨ex_star.1, .inr ⟨[], exStar, _, ex_star.2, ex_clear⟩⟩

-- the parameter of `-key`, a pattern in the root directory, and brackets at the end
example : ∃ files, expandFilenames exEnv [ascText "-key", ascText "*.c"] = .ok (ascText "-key" :: files) ∧ ascText "x.c" ∈ files ∧ ascText "*.c" ∉ files := by
  obtain ⟨files, h1, h2, h3⟩ := C175_parameters_violated exEnv ex_sane (opt ['-', 'k', 'e', 'y'] 1) (by decide +kernel) [] exStar _ _ ex_star.1 ex_star.2 ex_clear
    (ascText "x.c") (by decide +kernel) ex_fits.1 (by decide +kernel)
  exact ⟨files, h1, h2, h3 (by decide +kernel)⟩

theorem exStar_text : patternText exStar = ascText "*.c" := by decide +kernel

example : ∃ files, expandFilenames exEnv [ascText "/*.c"] = .ok files ∧ ascText "x.c" ∈ files := by
  have hc : Common (asc '/' :: patternText exStar) :=
    ⟨⟨[], asc '/', ascText "*.c", by decide +kernel, .inl rfl, by decide, by decide, by decide⟩, by decide +kernel, by decide +kernel⟩
  have hx := ex_star
  rw [← exStar_text] at hx
  obtain ⟨files, h1, _, h3⟩ := C175_root_violated exEnv ex_sane exStar _ hx.1 hc hx.2 (ascText "x.c") (by decide +kernel) ex_fits.1 (by decide +kernel)
  rw [exStar_text] at h1
  exact ⟨files, h1, h3 (by decide +kernel)⟩

example : ∃ files, expandFilenames exEnv [ascText "*.c[0-9]"] = .ok files ∧ ascText "x.c" ∈ files := by
  obtain ⟨files, h1, _, h3⟩ := C175_bracket_violated exEnv ex_sane [] exStar _ _ (ascText "0-9") ex_star.1
    ⟨⟨[], asc '*', ascText ".c[0-9]", by decide +kernel, .inl rfl, by decide, by decide, by decide⟩, by decide +kernel, by decide +kernel⟩ (by decide +kernel) ex_star.2
    (ascText "x.c") (by decide +kernel) ex_fits.1 (by decide +kernel)
  exact ⟨files, h1, h3 (by decide +kernel)⟩

/-- Patterns in `sub`. -/
def exL : List Elem := [.lit (asc 'l'), .star]
def exD : List Elem := [.lit (asc 'd'), .star]
def exB : List Elem := [.lit (asc 'a'), .cls [.chr (asc 'b')], .lit (asc 'c')]

theorem ex_sub (ps : List Elem) (hps : ps = exL ∨ ps = exD ∨ ps = exB) : Common (ascText "sub/" ++ patternText ps) ∧
    Pattern exEnv (ascText "sub") ps [ascText "z.c", ascText "lib", ascText "dir", ascText "abc", ascText "a[b]c"] (ascText "sub/" ++ patternText ps) := by
  constructor
  · rcases hps with rfl | rfl | rfl
    · exact ⟨⟨[], asc 's', ascText "ub/l*", by decide +kernel, .inl rfl, by decide, by decide, by decide⟩, by decide +kernel, by decide +kernel⟩
    · exact ⟨⟨[], asc 's', ascText "ub/d*", by decide +kernel, .inl rfl, by decide, by decide, by decide⟩, by decide +kernel, by decide +kernel⟩
    · exact ⟨⟨[], asc 's', ascText "ub/a[b]c", by decide +kernel, .inl rfl, by decide, by decide, by decide⟩, by decide +kernel, by decide +kernel⟩
  · have hwf : ∀ e ∈ ps, e.WF := by
      intro e he
      rcases hps with rfl | rfl | rfl
      · simp only [exL, List.mem_cons, List.not_mem_nil, or_false] at he
        rcases he with rfl | rfl
        · show _ ∧ _; decide
        · trivial
      · simp only [exD, List.mem_cons, List.not_mem_nil, or_false] at he
        rcases he with rfl | rfl
        · show _ ∧ _; decide
        · trivial
      · simp only [exB, List.mem_cons, List.not_mem_nil, or_false] at he
        rcases he with rfl | rfl | rfl
        · show _ ∧ _; decide
        · intro i hi
          rw [List.mem_singleton] at hi
          subst hi
          show _ ∧ _
          decide
        · show _ ∧ _; decide
    rcases hps with rfl | rfl | rfl
    · exact ⟨by decide +kernel, hwf, ⟨asc '*', by decide +kernel, by decide⟩, by decide +kernel, by decide +kernel, by decide +kernel, by decide +kernel, by decide +kernel, by decide +kernel, by decide +kernel, by decide +kernel⟩
    · exact ⟨by decide +kernel, hwf, ⟨asc '*', by decide +kernel, by decide⟩, by decide +kernel, by decide +kernel, by decide +kernel, by decide +kernel, by decide +kernel, by decide +kernel, by decide +kernel, by decide +kernel⟩
    · exact ⟨by decide +kernel, hwf, ⟨asc '[', by decide +kernel, by decide⟩, by decide +kernel, by decide +kernel, by decide +kernel, by decide +kernel, by decide +kernel, by decide +kernel, by decide +kernel, by decide +kernel⟩

-- `sub/l*` leaves `sub/lib` out because there is a directory `lib`
example : ∃ files, expandFilenames exEnv [ascText "sub/l*"] = .ok files ∧ under (ascText "sub") (ascText "lib") ∉ files :=
  C175_hidden_violated exEnv ex_sane _ exL _ _ (ex_sub exL (.inl rfl)).1 (ex_sub exL (.inl rfl)).2 (ascText "lib") (by decide +kernel) (by decide +kernel) (by decide +kernel)

-- `sub/d*` vanishes, there is only the directory `sub/dir`
example : expandFilenames exEnv [ascText "sub/d*"] = .ok [] := by
  refine C175_vanishes_violated exEnv ex_sane _ exD _ _ (ex_sub exD (.inr (.inl rfl))).1 (ex_sub exD (.inr (.inl rfl))).2 ?_ (ascText "dir") (by decide +kernel)
    ⟨by decide +kernel, .lit rfl (.star (u := ascText "ir") .nil)⟩ (by decide +kernel)
  intro n hn hf
  have hh : n.head? = some (asc 'd') := by
    have := hf.2
    cases this with
    | lit h _ => rw [Same, if_neg (by simp)] at h; rw [h]; rfl
  revert n
  have key : ∀ n ∈ [ascText "z.c", ascText "lib", ascText "dir", ascText "abc", ascText "a[b]c"], n.head? = some (asc 'd') → exEnv.regular (under (ascText "sub") n) = false := by
    decide +kernel
  exact fun n hn _ hh => key n hn hh

-- `sub/a[b]c` exists, but `sub/abc` is taken
example : ∃ files, expandFilenames exEnv [ascText "sub/a[b]c"] = .ok files ∧ under (ascText "sub") (ascText "abc") ∈ files ∧ ascText "sub/a[b]c" ∉ files := by
  refine C175_exists_violated exEnv ex_sane _ exB _ _ (ex_sub exB (.inr (.inr rfl))).1 (ex_sub exB (.inr (.inr rfl))).2 ?_ (by decide +kernel) (ascText "abc") (by decide +kernel)
    ⟨by decide +kernel, .lit rfl (.cls ⟨_, List.mem_cons_self .., rfl⟩ (.lit rfl .nil))⟩ (by decide +kernel) (by decide +kernel)
  rintro ⟨_, h⟩
  have := matches_length h
  revert this
  decide +kernel

example : exEnv.regular (ascText "sub/a[b]c") = true ∧ ∀ c ∈ exEnv.token, c ≠ 0 ∧ c ≠ asc '-' := by
  refine ⟨by decide +kernel, fun c hc => ?_⟩
  rw [show exEnv.token = List.replicate 4096 1 from rfl, List.mem_replicate] at hc
  rw [hc.2]
  decide

end Wizard.Props

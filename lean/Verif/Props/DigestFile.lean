import Verif.Spec.DigestFile
import Verif.Props.Option
import Verif.Props.Strip
import Verif.Lemmas.XmlWrite
/-! C149 to C151: the `digest` utility. -/
namespace Wizard.Props
open Wizard Wizard.Spec.DigestFile Wizard.Spec.Opt
open Wizard.XmlP (Ascii esc canonical_ascii)

/-- Bytes of a key. -/
abbrev KeyByte (c : Byte) : Prop := (!isSpace c && c != asc '>') = true

/-- A key that is recognised as one. -/
structure IsKey (k : List Byte) : Prop where
  bytes : ∀ c ∈ k, KeyByte c
  short : k.length < 4096
  first : ∃ c r, k = c :: r ∧ (isAlnumC c = true ∨ c = asc '/') ∧ isGraphC c = true

theorem skip_blanks {sp r : List Byte} (hs : ∀ c ∈ sp, isSpace c = true) (hr : ∀ c, r.head? = some c → isSpace c = false) : digestSkip (sp ++ r) = r := by
  rw [digestSkip, List.dropWhile_append_of_pos hs]
  cases r with
  | nil => rfl
  | cons c r => rw [List.dropWhile_cons, if_neg (by rw [hr c rfl]; decide)]

theorem skip_mark {c : Byte} {r : List Byte} (h : isSpace c = false) : digestSkip (c :: r) = c :: r := by
  rw [digestSkip, List.dropWhile_cons, if_neg (by rw [h]; decide)]

theorem key_split {k t : List Byte} {c : Byte} (hk : ∀ c ∈ k, KeyByte c) (hc : ¬ KeyByte c) :
    (k ++ c :: t).takeWhile (fun x => !isSpace x && x != asc '>') = k ∧ (k ++ c :: t).dropWhile (fun x => !isSpace x && x != asc '>') = c :: t := by
  constructor
  · rw [List.takeWhile_append_of_pos hk, List.takeWhile_cons, if_neg hc, List.append_nil]
  · rw [List.dropWhile_append_of_pos hk, List.dropWhile_cons, if_neg hc]

theorem blank_key {c : Byte} (h : isSpace c = true) : ¬ KeyByte c := by unfold KeyByte; rw [h]; simp

theorem pair_blank {k sp t : List Byte} {b c : Byte} (hk : ∀ c ∈ k, KeyByte c) (hb : isSpace b = true) (hs : ∀ c ∈ sp, isSpace c = true) (hc : isSpace c = false) (hg : c ≠ asc '>') :
    digestPair (k ++ b :: (sp ++ c :: t)) = (k, [], c :: t) := by
  obtain ⟨h1, h2⟩ := key_split (t := sp ++ c :: t) hk (blank_key hb)
  have h3 : digestSkip (b :: (sp ++ c :: t)) = c :: t :=
    skip_blanks (sp := b :: sp) (fun x hx => by rcases List.mem_cons.1 hx with rfl | hx; exact hb; exact hs x hx) (by intro x hx; cases hx; exact hc)
  rw [digestPair, h1, h2]
  simp only [h3, if_neg hg]

theorem pair_value {k v t : List Byte} {x y : Byte} (hk : ∀ c ∈ k, KeyByte c) (hx : x ≠ asc '<') (hv : ∀ c ∈ v, (!isSpace c && c != asc '<') = true) (hy : (!isSpace y && y != asc '<') = false) :
    digestPair (k ++ asc '>' :: x :: (v ++ y :: t)) = (k, x :: v, y :: t) := by
  obtain ⟨h1, h2⟩ := key_split (t := x :: (v ++ y :: t)) (c := asc '>') hk (by unfold KeyByte; decide)
  have h3 : digestSkip (asc '>' :: x :: (v ++ y :: t)) = asc '>' :: x :: (v ++ y :: t) := skip_mark (by decide)
  rw [digestPair, h1, h2]
  simp only [h3, if_pos, digestValue, if_neg hx]
  rw [List.takeWhile_append_of_pos hv, List.takeWhile_cons, if_neg (by rw [hy]; decide), List.append_nil, List.dropWhile_append_of_pos hv, List.dropWhile_cons,
    if_neg (by rw [hy]; decide)]

theorem scan_mark (env : DigestEnv) (s : DigestState) {c : Byte} {r : List Byte} (h1 : c ≠ asc '>') (h2 : isGraphC c = true) (h3 : isAlnumC c = false ∧ c ≠ asc '/') :
    digestScan env s (c :: r) = digestScan env s (digestSkip r) := by
  rw [digestScan, if_neg h1, if_neg (by rw [h2]; decide), if_pos h3]

theorem scan_less (env : DigestEnv) (s : DigestState) {c : Byte} {r : List Byte} (h : isSpace c = false) : digestScan env s (asc '<' :: c :: r) = digestScan env s (c :: r) := by
  rw [scan_mark env s (by decide) (by decide) (by decide), skip_mark h]

theorem scan_key (env : DigestEnv) (s s' : DigestState) {k t v u : List Byte} {ev : List DigestEvent} (hk : IsKey k) (hp : digestPair (k ++ t) = (k, v, u)) (hi : digestInterpret env k v s = (s', ev)) :
    digestScan env s (k ++ t) = (ev ++ (digestScan env s' (digestSkip u)).1, (digestScan env s' (digestSkip u)).2) := by
  obtain ⟨c, r, hc, ha, hg⟩ := hk.first
  have hb : KeyByte c := hk.bytes c (by rw [hc]; exact List.mem_cons_self ..)
  have hg' : c ≠ asc '>' := by rintro rfl; revert hb; unfold KeyByte; decide
  have hs := hk.short
  rw [hc, List.cons_append] at hp ⊢
  rw [digestScan, if_neg hg', if_neg (by rw [hg]; decide), if_neg (by rintro ⟨h1, h2⟩; rcases ha with h | h; · rw [h] at h1; cases h1
                                                                      · exact h2 h), dif_pos hb, hp, ← hc, if_neg (show ¬ 4096 ≤ k.length by omega)]
  simp only [hi]

theorem scan_quiet (env : DigestEnv) (s s' : DigestState) {k t v u : List Byte} (hk : IsKey k) (hp : digestPair (k ++ t) = (k, v, u)) (hi : digestInterpret env k v s = (s', [])) :
    digestScan env s (k ++ t) = digestScan env s' (digestSkip u) := by
  rw [scan_key env s s' hk hp hi]
  rfl

theorem blank_or_less {sp t : List Byte} (hs : ∀ c ∈ sp, isSpace c = true) : ∃ y u, sp ++ asc '<' :: t = y :: u ∧ (!isSpace y && y != asc '<') = false ∧ digestSkip (y :: u) = asc '<' :: t := by
  have h : digestSkip (sp ++ asc '<' :: t) = asc '<' :: t := skip_blanks hs (by intro c hc; cases hc; decide)
  cases sp with
  | nil => exact ⟨asc '<', t, rfl, by decide, h⟩
  | cons b sp => exact ⟨b, sp ++ asc '<' :: t, rfl, by rw [hs b (List.mem_cons_self ..)]; rfl, h⟩

/-- A value that can be written. -/
structure IsValue (v : List Byte) : Prop where
  cons : v ≠ []
  bytes : ∀ c ∈ v, (!isSpace c && c != asc '<') = true

/-- A key with nothing behind it but the end of a line. -/
theorem scan_tag (env : DigestEnv) (s s' : DigestState) {k sp t : List Byte} {ev : List DigestEvent} (hk : IsKey k) (hs : ∀ c ∈ sp, isSpace c = true) (hi : digestInterpret env k [10] s = (s', ev)) :
    digestScan env s (k ++ asc '>' :: 10 :: (sp ++ asc '<' :: t)) = (ev ++ (digestScan env s' (asc '<' :: t)).1, (digestScan env s' (asc '<' :: t)).2) := by
  obtain ⟨y, u, e, hy, hsk⟩ := blank_or_less (t := t) hs
  have hp := pair_value (k := k) (v := []) (x := 10) (y := y) (t := u) hk.bytes (by decide) (by intro c hc; cases hc) hy
  rw [e, ← hsk]
  exact scan_key env s s' hk hp hi

/-- A whole element. -/
theorem scan_element (env : DigestEnv) (s s' : DigestState) {n v sp t : List Byte} (hn : IsKey n) (hl : n.length < 4095) (hv : IsValue v) (hs : ∀ c ∈ sp, isSpace c = true)
    (h1 : digestInterpret env n v s = (s', [])) (h2 : digestInterpret env (asc '/' :: n) [10] s' = (s', [])) :
    digestScan env s (asc '<' :: (n ++ asc '>' :: (v ++ asc '<' :: (asc '/' :: n ++ asc '>' :: 10 :: (sp ++ asc '<' :: t))))) = digestScan env s' (asc '<' :: t) := by
  obtain ⟨c, r, hc, _, hg⟩ := hn.first
  obtain ⟨x, w, rfl⟩ := List.exists_cons_of_ne_nil hv.cons
  have hx : x ≠ asc '<' := by
    have := hv.bytes x (List.mem_cons_self ..)
    rintro rfl; revert this; decide
  have hcs : isSpace c = false := by
    have := hn.bytes c (by rw [hc]; exact List.mem_cons_self ..)
    unfold KeyByte at this
    cases h : isSpace c with
    | false => rfl
    | true => rw [h] at this; cases this
  have e0 : digestScan env s (asc '<' :: (n ++ asc '>' :: ((x :: w) ++ asc '<' :: (asc '/' :: n ++ asc '>' :: 10 :: (sp ++ asc '<' :: t))))) =
      digestScan env s (n ++ asc '>' :: ((x :: w) ++ asc '<' :: (asc '/' :: n ++ asc '>' :: 10 :: (sp ++ asc '<' :: t)))) := by
    rw [hc, List.cons_append, scan_less env s hcs]
  rw [e0]
  have hp := pair_value (k := n) (v := w) (x := x) (y := asc '<') (t := asc '/' :: n ++ asc '>' :: 10 :: (sp ++ asc '<' :: t)) hn.bytes hx (fun c hc => hv.bytes c (List.mem_cons_of_mem _ hc)) (by decide)
  rw [List.cons_append, scan_quiet env s s' hn hp h1, skip_mark (by decide), List.cons_append, scan_less env s' (by decide)]
  have hk : IsKey (asc '/' :: n) := ⟨fun c hc => (List.mem_cons.1 hc).elim (fun e => by rw [e]; decide) (hn.bytes c), by rw [List.length_cons]; omega, ⟨asc '/', n, rfl, .inr rfl, by decide⟩⟩
  rw [← List.cons_append, scan_tag env s' s' hk hs h2]
  rfl

/-! ### What keys do -/

theorem interpret_timestamp (env : DigestEnv) (v : List Byte) (s : DigestState) : digestInterpret env (ascText "digest:timestamp") v s = ({ s with timestamp := stripText v }, []) := by
  rw [digestInterpret, if_neg (by decide +kernel), if_neg (by decide +kernel), if_pos (by decide +kernel)]

theorem interpret_modify (env : DigestEnv) (v : List Byte) (s : DigestState) : digestInterpret env (ascText "digest:modify-date") v s = ({ s with modify := stripText v }, []) := by
  rw [digestInterpret, if_neg (by decide +kernel), if_pos (by decide +kernel)]

theorem interpret_create (env : DigestEnv) (v : List Byte) (s : DigestState) : digestInterpret env (ascText "digest:create-date") v s = ({ s with create := stripText v }, []) := by
  rw [digestInterpret, if_pos (by decide +kernel)]

theorem parse_unknown_word (junk : List Byte) (hj : junk.length = 4096) (w : List Byte) (hw : w = ascText "extent" ∨ w = ascText "Content") :
    parseOption cLocaleLower hashOptions false junk w = .ok none := by
  have hn := tables_no_nul hashOptions (by decide +kernel)
  have key : ∀ w : List Byte, w = ascText "extent" ∨ w = ascText "Content" → (wordItem w 0).Form ∧ named cLocaleLower hashOptions w = none ∧ w.length < 2049 := by
    rintro w (rfl | rfl)
    · exact ⟨⟨by decide, .inl rfl, by decide +kernel, ⟨_, _, rfl, by decide, by decide⟩, by decide +kernel, ⟨by decide, by decide⟩⟩, by decide +kernel, by decide +kernel⟩
    · exact ⟨⟨by decide, .inl rfl, by decide +kernel, ⟨_, _, rfl, by decide, by decide⟩, by decide +kernel, ⟨by decide, by decide⟩⟩, by decide +kernel, by decide +kernel⟩
  obtain ⟨h1, h2, h3⟩ := key w hw
  have := (C51_unknown cLocaleLower cLocaleLower_ok hashOptions hn junk (wordItem w 0) h1 hj h2 (.inl h3) [] (.inl rfl)).1 false
  simpa [wordItem, Item.text] using this

theorem interpret_extent (env : DigestEnv) (hj : env.junk.length = 4096) (v : List Byte) (s : DigestState) : digestInterpret env (ascText "digest:extent") v s = (s, []) := by
  rw [digestInterpret, if_neg (by decide +kernel), if_neg (by decide +kernel), if_neg (by decide +kernel), if_pos (by decide +kernel),
    show (ascText "digest:extent").drop 7 = ascText "extent" by decide +kernel, parse_unknown_word _ hj _ (.inl rfl)]

theorem interpret_content (env : DigestEnv) (hj : env.junk.length = 4096) (v : List Byte) (s : DigestState) : digestInterpret env (ascText "digest:Content") v s = (s, []) := by
  rw [digestInterpret, if_neg (by decide +kernel), if_neg (by decide +kernel), if_neg (by decide +kernel), if_pos (by decide +kernel),
    show (ascText "digest:Content").drop 7 = ascText "Content" by decide +kernel, parse_unknown_word _ hj _ (.inr rfl)]

/-- The hashes there are. -/
def Known (hash : BitVec 64) : Prop := ∃ o ∈ hashOptions, o.type = hash

/-- What is true of the names of all hashes. -/
def NameOK (hash : BitVec 64) : Prop :=
  (wordItem (digestHashName hash) hash).OK cLocaleLower hashOptions ∧ IsKey (ascText "digest:" ++ digestHashName hash) ∧ (ascText "digest:" ++ digestHashName hash).length < 4095 ∧
  keyIs (ascText "digest:" ++ digestHashName hash) "digest:create-date" = false ∧ keyIs (ascText "digest:" ++ digestHashName hash) "digest:modify-date" = false ∧
  keyIs (ascText "digest:" ++ digestHashName hash) "digest:timestamp" = false ∧ keyBegins (ascText "digest:" ++ digestHashName hash) "digest:" = true ∧
  (ascText "digest:" ++ digestHashName hash).drop 7 = digestHashName hash

theorem hashName_ok {hash : BitVec 64} (h : Known hash) : NameOK hash := by
  obtain ⟨o, ho, rfl⟩ := h
  have k1 : ∀ o ∈ hashOptions, (∀ c ∈ digestHashName o.type, isSpaceC c = false ∧ c ≠ asc ',' ∧ c ≠ 0) ∧ (digestHashName o.type).length < 100 ∧
      ((digestHashName o.type).head?.all fun c => c != asc '!' && c != asc '-' && c != asc '+') = true ∧ digestHashName o.type ≠ [] ∧
      (named cLocaleLower hashOptions (digestHashName o.type)).map (·.type) = some o.type := by decide +kernel
  have k2 : ∀ o ∈ hashOptions, (∀ c ∈ ascText "digest:" ++ digestHashName o.type, KeyByte c) ∧ (ascText "digest:" ++ digestHashName o.type).length < 4095 ∧
      keyIs (ascText "digest:" ++ digestHashName o.type) "digest:create-date" = false ∧ keyIs (ascText "digest:" ++ digestHashName o.type) "digest:modify-date" = false ∧
      keyIs (ascText "digest:" ++ digestHashName o.type) "digest:timestamp" = false ∧ keyBegins (ascText "digest:" ++ digestHashName o.type) "digest:" = true ∧
      (ascText "digest:" ++ digestHashName o.type).drop 7 = digestHashName o.type := by decide +kernel
  obtain ⟨a1, a2, a3, a4, a5⟩ := k1 o ho
  obtain ⟨b1, b2, b3⟩ := k2 o ho
  refine ⟨⟨⟨fun c hc => absurd hc List.not_mem_nil, .inl rfl, a1, ?_, by show (digestHashName o.type).length < 4096; omega, ⟨fun c hc => absurd hc List.not_mem_nil, fun c hc => by cases hc⟩⟩, a5, fun _ => by show (digestHashName o.type).length < 2049; omega⟩,
    ⟨b1, by omega, ⟨asc 'd', _, rfl, .inl (by decide), by decide⟩⟩, b2, b3⟩
  show ∃ c w, digestHashName o.type = c :: w ∧ _
  obtain ⟨c, w, e⟩ := List.exists_cons_of_ne_nil a4
  rw [e] at a3 ⊢
  simp only [List.head?_cons, Option.all_some, Bool.and_eq_true, bne_iff_ne] at a3
  exact ⟨c, w, rfl, a3.1.1, fun _ _ => ⟨a3.1.2, a3.2⟩⟩

theorem interpret_hash (env : DigestEnv) (hj : env.junk.length = 4096) {hash : BitVec 64} (h : Known hash) (v : List Byte) (s : DigestState) :
    digestInterpret env (ascText "digest:" ++ digestHashName hash) v s = ({ s with hash := hash, digest := stripText v }, []) := by
  obtain ⟨h1, _, _, h2, h3, h4, h5, h6⟩ := hashName_ok h
  have hn := tables_no_nul hashOptions (by decide +kernel)
  have hp := (C51_single cLocaleLower cLocaleLower_ok hashOptions hn env.junk [] hj _ h1).1
  rw [show (wordItem (digestHashName hash) hash).text = digestHashName hash by simp [wordItem, Item.text]] at hp
  rw [digestInterpret, h2, h3, h4, h5, h6, hp]
  rfl

theorem interpret_slash (env : DigestEnv) (n v : List Byte) (s : DigestState) (h1 : keyIs (asc '/' :: n) "/digest:Content" = false) (h2 : keyIs (asc '/' :: n) "/rdf:Description" = false) :
    digestInterpret env (asc '/' :: n) v s = (s, []) := by
  have k : ∀ (t : String) (c : Byte) (r : List Byte), ascText t = c :: r → cLocaleLower (asc '/') ≠ cLocaleLower c → keyIs (asc '/' :: n) t = false ∧ keyBegins (asc '/' :: n) t = false := by
    intro t c r e hc
    constructor
    · rw [keyIs, e]; simp [hc]
    · rw [keyBegins, e]; simp [hc]
  rw [digestInterpret, (k "digest:create-date" _ _ rfl (by decide)).1, (k "digest:modify-date" _ _ rfl (by decide)).1, (k "digest:timestamp" _ _ rfl (by decide)).1,
    (k "digest:" _ _ rfl (by decide)).2, (k "rdf:about" _ _ rfl (by decide)).2, h1, h2]
  rfl

theorem name_slash {hash : BitVec 64} (h : Known hash) : keyIs (asc '/' :: (ascText "digest:" ++ digestHashName hash)) "/digest:Content" = false ∧
    keyIs (asc '/' :: (ascText "digest:" ++ digestHashName hash)) "/rdf:Description" = false := by
  obtain ⟨o, ho, rfl⟩ := h
  have : ∀ o ∈ hashOptions, keyIs (asc '/' :: (ascText "digest:" ++ digestHashName o.type)) "/digest:Content" = false ∧
    keyIs (asc '/' :: (ascText "digest:" ++ digestHashName o.type)) "/rdf:Description" = false := by decide +kernel
  exact this o ho

/-! ### Texts -/

theorem graphic_space {c : Byte} (h : Graphic c) : isSpace c = false ∧ c ≠ 0 ∧ isGraphC c = true := by
  have : ∀ c : Byte, (33 ≤ c.toNat ∧ c.toNat ≤ 126) → isSpace c = false ∧ c ≠ 0 ∧ isGraphC c = true := by decide +kernel
  exact this c h

theorem stripText_eq {s : List Byte} (h : (0 : Byte) ∉ s) : stripText s = Spec.Strip.strip s := by
  obtain ⟨rest, e, _, h0, _⟩ := C12_strip s [] h
  rw [stripText, e]
  simp only []
  rw [List.takeWhile_append_of_pos (fun c hc => by rw [bne_iff_ne]; rintro rfl; exact h0 hc), List.takeWhile_cons, if_neg (by decide), List.append_nil]

theorem map_unline {s : List Byte} (h : ∀ c ∈ s, Graphic c) : s.map Spec.Strip.unline = s := by
  have : ∀ c : Byte, (33 ≤ c.toNat ∧ c.toNat ≤ 126) → Spec.Strip.unline c = c := by decide +kernel
  exact (List.map_congr_left fun c hc => this c (h c hc)).trans (List.map_id _)

theorem strip_plain {s : List Byte} (h : Plain s) : stripText s = s := by
  rw [stripText_eq fun h0 => (graphic_space (h.2 0 h0).1).2.1 rfl]
  have k : ∀ c : Byte, (33 ≤ c.toNat ∧ c.toNat ≤ 126) → c ≠ 34 → c ≠ 39 → Spec.Strip.blank c = false ∧ Spec.Strip.quote c = false := by decide +kernel
  obtain ⟨a, ha⟩ : ∃ a, s.head? = some a := by cases s with | nil => exact absurd rfl h.1 | cons c s => exact ⟨c, rfl⟩
  obtain ⟨e, he⟩ : ∃ e, s.getLast? = some e := ⟨s.getLast h.1, List.getLast?_eq_some_getLast h.1⟩
  have ha' := h.2 a (List.mem_of_mem_head? ha)
  have he' := h.2 e (List.mem_of_getLast? he)
  have ka := k a ha'.1 ha'.2.2.2.2.1 ha'.2.2.2.2.2
  have ke := k e he'.1 he'.2.2.2.2.1 he'.2.2.2.2.2
  have := C12_strip_unquoted [] s [] a e (by intro x hx; cases hx) (by intro x hx; cases hx) ha he ka.1 ke.1 ka.2 ke.2
  rw [List.nil_append, List.append_nil] at this
  rw [this, map_unline fun c hc => (h.2 c hc).1]

theorem strip_quoted {s : List Byte} (h : s ≠ []) (hg : ∀ c ∈ s, Graphic c) : stripText (34 :: (s ++ [34])) = s := by
  rw [stripText_eq fun h0 => by
    rcases List.mem_cons.1 h0 with h0 | h0
    · exact absurd h0 (by decide)
    · rcases List.mem_append.1 h0 with h0 | h0
      · exact (graphic_space (hg 0 h0)).2.1 rfl
      · rw [List.mem_singleton] at h0; exact absurd h0 (by decide)]
  have := C12_strip_quoted_partial [] s [] 34 34 (by intro x hx; cases hx) (by intro x hx; cases hx) (by decide) (by decide) h
  rw [List.nil_append, List.append_nil] at this
  rw [this, map_unline hg]

theorem plain_value {s : List Byte} (h : Plain s) : IsValue s := by
  refine ⟨h.1, fun c hc => ?_⟩
  obtain ⟨hg, _, hl, _⟩ := h.2 c hc
  rw [(graphic_space hg).1, Bool.not_false, Bool.true_and, bne_iff_ne]
  exact hl

/-- A text that can be the value of an attribute. -/
def Solid (s : List Byte) : Prop := s ≠ [] ∧ s.length < 4084 ∧ ∀ c ∈ s, Graphic c ∧ c ≠ 62

/-- The key with the path. -/
def aboutKey (xml : List Byte) : List Byte := ascText "rdf:about=" ++ 34 :: (xml ++ [34])

theorem about_key {xml : List Byte} (h : Solid xml) : IsKey (aboutKey xml) := by
  refine ⟨fun c hc => ?_, ?_, ⟨asc 'r', _, rfl, .inl (by decide), by decide⟩⟩
  · have k : ∀ c ∈ ascText "rdf:about=", KeyByte c := by decide +kernel
    rcases List.mem_append.1 hc with hc | hc
    · exact k c hc
    · rcases List.mem_cons.1 hc with rfl | hc
      · decide
      · rcases List.mem_append.1 hc with hc | hc
        · obtain ⟨h1, h2⟩ := h.2.2 c hc
          show (!isSpace c && c != asc '>') = true
          rw [(graphic_space h1).1, Bool.not_false, Bool.true_and, bne_iff_ne]
          exact h2
        · rw [List.mem_singleton] at hc; rw [hc]; decide
  · have := h.2.1
    have e : (ascText "rdf:about=").length = 10 := by decide +kernel
    simp only [aboutKey, List.length_append, List.length_cons, List.length_nil, e]
    omega

theorem interpret_about (env : DigestEnv) (k v : List Byte) (s : DigestState) : digestInterpret env (ascText "rdf:about=" ++ k) v s =
    ({ s with path := stripText k, digest := ascText "unknown", timestamp := ascText "timestamp", create := ascText "unknown", modify := ascText "unknown" }, []) := by
  have e : ascText "rdf:about=" = asc 'r' :: (ascText "df:about=") := by decide +kernel
  have k1 : ∀ (t : String) (c : Byte) (r : List Byte), ascText t = c :: r → cLocaleLower (asc 'r') ≠ cLocaleLower c → keyIs (ascText "rdf:about=" ++ k) t = false ∧ keyBegins (ascText "rdf:about=" ++ k) t = false := by
    intro t c r e' hc
    constructor
    · rw [keyIs, e, e', List.cons_append]; simp [hc]
    · rw [keyBegins, e, e', List.cons_append]; simp [hc]
  have k2 : keyBegins (ascText "rdf:about=" ++ k) "rdf:about" = true := by
    rw [keyBegins, List.take_append_of_le_length (by decide +kernel)]
    decide +kernel
  have k3 : (ascText "rdf:about=" ++ k).drop 10 = k := List.drop_left' (by decide +kernel)
  rw [digestInterpret, (k1 "digest:create-date" _ _ rfl (by decide)).1, (k1 "digest:modify-date" _ _ rfl (by decide)).1, (k1 "digest:timestamp" _ _ rfl (by decide)).1,
    (k1 "digest:" _ _ rfl (by decide)).2, k2, k3]
  rfl

/-- The lines of an entry that have values. -/
def entryLines (env : DigestEnv) (hash : BitVec 64) (path content tail : List Byte) : List Byte :=
  asc '<' :: (ascText "digest:timestamp" ++ asc '>' :: (env.now path ++ asc '<' :: (asc '/' :: ascText "digest:timestamp" ++ asc '>' :: 10 :: (List.replicate 4 32 ++
  asc '<' :: (ascText "digest:modify-date" ++ asc '>' :: (env.modified path ++ asc '<' :: (asc '/' :: ascText "digest:modify-date" ++ asc '>' :: 10 :: (List.replicate 4 32 ++
  asc '<' :: (ascText "digest:create-date" ++ asc '>' :: (env.modified path ++ asc '<' :: (asc '/' :: ascText "digest:create-date" ++ asc '>' :: 10 :: (List.replicate 4 32 ++
  asc '<' :: (ascText "digest:extent" ++ asc '>' :: (env.length content.length ++ asc '<' :: (asc '/' :: ascText "digest:extent" ++ asc '>' :: 10 :: (List.replicate 4 32 ++
  asc '<' :: ((ascText "digest:" ++ digestHashName hash) ++ asc '>' :: (env.hex hash content ++ asc '<' :: (asc '/' :: (ascText "digest:" ++ digestHashName hash) ++ asc '>' :: 10 :: (List.replicate 2 32 ++
  asc '<' :: (asc '/' :: ascText "digest:Content" ++ asc '>' :: 10 :: tail)))))))))))))))))))))

theorem entry_lines (env : DigestEnv) (hash : BitVec 64) (path xml content tail : List Byte) :
    digestEntry env hash path xml content ++ tail = List.replicate 2 32 ++ asc '<' :: (ascText "digest:Content" ++ 32 :: (aboutKey xml ++ asc '>' :: 10 :: (List.replicate 4 32 ++ entryLines env hash path content tail))) := by
  have e1 : ascText "  <digest:Content rdf:about=\"" = List.replicate 2 32 ++ asc '<' :: (ascText "digest:Content" ++ 32 :: (ascText "rdf:about=" ++ [34])) := by decide +kernel
  have e2 : ascText "\">\n" = [34, asc '>', 10] := by decide +kernel
  have e3 : ascText "    <digest:timestamp>" = List.replicate 4 32 ++ asc '<' :: (ascText "digest:timestamp" ++ [asc '>']) := by decide +kernel
  have e4 : ascText "</digest:timestamp>\n" = asc '<' :: asc '/' :: (ascText "digest:timestamp" ++ [asc '>', 10]) := by decide +kernel
  have e5 : ascText "    <digest:modify-date>" = List.replicate 4 32 ++ asc '<' :: (ascText "digest:modify-date" ++ [asc '>']) := by decide +kernel
  have e6 : ascText "</digest:modify-date>\n" = asc '<' :: asc '/' :: (ascText "digest:modify-date" ++ [asc '>', 10]) := by decide +kernel
  have e7 : ascText "    <digest:create-date>" = List.replicate 4 32 ++ asc '<' :: (ascText "digest:create-date" ++ [asc '>']) := by decide +kernel
  have e8 : ascText "</digest:create-date>\n" = asc '<' :: asc '/' :: (ascText "digest:create-date" ++ [asc '>', 10]) := by decide +kernel
  have e9 : ascText "    <digest:extent>" = List.replicate 4 32 ++ asc '<' :: (ascText "digest:extent" ++ [asc '>']) := by decide +kernel
  have e10 : ascText "</digest:extent>\n" = asc '<' :: asc '/' :: (ascText "digest:extent" ++ [asc '>', 10]) := by decide +kernel
  have e11 : ascText "    <digest:" = List.replicate 4 32 ++ asc '<' :: ascText "digest:" := by decide +kernel
  have e12 : ascText "</digest:" = asc '<' :: asc '/' :: ascText "digest:" := by decide +kernel
  have e13 : ascText ">\n" = [asc '>', 10] := by decide +kernel
  have e14 : ascText ">" = [asc '>'] := by decide +kernel
  have e15 : ascText "  </digest:Content>\n" = List.replicate 2 32 ++ asc '<' :: asc '/' :: (ascText "digest:Content" ++ [asc '>', 10]) := by decide +kernel
  unfold digestEntry entryLines aboutKey
  rw [e1, e2, e3, e4, e5, e6, e7, e8, e9, e10, e11, e12, e13, e14, e15]
  simp only [List.append_assoc, List.cons_append, List.nil_append]

theorem spaces_blank (n : Nat) : ∀ c ∈ List.replicate n (32 : Byte), isSpace c = true := fun c hc => by rw [List.eq_of_mem_replicate hc]; decide

theorem const_key (t : List Byte) (h : (∀ c ∈ t, KeyByte c) ∧ t.length < 4095 ∧ (t.head?.any fun c => isAlnumC c && isGraphC c) = true) : IsKey t := by
  obtain ⟨h1, h2, h3⟩ := h
  cases t with
  | nil => cases h3
  | cons c r =>
    simp only [List.head?_cons, Option.any_some, Bool.and_eq_true] at h3
    exact ⟨h1, by omega, ⟨c, r, rfl, .inl h3.1, h3.2⟩⟩

theorem interpret_close (env : DigestEnv) (v : List Byte) (s : DigestState) (hash : BitVec 64) (recorded now m : List Byte) (h1 : s.hash = hash) (h2 : s.digest = recorded) (h3 : s.timestamp = now) (h4 : s.create = m) (h5 : s.modify = m) :
    digestInterpret env (asc '/' :: ascText "digest:Content") v s = (s, judge env hash s.path recorded now m) := by
  rw [digestInterpret, if_neg (by decide +kernel), if_neg (by decide +kernel), if_neg (by decide +kernel), if_neg (by decide +kernel), if_neg (by decide +kernel), if_pos (by decide +kernel)]
  unfold judge
  rw [h1, h2, h3, h4, h5]
  cases env.files s.path with
  | none => rfl
  | some c =>
    simp only []
    split <;> rfl

/-- What an entry does behind the line with the path. -/
theorem scan_lines (env env' : DigestEnv) (hash : BitVec 64) (hk : Known hash) (h : Sane env hash) (hj : env'.junk.length = 4096) (s : DigestState) (path content sp t : List Byte) (hs : ∀ c ∈ sp, isSpace c = true) :
    ∃ s', digestScan env' s (entryLines env hash path content (sp ++ asc '<' :: t)) =
      (judge env' hash s.path (env.hex hash content) (env.now path) (env.modified path) ++ (digestScan env' s' (asc '<' :: t)).1, (digestScan env' s' (asc '<' :: t)).2) := by
  obtain ⟨_, hk2, hk3, _⟩ := hashName_ok hk
  unfold entryLines
  rw [scan_element env' s _ (const_key _ (by decide +kernel)) (by decide +kernel) (plain_value (h.now path)) (spaces_blank 4) (interpret_timestamp _ _ _) (interpret_slash _ _ _ _ (by decide +kernel) (by decide +kernel)),
    scan_element env' _ _ (const_key _ (by decide +kernel)) (by decide +kernel) (plain_value (h.modified path)) (spaces_blank 4) (interpret_modify _ _ _) (interpret_slash _ _ _ _ (by decide +kernel) (by decide +kernel)),
    scan_element env' _ _ (const_key _ (by decide +kernel)) (by decide +kernel) (plain_value (h.modified path)) (spaces_blank 4) (interpret_create _ _ _) (interpret_slash _ _ _ _ (by decide +kernel) (by decide +kernel)),
    scan_element env' _ _ (const_key _ (by decide +kernel)) (by decide +kernel) (plain_value (h.length _)) (spaces_blank 4) (interpret_extent _ hj _ _) (interpret_slash _ _ _ _ (by decide +kernel) (by decide +kernel)),
    scan_element env' _ _ hk2 hk3 (plain_value (h.hex content)) (spaces_blank 2) (interpret_hash _ hj hk _ _) (interpret_slash _ _ _ _ (name_slash hk).1 (name_slash hk).2),
    strip_plain (h.now path), strip_plain (h.modified path), strip_plain (h.hex content), List.cons_append, scan_less env' _ (by decide), ← List.cons_append]
  exact ⟨_, scan_tag env' _ _ ⟨by decide +kernel, by decide +kernel, ⟨asc '/', _, rfl, .inr rfl, by decide⟩⟩ hs (interpret_close env' _ _ hash _ _ _ rfl rfl rfl rfl rfl)⟩

/-- What an entry does. -/
theorem scan_entry (env env' : DigestEnv) (hash : BitVec 64) (hk : Known hash) (h : Sane env hash) (hj : env'.junk.length = 4096) (s : DigestState) (path xml content sp t : List Byte) (hx : Solid xml) (hs : ∀ c ∈ sp, isSpace c = true) :
    ∃ s', digestScan env' s (digestSkip (digestEntry env hash path xml content ++ (sp ++ asc '<' :: t))) =
      (judge env' hash xml (env.hex hash content) (env.now path) (env.modified path) ++ (digestScan env' s' (asc '<' :: t)).1, (digestScan env' s' (asc '<' :: t)).2) := by
  have e0 : ∀ r, ascText "digest:Content" ++ r = asc 'd' :: (ascText "igest:Content" ++ r) := fun r => by rw [← List.cons_append]; congr 1
  have e1 : ∀ r, aboutKey xml ++ r = asc 'r' :: (ascText "df:about=" ++ 34 :: (xml ++ [34]) ++ r) := fun r => rfl
  rw [entry_lines, skip_blanks (spaces_blank 2) (by intro c hc; cases hc; decide), e0, scan_less env' s (by decide), ← e0]
  have hp := pair_blank (k := ascText "digest:Content") (b := 32) (sp := []) (c := asc 'r') (t := ascText "df:about=" ++ 34 :: (xml ++ [34]) ++ (asc '>' :: 10 :: (List.replicate 4 32 ++ entryLines env hash path content (sp ++ asc '<' :: t)))) (by decide +kernel) (by decide) (by intro c hc; cases hc) (by decide) (by decide)
  rw [List.nil_append, ← e1] at hp
  rw [scan_quiet env' s s (const_key _ (by decide +kernel)) hp (interpret_content env' hj _ s), e1, skip_mark (by decide), ← e1]
  have hl : ∃ r, entryLines env hash path content (sp ++ asc '<' :: t) = asc '<' :: r := ⟨_, rfl⟩
  obtain ⟨r, hr⟩ := hl
  have ha := scan_tag env' s _ (k := aboutKey xml) (sp := List.replicate 4 32) (t := r) (about_key hx) (spaces_blank 4) (interpret_about env' _ _ s)
  rw [← hr] at ha
  rw [ha]
  obtain ⟨s', hs'⟩ := scan_lines env env' hash hk h hj { s with path := stripText (34 :: (xml ++ [34])), digest := ascText "unknown", timestamp := ascText "timestamp", create := ascText "unknown", modify := ascText "unknown" } path content sp t hs
  rw [hs']
  simp only [strip_quoted hx.1 fun c hc => (hx.2.2 c hc).1]
  exact ⟨s', rfl⟩

theorem scan_header (env : DigestEnv) (s : DigestState) (sp t : List Byte) (hs : ∀ c ∈ sp, isSpace c = true) :
    digestScan env s (digestHeader ++ (sp ++ asc '<' :: t)) = digestScan env s (asc '<' :: t) := by
  have e : digestHeader = asc '<' :: asc '?' :: (ascText "xml" ++ 32 :: (ascText "version=\"1.0\"?" ++ asc '>' :: 10 :: ([] ++ asc '<' :: (ascText "rdf:RDF" ++ 32 ::
    (ascText "xmlns:rdf=\"http://www.w3.org/1999/02/22-rdf-syntax-ns#\"" ++ 10 :: (List.replicate 9 32 ++ (ascText "xmlns:digest=\"https://urban-warrior.org/WizardsToolkit/digest/1.0/\"" ++ [asc '>', 10]))))))) := by decide +kernel
  have quiet : ∀ k ∈ [ascText "xml", ascText "version=\"1.0\"?", ascText "rdf:RDF", ascText "xmlns:rdf=\"http://www.w3.org/1999/02/22-rdf-syntax-ns#\"", ascText "xmlns:digest=\"https://urban-warrior.org/WizardsToolkit/digest/1.0/\""],
      keyIs k "digest:create-date" = false ∧ keyIs k "digest:modify-date" = false ∧ keyIs k "digest:timestamp" = false ∧ keyBegins k "digest:" = false ∧ keyBegins k "rdf:about" = false ∧
        keyIs k "/digest:Content" = false ∧ keyIs k "/rdf:Description" = false := by decide +kernel
  have hq : ∀ k ∈ [ascText "xml", ascText "version=\"1.0\"?", ascText "rdf:RDF", ascText "xmlns:rdf=\"http://www.w3.org/1999/02/22-rdf-syntax-ns#\"", ascText "xmlns:digest=\"https://urban-warrior.org/WizardsToolkit/digest/1.0/\""],
      ∀ v, digestInterpret env k v s = (s, []) := by
    intro k hk v
    obtain ⟨h1, h2, h3, h4, h5, h6, h7⟩ := quiet k hk
    rw [digestInterpret, h1, h2, h3, h4, h5, h6, h7]
    rfl
  have mk : ∀ k ∈ [ascText "xml", ascText "version=\"1.0\"?", ascText "rdf:RDF", ascText "xmlns:rdf=\"http://www.w3.org/1999/02/22-rdf-syntax-ns#\"", ascText "xmlns:digest=\"https://urban-warrior.org/WizardsToolkit/digest/1.0/\""],
      (∀ c ∈ k, KeyByte c) ∧ k.length < 4095 ∧ (k.head?.any fun c => isAlnumC c && isGraphC c) = true := by decide +kernel
  have blank : ∀ (k r : List Byte) (b : Byte) (sp : List Byte) (c : Byte), k ∈ [ascText "xml", ascText "version=\"1.0\"?", ascText "rdf:RDF", ascText "xmlns:rdf=\"http://www.w3.org/1999/02/22-rdf-syntax-ns#\"", ascText "xmlns:digest=\"https://urban-warrior.org/WizardsToolkit/digest/1.0/\""] →
      isSpace b = true → (∀ c ∈ sp, isSpace c = true) → isSpace c = false → c ≠ asc '>' → digestScan env s (k ++ b :: (sp ++ c :: r)) = digestScan env s (c :: r) := by
    intro k r b sp c hk hb hsp hc hg
    rw [scan_quiet env s s (const_key k (mk k hk)) (pair_blank (mk k hk).1 hb hsp hc hg) (hq k hk _), skip_mark hc]
  have blank1 := fun (k r : List Byte) (c : Byte) hk => blank k r 32 [] c hk (by decide) (by intro c hc; cases hc)
  simp only [List.nil_append] at blank1
  have tag1 := fun (k t : List Byte) hk => scan_tag env s s (k := k) (sp := []) (t := t) (const_key k (mk k hk)) (by intro c hc; cases hc) (hq k hk _)
  simp only [List.nil_append] at tag1
  rw [e]
  simp only [List.append_assoc, List.cons_append, List.nil_append]
  rw [scan_less env s (by decide), scan_mark env s (c := asc '?') (by decide) (by decide) (by decide)]
  have x1 : ∀ r, ascText "xml" ++ r = asc 'x' :: (ascText "ml" ++ r) := fun r => by rw [← List.cons_append]; congr 1
  have x2 : ∀ r, ascText "version=\"1.0\"?" ++ r = asc 'v' :: (ascText "ersion=\"1.0\"?" ++ r) := fun r => by rw [← List.cons_append]; congr 1
  have x3 : ∀ r, ascText "rdf:RDF" ++ r = asc 'r' :: (ascText "df:RDF" ++ r) := fun r => by rw [← List.cons_append]; congr 1
  have x4 : ∀ r, ascText "xmlns:rdf=\"http://www.w3.org/1999/02/22-rdf-syntax-ns#\"" ++ r = asc 'x' :: (ascText "mlns:rdf=\"http://www.w3.org/1999/02/22-rdf-syntax-ns#\"" ++ r) := fun r => by rw [← List.cons_append]; congr 1
  have x5 : ∀ r, ascText "xmlns:digest=\"https://urban-warrior.org/WizardsToolkit/digest/1.0/\"" ++ r = asc 'x' :: (ascText "mlns:digest=\"https://urban-warrior.org/WizardsToolkit/digest/1.0/\"" ++ r) := fun r => by rw [← List.cons_append]; congr 1
  rw [x1, skip_mark (by decide), ← x1, x2, blank1 (ascText "xml") _ (asc 'v') (by decide +kernel) (by decide) (by decide), ← x2]
  rw [tag1 _ _ (by decide +kernel)]
  show digestScan env s (asc '<' :: _) = _
  rw [x3, scan_less env s (by decide), ← x3, x4, blank1 (ascText "rdf:RDF") _ (asc 'x') (by decide +kernel) (by decide) (by decide), ← x4, x5,
    blank (ascText "xmlns:rdf=\"http://www.w3.org/1999/02/22-rdf-syntax-ns#\"") _ 10 (List.replicate 9 32) (asc 'x') (by decide +kernel) (by decide) (spaces_blank 9) (by decide) (by decide), ← x5]
  rw [scan_tag env s s (const_key _ (mk _ (by decide +kernel))) hs (hq _ (by decide +kernel) _)]
  rfl

theorem scan_footer (env : DigestEnv) (s : DigestState) : digestScan env s (ascText "</rdf:RDF>\n") = ([], .done) := by
  have e : ascText "</rdf:RDF>\n" = asc '<' :: asc '/' :: (ascText "rdf:RDF" ++ [asc '>', 10]) := by decide +kernel
  have hp : digestPair (ascText "/rdf:RDF" ++ [asc '>', 10]) = (ascText "/rdf:RDF", [10], []) := by decide +kernel
  have e2 : asc '/' :: (ascText "rdf:RDF" ++ [asc '>', 10]) = ascText "/rdf:RDF" ++ [asc '>', 10] := by decide +kernel
  have hi : ∀ v, digestInterpret env (ascText "/rdf:RDF") v s = (s, []) := fun v => by
    rw [show ascText "/rdf:RDF" = asc '/' :: ascText "rdf:RDF" by decide +kernel]
    exact interpret_slash env _ _ s (by decide +kernel) (by decide +kernel)
  rw [e, scan_less env s (by decide), e2, scan_quiet env s s (k := ascText "/rdf:RDF") ⟨by decide +kernel, by decide +kernel, ⟨asc '/', ascText "rdf:RDF", by decide +kernel, .inr rfl, by decide⟩⟩ hp (hi [10])]
  show digestScan env s [] = _
  rw [digestScan]

theorem esc_plain {s : List Byte} (h : Plain s) : esc false s = s := by
  have k : ∀ c : Byte, (33 ≤ c.toNat ∧ c.toNat ≤ 126) → c ≠ 38 → c ≠ 60 → c ≠ 62 → c ≠ 34 → c ≠ 39 → escapeByte false c = [c] := by decide +kernel
  replace h := h.2
  induction s with
  | nil => rfl
  | cons c s ih =>
    have hc := h c (List.mem_cons_self ..)
    have hs := ih fun c hc => h c (List.mem_cons_of_mem _ hc)
    unfold esc at hs ⊢
    rw [List.flatMap_cons, hs, k c hc.1 hc.2.1 hc.2.2.1 hc.2.2.2.1 hc.2.2.2.2.1 hc.2.2.2.2.2]
    rfl

theorem graphic_ascii {s : List Byte} (h : ∀ c ∈ s, Graphic c) : Ascii s := fun c hc => by
  obtain ⟨h1, h2⟩ := h c hc
  exact ⟨.inl (by omega), by omega⟩

theorem entries_scan (old new : DigestEnv) (hash : BitVec 64) (hk : Known hash) (h : Sane old hash) (hj : new.junk.length = 4096) :
    ∀ (paths : List (List Byte)), (∀ p ∈ paths, Plain p ∧ p.length < 4084) → ∃ text, digestEntries old hash paths = .ok text ∧ (∃ sp t, text ++ ascText "</rdf:RDF>\n" = sp ++ asc '<' :: t ∧ (∀ c ∈ sp, isSpace c = true)) ∧
      ∀ s, digestScan new s (digestSkip (text ++ ascText "</rdf:RDF>\n")) = (verdict old new hash paths, .done) := by
  intro paths
  induction paths with
  | nil =>
    intro _
    refine ⟨[], rfl, ⟨[], ascText "/rdf:RDF>\n", by decide +kernel, by intro c hc; cases hc⟩, fun s => ?_⟩
    rw [List.nil_append, show digestSkip (ascText "</rdf:RDF>\n") = ascText "</rdf:RDF>\n" by decide +kernel, scan_footer]
    rfl
  | cons p ps ih =>
    intro hp
    obtain ⟨text, e, ⟨sp, t, et, hs⟩, hsc⟩ := ih fun q hq => hp q (List.mem_cons_of_mem _ hq)
    obtain ⟨hpl, hlen⟩ := hp p (List.mem_cons_self ..)
    rw [digestEntries]
    cases hf : old.files p with
    | none =>
      refine ⟨text, e, ⟨sp, t, et, hs⟩, fun s => ?_⟩
      rw [hsc s, verdict, verdict, List.flatMap_cons, hf]
      rfl
    | some content =>
      simp only []
      rw [canonical_ascii _ _ _ (graphic_ascii fun c hc => (hpl.2 c hc).1), esc_plain hpl, Res.ok_bind, e, Res.ok_bind]
      refine ⟨_, rfl, ⟨List.replicate 2 32, _, by rw [List.append_assoc, entry_lines], spaces_blank 2⟩, fun s => ?_⟩
      obtain ⟨s', hs'⟩ := scan_entry old new hash hk h hj s p p content sp t ⟨hpl.1, hlen, fun c hc => ⟨(hpl.2 c hc).1, (hpl.2 c hc).2.2.2.1⟩⟩ hs
      rw [List.append_assoc, et, hs']
      have := hsc s'
      rw [et, skip_blanks hs (by intro c hc; cases hc; decide)] at this
      rw [this, verdict, verdict, List.flatMap_cons, hf]

/-- **C149** (partial): what `digest` writes about files, `digest -authenticate` reads back: it says of exactly those files whose digest has changed since that it has, and
of those that have gone that they are missing, with the dates and digests of each, in order: for files whose paths have graphic ASCII characters only, without angle
brackets, quotes and ampersands, and fewer than 4084 of them. -/
theorem C149_changed_partial (old new : DigestEnv) (hash : BitVec 64) (hk : Known hash) (h : Sane old hash) (hj : new.junk.length = 4096) (paths : List (List Byte)) (hp : ∀ p ∈ paths, Plain p ∧ p.length < 4084) :
    ∃ file, digestCommand old hash paths = .ok file ∧ digestAuthenticate new file = (verdict old new hash paths, .done) := by
  obtain ⟨text, e, ⟨sp, t, et, hs⟩, hsc⟩ := entries_scan old new hash hk h hj paths hp
  refine ⟨_, by rw [digestCommand, e, Res.ok_bind], ?_⟩
  rw [digestAuthenticate, List.append_assoc, et, scan_header _ _ _ _ hs]
  have := hsc digestStart
  rwa [et, skip_blanks hs (by intro c hc; cases hc; decide)] at this

/-- One file whose path is written as `xml`. -/
theorem one_file (old new : DigestEnv) (hash : BitVec 64) (hk : Known hash) (h : Sane old hash) (hj : new.junk.length = 4096) (path xml content : List Byte) (hf : old.files path = some content) (hc : canonicalXMLContent old.heap path false = .ok xml) (hx : Solid xml) :
    ∃ file, digestCommand old hash [path] = .ok file ∧ digestAuthenticate new file = (judge new hash xml (old.hex hash content) (old.now path) (old.modified path), .done) := by
  refine ⟨_, by rw [digestCommand, digestEntries, hf]; simp only []; rw [hc, Res.ok_bind, digestEntries, Res.ok_bind, Res.ok_bind, List.append_nil], ?_⟩
  have e : ascText "</rdf:RDF>\n" = [] ++ asc '<' :: ascText "/rdf:RDF>\n" := by decide +kernel
  obtain ⟨s', hs'⟩ := scan_entry old new hash hk h hj digestStart path xml content [] (ascText "/rdf:RDF>\n") hx (by intro c hc; cases hc)
  rw [← e, show asc '<' :: ascText "/rdf:RDF>\n" = ascText "</rdf:RDF>\n" by decide +kernel, scan_footer, List.append_nil] at hs'
  have el := entry_lines old hash path xml content (ascText "</rdf:RDF>\n")
  rw [digestAuthenticate, List.append_assoc, el, scan_header _ _ _ _ (spaces_blank 2)]
  rw [el, skip_blanks (spaces_blank 2) (by intro c hc; cases hc; decide)] at hs'
  exact hs'

/-- **C149** (violated): if the path of a file has an ampersand, `digest -authenticate` looks at another file, whose path has `&amp;` in its place, and never at this one:
whether it has changed goes unnoticed. -/
theorem C149_escape_violated (old new : DigestEnv) (hash : BitVec 64) (hk : Known hash) (h : Sane old hash) (hj : new.junk.length = 4096) (path content : List Byte) (hf : old.files path = some content)
    (hp : ∀ c ∈ path, Graphic c ∧ c ≠ 60 ∧ c ≠ 62 ∧ c ≠ 34 ∧ c ≠ 39) (ha : (38 : Byte) ∈ path) (hl : path.length < 800) :
    let name := path.flatMap fun c => if c = 38 then ascText "&amp;" else [c]
    name ≠ path ∧ ∃ file, digestCommand old hash [path] = .ok file ∧ digestAuthenticate new file = (judge new hash name (old.hex hash content) (old.now path) (old.modified path), .done) := by
  intro name
  have k : ∀ c : Byte, (33 ≤ c.toNat ∧ c.toNat ≤ 126) → c ≠ 60 → c ≠ 62 → c ≠ 34 → c ≠ 39 → escapeByte false c = (if c = 38 then ascText "&amp;" else [c]) := by decide +kernel
  have e : esc false path = name := by
    unfold esc
    show path.flatMap (escapeByte false) = path.flatMap _
    clear ha hl hf
    induction path with
    | nil => rfl
    | cons c s ih =>
      have hc := hp c (List.mem_cons_self ..)
      rw [List.flatMap_cons, List.flatMap_cons, ih fun c hc => hp c (List.mem_cons_of_mem _ hc), k c hc.1 hc.2.1 hc.2.2.1 hc.2.2.2.1 hc.2.2.2.2]
  have len : ∀ l : List Byte, l.length ≤ (l.flatMap fun c => if c = 38 then ascText "&amp;" else [c]).length ∧ (l.flatMap fun c => if c = 38 then ascText "&amp;" else [c]).length ≤ 5 * l.length ∧
      ((38 : Byte) ∈ l → l.length < (l.flatMap fun c => if c = 38 then ascText "&amp;" else [c]).length) := by
    have e5 : (ascText "&amp;").length = 5 := by decide +kernel
    intro l
    induction l with
    | nil => exact ⟨Nat.le_refl _, Nat.zero_le _, (by intro h; cases h)⟩
    | cons c l ih =>
      obtain ⟨i1, i2, i3⟩ := ih
      rw [List.flatMap_cons, List.length_append]
      by_cases hc : c = 38
      · rw [if_pos hc, e5, List.length_cons]; exact ⟨by omega, by omega, fun _ => by omega⟩
      · rw [if_neg hc, List.length_cons, List.length_singleton]
        refine ⟨by omega, by omega, fun hm => ?_⟩
        have := i3 ((List.mem_cons.1 hm).resolve_left fun e => hc e.symm)
        omega
  have hne : name ≠ path := fun en => by
    have h1 := (len path).2.2 ha
    rw [show (path.flatMap fun c => if c = 38 then ascText "&amp;" else [c]) = path from en] at h1
    exact Nat.lt_irrefl _ h1
  refine ⟨hne, one_file old new hash hk h hj path name content hf (by rw [← e]; exact canonical_ascii _ _ _ (graphic_ascii fun c hc => (hp c hc).1)) ⟨fun en => ?_, ?_, fun x hx => ?_⟩⟩
  · have h1 := (len path).2.2 ha
    rw [show (path.flatMap fun c => if c = 38 then ascText "&amp;" else [c]) = [] from en] at h1
    exact Nat.not_lt_zero _ h1
  · exact Nat.lt_of_le_of_lt (len path).2.1 (by omega)
  · obtain ⟨c, hc, hx⟩ := List.mem_flatMap.1 hx
    split at hx
    · have : ∀ x ∈ ascText "&amp;", (33 ≤ x.toNat ∧ x.toNat ≤ 126) ∧ x ≠ 62 := by decide +kernel
      exact this x hx
    · rw [List.mem_singleton] at hx
      rw [hx]
      exact ⟨(hp c hc).1, (hp c hc).2.2.1⟩

/-- **C149** (violated): if the path of a file has a blank, `digest -authenticate` looks at another file, whose path is what is before the blank, and never at this one: whether
it has changed goes unnoticed. (What is behind the blank begins with a letter or digit other than `d` and `r`.) -/
theorem C149_blank_violated (old new : DigestEnv) (hash : BitVec 64) (hk : Known hash) (h : Sane old hash) (hj : new.junk.length = 4096) (a b content : List Byte) (hf : old.files (a ++ 32 :: b) = some content)
    (ha : Plain a) (hla : a.length < 4084) (hb : Plain b) (hlb : b.length < 4084) (hb1 : ∀ c, b.head? = some c → isAlnumC c = true ∧ cLocaleLower c ≠ asc 'd' ∧ cLocaleLower c ≠ asc 'r') :
    ∃ file, digestCommand old hash [a ++ 32 :: b] = .ok file ∧ digestAuthenticate new file = (judge new hash a (old.hex hash content) (old.now (a ++ 32 :: b)) (old.modified (a ++ 32 :: b)), .done) := by
  have hasc : Ascii (a ++ 32 :: b) := fun c hc => by
    rcases List.mem_append.1 hc with hc | hc
    · exact graphic_ascii (fun c hc => (ha.2 c hc).1) c hc
    · rcases List.mem_cons.1 hc with rfl | hc
      · decide
      · exact graphic_ascii (fun c hc => (hb.2 c hc).1) c hc
  have hesc : esc false (a ++ 32 :: b) = a ++ 32 :: b := by
    have h1 := esc_plain ha
    have h2 := esc_plain hb
    unfold esc at h1 h2 ⊢
    rw [List.flatMap_append, List.flatMap_cons, h1, h2]
    rfl
  refine ⟨_, by rw [digestCommand, digestEntries, hf]; simp only []; rw [canonical_ascii _ _ _ hasc, hesc, Res.ok_bind, digestEntries, Res.ok_bind, Res.ok_bind, List.append_nil], ?_⟩
  have e : ascText "</rdf:RDF>\n" = [] ++ asc '<' :: ascText "/rdf:RDF>\n" := by decide +kernel
  have e' : asc '<' :: ascText "/rdf:RDF>\n" = ascText "</rdf:RDF>\n" := by decide +kernel
  rw [digestAuthenticate, List.append_assoc, entry_lines, scan_header _ _ _ _ (spaces_blank 2)]
  have e0 : ∀ r, ascText "digest:Content" ++ r = asc 'd' :: (ascText "igest:Content" ++ r) := fun r => by rw [← List.cons_append]; congr 1
  have e1 : ∀ r, aboutKey (a ++ 32 :: b) ++ r = asc 'r' :: (ascText "df:about=" ++ 34 :: ((a ++ 32 :: b) ++ [34]) ++ r) := fun r => rfl
  obtain ⟨c, b', rfl⟩ := List.exists_cons_of_ne_nil hb.1
  obtain ⟨hc1, hc2, hc3⟩ := hb1 c rfl
  have hcg := graphic_space (hb.2 c (List.mem_cons_self ..)).1
  have hbk : IsKey ((c :: b') ++ [34]) := by
    refine ⟨fun x hx => ?_, by rw [List.length_append, List.length_singleton]; omega, ⟨c, b' ++ [34], rfl, .inl hc1, hcg.2.2⟩⟩
    rcases List.mem_append.1 hx with hx | hx
    · obtain ⟨h1, h2⟩ := hb.2 x hx
      show (!isSpace x && x != asc '>') = true
      rw [(graphic_space h1).1, Bool.not_false, Bool.true_and, bne_iff_ne]
      exact h2.2.2.1
    · rw [List.mem_singleton] at hx; rw [hx]; decide
  have hak : IsKey (ascText "rdf:about=" ++ 34 :: a) := by
    have h3 := about_key (xml := a) ⟨ha.1, hla, fun x hx => ⟨(ha.2 x hx).1, (ha.2 x hx).2.2.2.1⟩⟩
    refine ⟨fun x hx => h3.bytes x ?_, ?_, ⟨asc 'r', _, rfl, .inl (by decide), by decide⟩⟩
    · rcases List.mem_append.1 hx with hx | hx
      · exact List.mem_append_left _ hx
      · refine List.mem_append_right _ ?_
        rcases List.mem_cons.1 hx with rfl | hx
        · exact List.mem_cons_self ..
        · exact List.mem_cons_of_mem _ (List.mem_append_left _ hx)
    · have := h3.short
      simp only [aboutKey, List.length_append, List.length_cons, List.length_nil] at this ⊢
      omega
  rw [e0, scan_less new digestStart (by decide), ← e0]
  have hp := pair_blank (k := ascText "digest:Content") (b := 32) (sp := []) (c := asc 'r') (t := ascText "df:about=" ++ 34 :: ((a ++ 32 :: c :: b') ++ [34]) ++ (asc '>' :: 10 :: (List.replicate 4 32 ++ entryLines old hash (a ++ 32 :: c :: b') content (ascText "</rdf:RDF>\n")))) (by decide +kernel) (by decide) (by intro c hc; cases hc) (by decide) (by decide)
  rw [List.nil_append, ← e1] at hp
  rw [scan_quiet new digestStart digestStart (const_key _ (by decide +kernel)) hp (interpret_content new hj _ _), e1, skip_mark (by decide), ← e1]
  have hsplit : ∀ r, aboutKey (a ++ 32 :: c :: b') ++ r = (ascText "rdf:about=" ++ 34 :: a) ++ 32 :: ([] ++ c :: ((b' ++ [34]) ++ r)) := fun r => by simp [aboutKey]
  have hp2 := pair_blank (k := ascText "rdf:about=" ++ 34 :: a) (b := 32) (sp := []) (c := c) (t := (b' ++ [34]) ++ (asc '>' :: 10 :: (List.replicate 4 32 ++ entryLines old hash (a ++ 32 :: c :: b') content (ascText "</rdf:RDF>\n")))) hak.bytes (by decide) (by intro c hc; cases hc) hcg.1 (hb.2 c (List.mem_cons_self ..)).2.2.2.1
  rw [hsplit, scan_quiet new digestStart _ hak hp2 (interpret_about new _ _ _), skip_mark hcg.1, ← List.cons_append, ← List.cons_append]
  have hl : ∃ r, entryLines old hash (a ++ 32 :: c :: b') content (ascText "</rdf:RDF>\n") = asc '<' :: r := ⟨_, rfl⟩
  obtain ⟨r, hr⟩ := hl
  obtain ⟨st, hst⟩ : ∃ st : DigestState, st = { digestStart with path := stripText (34 :: a), digest := ascText "unknown", timestamp := ascText "timestamp", create := ascText "unknown", modify := ascText "unknown" } := ⟨_, rfl⟩
  have hquiet : digestInterpret new ((c :: b') ++ [34]) [10] st = (st, []) := by
    have k1 : ∀ (t : String) (d : Byte) (r : List Byte), ascText t = d :: r → cLocaleLower c ≠ cLocaleLower d → keyIs ((c :: b') ++ [34]) t = false ∧ keyBegins ((c :: b') ++ [34]) t = false := by
      intro t d r e' hc
      constructor
      · rw [keyIs, e', List.cons_append]; simp [hc]
      · rw [keyBegins, e', List.cons_append]; simp [hc]
    have hd : cLocaleLower c ≠ cLocaleLower (asc 'd') := hc2
    have hr : cLocaleLower c ≠ cLocaleLower (asc 'r') := hc3
    have hs : cLocaleLower c ≠ cLocaleLower (asc '/') := by
      have : ∀ c : Byte, isAlnumC c = true → cLocaleLower c ≠ cLocaleLower (asc '/') := by decide +kernel
      exact this c hc1
    rw [digestInterpret, (k1 "digest:create-date" _ _ rfl hd).1, (k1 "digest:modify-date" _ _ rfl hd).1, (k1 "digest:timestamp" _ _ rfl hd).1,
      (k1 "digest:" _ _ rfl hd).2, (k1 "rdf:about" _ _ rfl hr).2, (k1 "/digest:Content" _ _ rfl hs).1, (k1 "/rdf:Description" _ _ rfl hs).1]
    rfl
  have htag := scan_tag new st st (k := (c :: b') ++ [34]) (sp := List.replicate 4 32) (t := r) hbk (spaces_blank 4) hquiet
  rw [← hr] at htag
  have hpath : stripText (34 :: a) = a := by
    have h0 : (0 : Byte) ∉ a := fun h0 => (graphic_space (ha.2 0 h0).1).2.1 rfl
    have e2 : stripText (34 :: a) = stripText a := by
      rw [stripText_eq (fun h => (List.mem_cons.1 h).elim (by decide) h0), stripText_eq h0]
      obtain ⟨x, a', rfl⟩ := List.exists_cons_of_ne_nil ha.1
      have k : ∀ c : Byte, (33 ≤ c.toNat ∧ c.toNat ≤ 126) → c ≠ 34 → c ≠ 39 → Spec.Strip.blank c = false ∧ Spec.Strip.quote c = false := by decide +kernel
      have hx := ha.2 x (List.mem_cons_self ..)
      obtain ⟨hx1, hx2⟩ := k x hx.1 hx.2.2.2.2.1 hx.2.2.2.2.2
      have s1 : Spec.Strip.unopen ((34 :: x :: a').dropWhile Spec.Strip.blank) = x :: a' := rfl
      have s2 : Spec.Strip.unopen ((x :: a').dropWhile Spec.Strip.blank) = x :: a' := by
        rw [List.dropWhile_cons, if_neg (by rw [hx1]; decide), Spec.Strip.unopen, if_neg (by rw [hx2]; decide)]
      rw [Spec.Strip.strip, Spec.Strip.strip, s1, s2]
    rw [e2, strip_plain ha]
  obtain ⟨s', hs'⟩ := scan_lines old new hash hk h hj st (a ++ 32 :: c :: b') content [] (ascText "/rdf:RDF>\n") (by intro c hc; cases hc)
  rw [← e, e', scan_footer, List.append_nil] at hs'
  rw [← hst]
  refine htag.trans ?_
  rw [hs', hst, hpath]
  rfl

/-- **C149 is false** of what the program returns: 0, whatever has changed, as long as all files can be opened. -/
theorem C149_exit_violated (old new : DigestEnv) (hash : BitVec 64) (paths : List (List Byte)) (h : ∀ p ∈ paths, new.files p ≠ none) : digestExit (verdict old new hash paths) false = 0 := by
  rw [digestExit]
  have : ((verdict old new hash paths).any fun e => match e with | .missing _ => true | .changed .. => false) = false := by
    rw [List.any_eq_false]
    intro e he
    obtain ⟨p, hp, he⟩ := List.mem_flatMap.1 he
    cases ho : old.files p with
    | none => rw [ho] at he; cases he
    | some content =>
      rw [ho] at he
      simp only [judge] at he
      cases hn : new.files p with
      | none => exact absurd hn (h p hp)
      | some c =>
        rw [hn] at he
        simp only [] at he
        split at he
        · cases he
        · rw [List.mem_singleton] at he
          rw [he]
          simp
  exact if_pos ⟨this, rfl⟩

/-! ### Reading any digest file -/

/-- **C150** (violated): if a digest file begins with white space, a byte order mark or anything else that is no graphic ASCII character, authenticating it never ends. -/
theorem C150_forever_violated (env : DigestEnv) (c : Byte) (r : List Byte) (h : ¬ Graphic c) : digestAuthenticate env (c :: r) = ([], .forever) := by
  have h1 : isGraphC c = false := by
    cases hg : isGraphC c with
    | false => rfl
    | true =>
      have : ∀ c : Byte, isGraphC c = true → 33 ≤ c.toNat ∧ c.toNat ≤ 126 := by decide +kernel
      exact absurd (this c hg) h
  have h2 : c ≠ asc '>' := by rintro rfl; exact absurd h1 (by decide)
  rw [digestAuthenticate, digestScan, if_neg h2, if_pos h1]

/-- **C150** (violated): 4096 characters or more without white space and `>` are written over the end of the memory for a key. -/
theorem C150_overrun_violated (env : DigestEnv) (c : Byte) (k r : List Byte) (hc : isAlnumC c = true) (hk : ∀ x ∈ c :: k, isSpace x = false ∧ x ≠ 62) (hl : 4096 ≤ (c :: k).length) :
    digestAuthenticate env (c :: k ++ r) = ([], .overrun) := by
  have hb : ∀ x ∈ c :: k, KeyByte x := fun x hx => by
    show (!isSpace x && x != asc '>') = true
    rw [(hk x hx).1, Bool.not_false, Bool.true_and, bne_iff_ne]
    exact (hk x hx).2
  have hg : isGraphC c = true := by
    have : ∀ c : Byte, isAlnumC c = true → isGraphC c = true := by decide +kernel
    exact this c hc
  have hp : 4096 ≤ (digestPair (c :: (k ++ r))).1.length := by
    have e : (digestPair (c :: (k ++ r))).1 = (c :: k ++ r).takeWhile (fun x => !isSpace x && x != asc '>') := by
      unfold digestPair
      simp only []
      split
      · rfl
      · split <;> rfl
    rw [e, List.takeWhile_append_of_pos hb, List.length_append]
    omega
  rw [digestAuthenticate, List.cons_append, digestScan, if_neg (show c ≠ asc '>' from (hk c (List.mem_cons_self ..)).2), if_neg (by rw [hg]; decide), if_neg (by rw [hc]; rintro ⟨h, _⟩; cases h),
    dif_pos (hb c (List.mem_cons_self ..)), if_pos hp]

/-- **C150** (violated): behind `<?xml version="1.0" ?>`, with a blank before the question mark, nothing is read: whatever has changed, authenticating is done and says nothing. -/
theorem C150_ignored_violated (env : DigestEnv) (r : List Byte) : digestAuthenticate env (ascText "<?xml version=\"1.0\" ?>" ++ r) = ([], .done) := by
  have e : ascText "<?xml version=\"1.0\" ?>" ++ r = asc '<' :: asc '?' :: (ascText "xml" ++ 32 :: ([] ++ asc 'v' :: (ascText "ersion=\"1.0\"" ++ 32 :: ([] ++ asc '?' :: asc '>' :: r)))) := by
    have : ascText "<?xml version=\"1.0\" ?>" = asc '<' :: asc '?' :: (ascText "xml" ++ 32 :: ([] ++ asc 'v' :: (ascText "ersion=\"1.0\"" ++ 32 :: ([] ++ [asc '?', asc '>'])))) := by decide +kernel
    rw [this]
    simp only [List.append_assoc, List.cons_append, List.nil_append]
  have quiet : ∀ k ∈ [ascText "xml", ascText "version=\"1.0\""],
      keyIs k "digest:create-date" = false ∧ keyIs k "digest:modify-date" = false ∧ keyIs k "digest:timestamp" = false ∧ keyBegins k "digest:" = false ∧ keyBegins k "rdf:about" = false ∧
        keyIs k "/digest:Content" = false ∧ keyIs k "/rdf:Description" = false := by decide +kernel
  have hq : ∀ k ∈ [ascText "xml", ascText "version=\"1.0\""], ∀ v, digestInterpret env k v digestStart = (digestStart, []) := by
    intro k hk v
    obtain ⟨h1, h2, h3, h4, h5, h6, h7⟩ := quiet k hk
    rw [digestInterpret, h1, h2, h3, h4, h5, h6, h7]
    rfl
  have x1 : ∀ r, ascText "xml" ++ r = asc 'x' :: (ascText "ml" ++ r) := fun r => by rw [← List.cons_append]; congr 1
  have x2 : ∀ r, asc 'v' :: (ascText "ersion=\"1.0\"" ++ r) = ascText "version=\"1.0\"" ++ r := fun r => by rw [← List.cons_append]; congr 1
  rw [digestAuthenticate, e, scan_less _ _ (by decide), scan_mark _ _ (c := asc '?') (by decide) (by decide) (by decide), x1, skip_mark (by decide), ← x1,
    scan_quiet env digestStart digestStart (const_key _ (by decide +kernel)) (pair_blank (by decide +kernel) (by decide) (by intro c hc; cases hc) (by decide) (by decide)) (hq _ (by decide +kernel) _), skip_mark (by decide), x2,
    scan_quiet env digestStart digestStart (const_key _ (by decide +kernel)) (pair_blank (by decide +kernel) (by decide) (by intro c hc; cases hc) (by decide) (by decide)) (hq _ (by decide +kernel) _), skip_mark (by decide),
    scan_mark _ _ (c := asc '?') (by decide) (by decide) (by decide), skip_mark (by decide), digestScan, if_pos rfl]

theorem takeWhile_prefix_run (f : Byte → Bool) (l : List Byte) : l = l.takeWhile f ++ l.dropWhile f := List.takeWhile_append_dropWhile.symm

theorem pair_rest_suffix (p : List Byte) : (digestPair p).2.2 <:+ p := by
  have h1 : digestSkip (p.dropWhile (fun x => !isSpace x && x != asc '>')) <:+ p := (List.dropWhile_suffix _).trans (List.dropWhile_suffix _)
  unfold digestPair
  simp only []
  cases h : digestSkip (p.dropWhile (fun x => !isSpace x && x != asc '>')) with
  | nil => exact List.nil_suffix
  | cons c q =>
    rw [h] at h1
    have hq : q <:+ p := (List.suffix_cons c q).trans h1
    simp only []
    split
    · cases q with
      | nil => exact List.nil_suffix
      | cons d t =>
        by_cases hd : d = asc '<'
        · simp only [digestValue, if_pos hd]; exact hq
        · simp only [digestValue, if_neg hd]; exact (List.dropWhile_suffix _).trans ((List.suffix_cons d t).trans hq)
    · exact h1

/-- **C150** (partial): authenticating a digest file ends, and stays inside its memory, if the file has graphic ASCII characters and white space only, does not begin with white
space and has fewer than 4096 characters between white space. -/
theorem C150_ends_partial (env : DigestEnv) (file : List Byte) (ht : ∀ c ∈ file, Graphic c ∨ isSpace c = true) (hf : ∀ c, file.head? = some c → isSpace c = false)
    (hr : ∀ k, k <:+: file → (∀ c ∈ k, isSpace c = false) → k.length < 4096) : (digestAuthenticate env file).2 = .done := by
  have key : ∀ (n : Nat) (p : List Byte), p.length ≤ n → p <:+ file → (∀ c, p.head? = some c → isSpace c = false) → ∀ s, (digestScan env s p).2 = .done := by
    have skipped : ∀ r : List Byte, ∀ c, (digestSkip r).head? = some c → isSpace c = false := by
      intro r c hc
      have := List.head?_dropWhile_not isSpace r
      rw [show (r.dropWhile isSpace).head? = some c from hc] at this
      simpa using this
    intro n
    induction n with
    | zero =>
      intro p hp _ _ s
      rw [List.eq_nil_of_length_eq_zero (Nat.le_zero.1 hp), digestScan]
    | succ n ih =>
      intro p hp hs hh s
      cases p with
      | nil => rw [digestScan]
      | cons c r =>
        have hg : Graphic c := (ht c (hs.mem (List.mem_cons_self ..))).resolve_right (by rw [hh c rfl]; decide)
        rw [digestScan]
        by_cases hc : c = asc '>'
        · rw [if_pos hc]
        · rw [if_neg hc, if_neg (by rw [(graphic_space hg).2.2]; decide)]
          by_cases ha : isAlnumC c = false ∧ c ≠ asc '/'
          · rw [if_pos ha]
            refine ih _ (Nat.le_trans (dropWhile_le _ _) (Nat.le_of_succ_le_succ hp)) ((List.dropWhile_suffix _).trans ((List.suffix_cons c r).trans hs)) (skipped r) s
          · have hb : (!isSpace c && c != asc '>') = true := by rw [hh c rfl, Bool.not_false, Bool.true_and, bne_iff_ne]; exact hc
            have hshort : (digestPair (c :: r)).1.length < 4096 := by
              have e : (digestPair (c :: r)).1 = (c :: r).takeWhile (fun x => !isSpace x && x != asc '>') := by
                unfold digestPair
                simp only []
                split
                · rfl
                · split <;> rfl
              rw [e]
              refine hr _ ((List.takeWhile_prefix _).isInfix.trans hs.isInfix) fun x hx => ?_
              have := List.all_eq_true.1 List.all_takeWhile x hx
              cases hsx : isSpace x with
              | false => rfl
              | true => rw [hsx] at this; cases this
            rw [if_neg ha, dif_pos hb, if_neg (by omega)]
            refine ih _ (Nat.le_of_lt_succ (Nat.lt_of_lt_of_le (digestPair_lt hb) hp)) ((List.dropWhile_suffix _).trans ((pair_rest_suffix _).trans hs)) (skipped _) _
  exact key _ file (Nat.le_refl _) List.suffix_rfl hf _

/-! ### Reading what is hashed -/

/-- **C151** (partial): the digest is that of the whole content of a file if every piece but the last has 8192 bytes: as it is when the file does not change. -/
theorem C151_content_partial (pieces : List (List Byte)) (last : List Byte) (hp : ∀ p ∈ pieces, p.length = 8192) (hl : last.length ≤ 8192) :
    digestRead (8192 + 128) (pieces ++ [last]) [] = some (pieces.flatten ++ last) := by
  have key : ∀ got, digestRead (8192 + 128) (pieces ++ [last]) got = some (got ++ (pieces.flatten ++ last)) := by
    induction pieces with
    | nil =>
      intro got
      rw [List.nil_append, digestRead]
      by_cases h : last = []
      · rw [if_pos h, h]; simp
      · rw [if_neg h, if_neg (by omega), digestRead]; simp
    | cons p ps ih =>
      intro got
      have h1 := hp p (List.mem_cons_self ..)
      rw [List.cons_append, digestRead, if_neg (by rintro rfl; simp at h1), if_neg (by omega), h1, ih fun q hq => hp q (List.mem_cons_of_mem _ hq)]
      simp
  exact key []

/-- **C151 is false** of files that grow while they are read: behind a short piece that ended the file a longer one is read into memory that is too small for it. -/
theorem C151_growing_violated (first second : List Byte) (more : List (List Byte)) (hf : first ≠ []) (hl : first.length ≤ 8192) (hs : first.length + 128 < second.length) (got : List Byte) :
    digestRead (8192 + 128) (first :: second :: more) got = none := by
  rw [digestRead, if_neg hf, if_neg (by omega), digestRead, if_neg (by rintro rfl; simp at hs), if_pos hs]

/-- A file system with one file that changes, and a hash. -/
def digestEnvExample (content : String) : DigestEnv :=
  ⟨fun p => if p = ascText "a.txt" then some (ascText content) else none, fun _ c => if c = ascText "one" then ascText "12ab" else ascText "34cd", List.replicate 4096 0, fun _ => 0, fun _ => ascText "2026-01-01",
    fun _ => ascText "2025-01-01", fun _ => ascText "3"⟩

theorem digest_example : Known 7 ∧ Plain (ascText "a.txt") ∧ Sane (digestEnvExample "one") 7 ∧
    verdict (digestEnvExample "one") (digestEnvExample "two") 7 [ascText "a.txt", ascText "b.txt"] =
      [.changed (ascText "a.txt") (ascText "2025-01-01") (ascText "2025-01-01") 7 (ascText "2026-01-01") (ascText "12ab") (ascText "34cd")] ∧
    verdict (digestEnvExample "one") (digestEnvExample "one") 7 [ascText "a.txt", ascText "b.txt"] = [] := by
  have hp : ∀ t ∈ [ascText "a.txt", ascText "12ab", ascText "34cd", ascText "2026-01-01", ascText "2025-01-01", ascText "3"], Plain t := by unfold Plain Graphic; decide +kernel
  refine ⟨⟨opt ['S', 'H', 'A', '2', '5', '6'] 7, by decide +kernel, rfl⟩, hp _ (by decide +kernel), ⟨List.length_replicate, fun _ => hp (ascText "2026-01-01") (by decide +kernel), fun _ => hp (ascText "2025-01-01") (by decide +kernel), fun _ => hp (ascText "3") (by decide +kernel), fun c => ?_⟩,
    by decide +kernel, by decide +kernel⟩
  show Plain (if c = ascText "one" then ascText "12ab" else ascText "34cd")
  split
  · exact hp _ (by decide +kernel)
  · exact hp _ (by decide +kernel)

end Wizard.Props

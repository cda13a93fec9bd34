import Verif.Lemmas.Xml
import Verif.Spec.Xml
/-! Entity decoding: C53 (escaping), C84 (references), C85 (line ends). -/
namespace Wizard.Props
open Wizard Wizard.XmlP Wizard.Spec.Utf Wizard.Spec.Xml

/-! ### The loop -/

/-- The loop ends with this memory, given enough steps. -/
def Runs (junk : Nat → Byte) (ents : List (List Byte × List Byte)) (st : XmlState) (s : XmlScan) (mem : List Byte) : Prop :=
  ∃ f0, ∀ f ≥ f0, entityLoop junk ents st f s = .ok mem

theorem Runs.stop {junk ents st} (d t : List Byte) (own : Bool) : Runs junk ents st (scan d [] t own) (d ++ 0 :: t) := by
  refine ⟨1, fun f hf => ?_⟩
  cases f with
  | zero => omega
  | succ f =>
    unfold entityLoop
    rw [step_end, Res.ok_bind]
    rfl

theorem Runs.next {junk ents st s s' mem} (h : entityStep junk ents st s = .ok (some s')) (hr : Runs junk ents st s' mem) : Runs junk ents st s mem := by
  obtain ⟨f0, hf0⟩ := hr
  refine ⟨f0 + 1, fun f hf => ?_⟩
  cases f with
  | zero => omega
  | succ f =>
    unfold entityLoop
    rw [h, Res.ok_bind]
    exact hf0 f (by omega)

theorem step_plain (junk : Nat → Byte) (ents : List (List Byte × List Byte)) (st : XmlState) (hst : st = .general ∨ st = .cdata) (d r t : List Byte) (c : Byte)
    (own : Bool) (hc : c ≠ 0) (hp : st = .cdata ∨ c ≠ asc '&') : entityStep junk ents st (scan d (c :: r) t own) = .ok (some (scan (d ++ [c]) r t own)) := by
  rw [step_other junk ents st d r t c own hc (by rintro ⟨h1, h2, _⟩; rcases hp with h | h; exact h1 h; exact h h2)]
  have hse : startsEntity st c = false := by
    unfold startsEntity
    rcases hst with rfl | rfl
    · rcases hp with h | h
      · cases h
      · have : (c == asc '&') = false := by simpa using h
        rw [this]
        simp
    · simp
  rw [hse]
  simp only [Bool.false_eq_true, if_false]
  rw [if_neg]
  rcases hst with rfl | rfl <;> simp

theorem runs_plain {junk ents st} (hst : st = .general ∨ st = .cdata) (r t mem : List Byte) (own : Bool) : ∀ (v d : List Byte), (0 : Byte) ∉ v → (st = .cdata ∨ asc '&' ∉ v) →
    Runs junk ents st (scan (d ++ v) r t own) mem → Runs junk ents st (scan d (v ++ r) t own) mem := by
  intro v
  induction v with
  | nil => intro d _ _ h; simpa using h
  | cons c v ih =>
    intro d h0 hp h
    simp only [List.mem_cons, not_or] at h0 hp
    rw [List.cons_append]
    refine .next (step_plain junk ents st hst d (v ++ r) t c own (fun e => h0.1 e.symm) (hp.imp id (fun h e => h.1 e.symm))) ?_
    exact ih (d ++ [c]) h0.2 (hp.imp id (fun h => h.2)) (by simpa using h)

/-- What a byte that does not start a reference stands for. -/
def litOf (st : XmlState) (c : Byte) : Byte := if (st = .attribute ∨ st = .token) ∧ isSpaceC c = true then 0x20 else c

theorem litOf_content (st : XmlState) (h : st = .general ∨ st = .cdata) : litOf st = content := by
  funext c
  unfold litOf content
  rcases h with rfl | rfl <;> simp

theorem litOf_ne_zero (st : XmlState) (c : Byte) (h : c ≠ 0) : litOf st c ≠ 0 := by
  unfold litOf; split
  · decide
  · exact h

theorem litOf_no_nul (st : XmlState) (v : List Byte) (h : (0 : Byte) ∉ v) : (0 : Byte) ∉ v.map (litOf st) := by
  intro hm
  obtain ⟨c, hc, e⟩ := List.mem_map.mp hm
  exact litOf_ne_zero st c (fun e => h (e ▸ hc)) e

theorem step_lit (junk : Nat → Byte) (ents : List (List Byte × List Byte)) (st : XmlState) (hst : st ≠ .parameter) (d r t : List Byte) (c : Byte)
    (own : Bool) (hc : c ≠ 0) (hp : c ≠ asc '&') : entityStep junk ents st (scan d (c :: r) t own) = .ok (some (scan (d ++ [litOf st c]) r t own)) := by
  rw [step_other junk ents st d r t c own hc (fun h => hp h.2.1)]
  have hse : startsEntity st c = false := by
    unfold startsEntity
    have h1 : (c == asc '&') = false := by simpa using hp
    have h2 : (st == XmlState.parameter) = false := by simpa using hst
    rw [h1, h2]
    simp
  rw [hse]
  simp only [Bool.false_eq_true, if_false]
  unfold litOf
  split <;> rfl

theorem runs_lit {junk ents st} (hst : st ≠ .parameter) (r t mem : List Byte) (own : Bool) : ∀ (v d : List Byte), (0 : Byte) ∉ v → asc '&' ∉ v →
    Runs junk ents st (scan (d ++ v.map (litOf st)) r t own) mem → Runs junk ents st (scan d (v ++ r) t own) mem := by
  intro v
  induction v with
  | nil => intro d _ _ h; simpa using h
  | cons c v ih =>
    intro d h0 hp h
    simp only [List.mem_cons, not_or] at h0 hp
    rw [List.cons_append]
    refine .next (step_lit junk ents st hst d (v ++ r) t c own (fun e => h0.1 e.symm) (fun e => hp.1 e.symm)) ?_
    exact ih _ h0.2 hp.2 (by simpa using h)

/-! ### Names -/

/-- The declarations as `ParseEntities` keeps them: the name ends with its semicolon. -/
def entTable (decls : List (List Byte × List Byte)) : List (List Byte × List Byte) := decls.map (fun d => (d.1 ++ [asc ';'], d.2))

theorem prefix_semi (n name r : List Byte) (hn : asc ';' ∉ n) (hm : asc ';' ∉ name) :
    (n ++ [asc ';']).isPrefixOf (name ++ asc ';' :: r) = (n == name) := by
  rw [Bool.eq_iff_iff]
  simp only [List.isPrefixOf_iff_prefix, beq_iff_eq]
  constructor
  · rintro ⟨u, hu⟩
    rw [List.append_assoc] at hu
    induction n generalizing name with
    | nil =>
      cases name with
      | nil => rfl
      | cons c name => simp at hu; exact absurd (hu.1 ▸ List.mem_cons_self) hm
    | cons x n ih =>
      cases name with
      | nil => simp at hu; exact absurd (hu.1 ▸ List.mem_cons_self) hn
      | cons c name =>
        simp only [List.cons_append, List.cons.injEq] at hu
        rw [hu.1, ih name (fun h => hn (List.mem_cons_of_mem _ h)) (fun h => hm (List.mem_cons_of_mem _ h)) hu.2]
  · rintro rfl
    exact ⟨r, by simp⟩

theorem lookup_table (name r : List Byte) (hm : asc ';' ∉ name) : ∀ (decls : List (List Byte × List Byte)), (∀ d ∈ decls, asc ';' ∉ d.1) →
    lookupEnt (name ++ asc ';' :: r) (entTable decls) = (decls.find? (fun d => d.1 == name)).map (·.2) := by
  intro decls
  induction decls with
  | nil => intro _; rfl
  | cons d decls ih =>
    intro h
    have := ih (fun x hx => h x (List.mem_cons_of_mem _ hx))
    unfold lookupEnt entTable at *
    rw [List.map_cons, List.find?_cons, List.find?_cons]
    simp only []
    rw [prefix_semi d.1 name r (h d List.mem_cons_self) hm]
    cases hd : d.1 == name
    · exact this
    · rfl

/-- The predefined entities as a table of declarations. -/
def predefinedDecls : List (List Byte × List Byte) :=
  [(ascText "lt", ascText "&#60;"), (ascText "gt", ascText "&#62;"), (ascText "quot", ascText "&#34;"),
   (ascText "apos", ascText "&#39;"), (ascText "amp", ascText "&#38;")]

theorem predefined_table : predefinedEntities = entTable predefinedDecls := by decide +kernel

theorem predefined_all (decls : List (List Byte × List Byte)) : predefinedEntities ++ entTable decls = entTable (predefinedDecls ++ decls) := by
  rw [predefined_table]; unfold entTable; rw [List.map_append]

/-- Declarations a document may make: names without a semicolon and not starting like a character reference, and texts without
references. -/
def Sensible (decls : List (List Byte × List Byte)) : Prop :=
  ∀ d ∈ decls, (0 : Byte) ∉ d.1 ∧ asc ';' ∉ d.1 ∧ d.1.head? ≠ some (asc '#') ∧ (0 : Byte) ∉ d.2 ∧ asc '&' ∉ d.2 ∧ d.2.length < sizeMax

theorem known_lookup (name : List Byte) (c : Byte) (h : (name, c) ∈ predefined) :
    asc ';' ∉ name ∧ (0 : Byte) ∉ name ∧ name.head? ≠ some (asc '#') ∧ c ≠ 0 ∧ ∃ ds, (∀ x ∈ ds, digitVal x < 10) ∧ ds ≠ [] ∧ digitsVal 10 ds = c.toNat ∧ c.toNat < 128 ∧
      predefinedDecls.find? (fun d => d.1 == name) = some (name, [asc '&', asc '#'] ++ ds ++ [asc ';']) := by
  unfold predefined at h
  simp only [List.mem_cons, Prod.mk.injEq, List.not_mem_nil, or_false] at h
  rcases h with ⟨rfl, rfl⟩ | ⟨rfl, rfl⟩ | ⟨rfl, rfl⟩ | ⟨rfl, rfl⟩ | ⟨rfl, rfl⟩
  · exact ⟨by decide, by decide, by decide, by decide, ascText "60", by decide +kernel⟩
  · exact ⟨by decide, by decide, by decide, by decide, ascText "62", by decide +kernel⟩
  · exact ⟨by decide, by decide, by decide, by decide, ascText "38", by decide +kernel⟩
  · exact ⟨by decide, by decide, by decide, by decide, ascText "39", by decide +kernel⟩
  · exact ⟨by decide, by decide, by decide, by decide, ascText "34", by decide +kernel⟩

/-- A reference is replaced by the text of its entity. -/
theorem step_entity (junk : Nat → Byte) (st : XmlState) (hst : st = .general ∨ st = .attribute ∨ st = .token) (decls : List (List Byte × List Byte)) (hk : ∀ d ∈ decls, (0 : Byte) ∉ d.1 ∧ asc ';' ∉ d.1)
    (d name r t v : List Byte) (own : Bool) (hd : (0 : Byte) ∉ d) (hn0 : (0 : Byte) ∉ name) (hn : asc ';' ∉ name) (hh : name.head? ≠ some (asc '#')) (hr : (0 : Byte) ∉ r)
    (hf : decls.find? (fun d => d.1 == name) = some (name, v)) (hv : v ≠ []) (hvs : v.length < sizeMax) :
    ∃ t' own', entityStep junk (entTable decls) st (scan d (asc '&' :: (name ++ asc ';' :: r)) t own) = .ok (some (scan d (v ++ r) t' own')) := by
  have hhd : (name ++ asc ';' :: r).headD 0 ≠ asc '#' := by
    cases name with
    | nil => show asc ';' ≠ asc '#'; decide
    | cons c name => intro e; exact hh (by simpa using e)
  rw [step_other junk _ _ d _ t _ own (by decide) (fun h => hhd h.2.2)]
  rw [if_pos (by rcases hst with rfl | rfl | rfl <;> decide)]
  rw [findEntity_spec d _ t _ _ (by
    intro e he
    obtain ⟨x, hx, rfl⟩ := List.mem_map.mp he
    simp only [List.mem_append, List.mem_singleton, not_or]
    exact ⟨(hk x hx).1, by decide⟩), Res.ok_bind]
  rw [lookup_table name r hn decls (fun x hx => (hk x hx).2), hf]
  simp only [Option.map_some]
  obtain ⟨d', r', t', own', h, hl, hcase⟩ := replace_text junk d (asc '&' :: name) r t v own
    (by simp only [List.mem_cons, not_or]; exact ⟨by decide, hn0⟩) (by simp only [List.mem_cons, not_or]; exact ⟨by decide, hn⟩) hr hv hvs
  rw [show (asc '&' :: (name ++ asc ';' :: r)) = (asc '&' :: name) ++ asc ';' :: r from rfl, h, Res.ok_bind]
  rcases hcase with ⟨_, rfl, rfl⟩ | ⟨h0, _⟩
  · exact ⟨t', own', rfl⟩
  · exact absurd h0 hd

theorem hexDigit_val (c : Byte) (n : Nat) (h : hexDigit c = some n) : digitVal c = n := by
  have key : ∀ c : Byte, ∀ n, hexDigit c = some n → digitVal c = n := by
    intro c n h
    have k2 : ∀ c : Byte, hexDigit c = none ∨ hexDigit c = some (digitVal c) := by decide +kernel
    rcases k2 c with e | e
    · rw [e] at h; cases h
    · rw [e] at h; exact Option.some.inj h
  exact key c n h

theorem writes_digits (base : Nat) (bs : List Byte) (n : Nat) (h : Writes base bs n) : bs ≠ [] ∧ (∀ c ∈ bs, digitVal c < base) ∧ digitsVal base bs = n := by
  obtain ⟨ds, he, hlt, hne, rfl⟩ := h
  have hmap : bs.map digitVal = ds := by
    clear hne hlt
    induction bs generalizing ds with
    | nil => cases ds with
      | nil => rfl
      | cons _ _ => simp at he
    | cons b bs ih =>
      cases ds with
      | nil => simp at he
      | cons d ds =>
        simp only [List.map_cons, List.cons.injEq] at he ⊢
        exact ⟨hexDigit_val b d he.1, ih ds he.2⟩
  refine ⟨?_, ?_, ?_⟩
  · intro e; subst e; exact hne (by simpa using hmap.symm)
  · intro c hc
    exact hlt _ (hmap ▸ List.mem_map_of_mem hc)
  · unfold digitsVal
    rw [← hmap, List.foldl_map]

theorem utf8_no_nul (n : Nat) (h0 : n ≠ 0) (h : n < 0x110000) : (0 : Byte) ∉ utf8Char n := by
  have key : ∀ x : Nat, 0 < x → x < 256 → (0 : Byte) ≠ BitVec.ofNat 8 x := by
    intro x hx hx2 e
    have := congrArg BitVec.toNat e
    simp at this
    omega
  unfold utf8Char
  split
  · simp only [List.mem_singleton]; exact key n (by omega) (by omega)
  · split
    · simp only [List.mem_cons, List.not_mem_nil, or_false, not_or]
      exact ⟨key _ (by omega) (by omega), key _ (by omega) (by omega)⟩
    · split
      · simp only [List.mem_cons, List.not_mem_nil, or_false, not_or]
        exact ⟨key _ (by omega) (by omega), key _ (by omega) (by omega), key _ (by omega) (by omega)⟩
      · simp only [List.mem_cons, List.not_mem_nil, or_false, not_or]
        exact ⟨key _ (by omega) (by omega), key _ (by omega) (by omega), key _ (by omega) (by omega), key _ (by omega) (by omega)⟩

theorem scalar_lt {n : Nat} (h : Scalar n) : n < 0x110000 := by unfold Scalar at h; omega

/-- A text that means something has no NUL, nor has its meaning. -/
theorem means_no_nul {lit decls t o} (hl : ∀ c, c ≠ 0 → lit c ≠ 0) (hs : Sensible decls) (h : Means lit decls t o) : (0 : Byte) ∉ t ∧ (0 : Byte) ∉ o := by
  have hdig : ∀ base bs n, (base = 10 ∨ base = 16) → Writes base bs n → (0 : Byte) ∉ bs := by
    intro base bs n hb hw h0
    exact (not_space_digit base hb 0 ((writes_digits base bs n hw).2.1 0 h0)).2.2.2.2.1 rfl
  induction h with
  | done => simp
  | plain hc h0 _ ih => simp only [List.mem_cons, not_or]; exact ⟨⟨fun e => h0 e.symm, ih.1⟩, fun e => hl _ h0 e.symm, ih.2⟩
  | decimal hw hn hsc _ ih =>
    simp only [List.mem_append, not_or]
    exact ⟨⟨⟨⟨by decide, hdig 10 _ _ (.inl rfl) hw⟩, by decide⟩, ih.1⟩, utf8_no_nul _ hn (scalar_lt hsc), ih.2⟩
  | hex hw hn hsc _ ih =>
    simp only [List.mem_append, not_or]
    exact ⟨⟨⟨⟨by decide, hdig 16 _ _ (.inr rfl) hw⟩, by decide⟩, ih.1⟩, utf8_no_nul _ hn (scalar_lt hsc), ih.2⟩
  | known hk _ ih =>
    have := known_lookup _ _ hk
    simp only [List.mem_append, List.mem_cons, not_or]
    exact ⟨⟨⟨⟨by decide, this.2.1⟩, by decide⟩, ih.1⟩, fun e => this.2.2.2.1 e.symm, ih.2⟩
  | entity _ hf _ ih =>
    have := hs _ (List.mem_of_find?_eq_some hf)
    simp only [List.mem_append, not_or]
    refine ⟨⟨⟨⟨by decide, this.1⟩, by decide⟩, ih.1⟩, fun hm => ?_, ih.2⟩
    obtain ⟨c, hc, e⟩ := List.mem_map.mp hm
    exact hl c (fun e => this.2.2.2.1 (e ▸ hc)) e

theorem find_append_left {decls : List (List Byte × List Byte)} {name : List Byte} {p : List Byte × List Byte} (h : predefinedDecls.find? (fun d => d.1 == name) = some p) :
    (predefinedDecls ++ decls).find? (fun d => d.1 == name) = some p := by
  rw [List.find?_append, h]; rfl

theorem sensible_keys {decls : List (List Byte × List Byte)} (hs : Sensible decls) : ∀ d ∈ predefinedDecls ++ decls, (0 : Byte) ∉ d.1 ∧ asc ';' ∉ d.1 := by
  intro d hd
  rcases List.mem_append.mp hd with h | h
  · have key : ∀ d ∈ predefinedDecls, (0 : Byte) ∉ d.1 ∧ asc ';' ∉ d.1 := by decide +kernel
    exact key d h
  · exact ⟨(hs d h).1, (hs d h).2.1⟩

theorem predefined_names : ∀ d ∈ predefinedDecls, ∃ c, (d.1, c) ∈ predefined := by
  intro d hd
  have key : ∀ d ∈ predefinedDecls, (predefined.any (fun p => p.1 == d.1)) = true := by decide +kernel
  obtain ⟨p, hp, he⟩ := List.any_eq_true.mp (key d hd)
  exact ⟨p.2, by have : p.1 = d.1 := by simpa using he
                 rw [← this]; exact hp⟩

/-- The loop turns a text into its meaning. -/
theorem runs_means (junk : Nat → Byte) (st : XmlState) (hst : st = .general ∨ st = .attribute ∨ st = .token) (decls : List (List Byte × List Byte)) (hs : Sensible decls) (hne : ∀ d ∈ decls, d.2 ≠ []) {t o : List Byte} (h : Means (litOf st) decls t o) :
    ∀ (d T : List Byte) (own : Bool), (0 : Byte) ∉ d →
      ∃ T', Runs junk (predefinedEntities ++ entTable decls) st (scan d t T own) (d ++ (o ++ 0 :: T')) := by
  have hcd : st ≠ .cdata := by rcases hst with rfl | rfl | rfl <;> decide
  have hpar : st ≠ .parameter := by rcases hst with rfl | rfl | rfl <;> decide
  have hl := litOf_ne_zero st
  rw [predefined_all]
  induction h with
  | done => intro d T own _; exact ⟨T, .stop d T own⟩
  | @plain c r o hc h0 hm ih =>
    intro d T own hd
    obtain ⟨T', h⟩ := ih (d ++ [litOf st c]) T own (by simp only [List.mem_append, List.mem_singleton, not_or]; exact ⟨hd, fun e => hl c h0 e.symm⟩)
    exact ⟨T', .next (step_lit junk _ _ hpar d r T c own h0 hc) (by simpa using h)⟩
  | @decimal bs n r o hw hn hsc hm ih =>
    intro d T own hd
    have hwd := writes_digits _ _ _ hw
    have hnul := means_no_nul hl hs hm
    obtain ⟨T1, h1⟩ := step_char junk (entTable (predefinedDecls ++ decls)) st d bs r T own false hcd hwd.1 hwd.2.1 (by simp only [Bool.false_eq_true, if_false]; rw [hwd.2.2]; exact hn)
      (by simp only [Bool.false_eq_true, if_false]; rw [hwd.2.2]; exact scalar_lt hsc) hnul.1
    simp only [Bool.false_eq_true, if_false] at h1
    rw [hwd.2.2] at h1
    obtain ⟨T2, h2⟩ := ih (d ++ utf8Char n) T1 own (by simp only [List.mem_append, not_or]; exact ⟨hd, utf8_no_nul n hn (scalar_lt hsc)⟩)
    refine ⟨T2, .next (s' := scan (d ++ utf8Char n) r T1 own) ?_ (by simpa using h2)⟩
    rw [← h1]
    congr 2
    simp [bytes, asc]
  | @hex bs n r o hw hn hsc hm ih =>
    intro d T own hd
    have hwd := writes_digits _ _ _ hw
    have hnul := means_no_nul hl hs hm
    obtain ⟨T1, h1⟩ := step_char junk (entTable (predefinedDecls ++ decls)) st d bs r T own true hcd hwd.1 hwd.2.1 (by simp only [if_true]; rw [hwd.2.2]; exact hn)
      (by simp only [if_true]; rw [hwd.2.2]; exact scalar_lt hsc) hnul.1
    simp only [if_true] at h1
    rw [hwd.2.2] at h1
    obtain ⟨T2, h2⟩ := ih (d ++ utf8Char n) T1 own (by simp only [List.mem_append, not_or]; exact ⟨hd, utf8_no_nul n hn (scalar_lt hsc)⟩)
    refine ⟨T2, .next (s' := scan (d ++ utf8Char n) r T1 own) ?_ (by simpa using h2)⟩
    rw [← h1]
    congr 2
    simp [bytes, asc]
  | @known name c r o hk hm ih =>
    intro d T own hd
    obtain ⟨hsemi, hn0, hhd, hc0, ds, hdd, hdne, hdv, hc128, hf⟩ := known_lookup _ _ hk
    have hnul := means_no_nul hl hs hm
    have hlen : ([asc '&', asc '#'] ++ ds ++ [asc ';']).length < sizeMax := by
      have key : ∀ d ∈ predefinedDecls, d.2.length < 100 := by decide +kernel
      have : ([asc '&', asc '#'] ++ ds ++ [asc ';']).length < 100 := key _ (List.mem_of_find?_eq_some hf)
      have e : sizeMax = 2 ^ 64 := by unfold sizeMax; rfl
      omega
    obtain ⟨T1, own1, h1⟩ := step_entity junk st hst (predefinedDecls ++ decls) (sensible_keys hs) d name r T _ own hd hn0 hsemi hhd hnul.1 (find_append_left hf) (by simp) hlen
    obtain ⟨T2, h2⟩ := step_char junk (entTable (predefinedDecls ++ decls)) st d ds r T1 own1 false hcd hdne hdd (by
      simp only [Bool.false_eq_true, if_false]; rw [hdv]; intro e; exact hc0 (by apply BitVec.eq_of_toNat_eq; simpa using e))
      (by simp only [Bool.false_eq_true, if_false]; rw [hdv]; omega) hnul.1
    simp only [Bool.false_eq_true, if_false] at h2
    rw [hdv] at h2
    have hu : utf8Char c.toNat = [c] := by unfold utf8Char; rw [if_pos (by omega)]; simp
    rw [hu] at h2
    obtain ⟨T3, h3⟩ := ih (d ++ [c]) T2 own1 (by simp only [List.mem_append, List.mem_singleton, not_or]; exact ⟨hd, fun e => hc0 e.symm⟩)
    refine ⟨T3, .next (s' := scan d ([asc '&', asc '#'] ++ ds ++ [asc ';'] ++ r) T1 own1) ?_ (.next (s' := scan (d ++ [c]) r T2 own1) ?_ (by simpa using h3))⟩
    · rw [← h1]
      congr 2
      simp [bytes, asc]
    · rw [← h2]
      congr 2
      simp
  | @entity name v r o hk hf hm ih =>
    intro d T own hd
    have hsd := hs _ (List.mem_of_find?_eq_some hf)
    have hv := hne _ (List.mem_of_find?_eq_some hf)
    have hnul := means_no_nul hl hs hm
    have hf' : (predefinedDecls ++ decls).find? (fun d => d.1 == name) = some (name, v) := by
      have hnone : predefinedDecls.find? (fun d => d.1 == name) = none := by
        rw [List.find?_eq_none]
        intro x hx e
        have e : x.1 = name := by simpa using e
        obtain ⟨c, hc⟩ := predefined_names x hx
        rw [e] at hc
        exact hk c hc
      rw [List.find?_append, hnone, hf]; rfl
    obtain ⟨T1, own1, h1⟩ := step_entity junk st hst (predefinedDecls ++ decls) (sensible_keys hs) d name r T v own hd hsd.1 hsd.2.1 hsd.2.2.1 hnul.1 hf' hv hsd.2.2.2.2.2
    obtain ⟨T2, h2⟩ := ih (d ++ v.map (litOf st)) T1 own1 (by simp only [List.mem_append, not_or]; exact ⟨hd, litOf_no_nul st v hsd.2.2.2.1⟩)
    refine ⟨T2, .next (s' := scan d (v ++ r) T1 own1) ?_ (runs_lit hpar r T1 _ own1 v d hsd.2.2.2.1 hsd.2.2.2.2.1 (by simpa using h2))⟩
    rw [← h1]
    congr 2
    simp [bytes, asc]

/-! ### Line ends -/

/-- The text does not end with a line end that has a carriage return. -/
def EndsWell (s : List Byte) : Prop := ¬ [13] <:+ s ∧ ¬ [13, 10] <:+ s

theorem EndsWell.suffix {s s' : List Byte} (h : EndsWell s) (hs : s' <:+ s) : EndsWell s' :=
  ⟨fun h1 => h.1 (h1.trans hs), fun h1 => h.2 (h1.trans hs)⟩

theorem lines_crlf (s : List Byte) : lines (13 :: 10 :: s) = 10 :: lines s := by rw [lines, if_pos ⟨rfl, rfl⟩]
theorem lines_cr (s : List Byte) (h : s.head? ≠ some 10) : lines (13 :: s) = 10 :: lines s := by
  cases s with
  | nil => rfl
  | cons x s => rw [lines, if_neg (by rintro ⟨_, e⟩; exact h (by rw [e]; rfl)), if_pos rfl]
theorem lines_other (c : Byte) (s : List Byte) (h : c ≠ 13) : lines (c :: s) = c :: lines s := by
  cases s with
  | nil => show (if c = 13 then [10] else [c]) = _; rw [if_neg h]; rfl
  | cons x s => rw [lines, if_neg (fun e => h e.1), if_neg h]

theorem normalize_spec : ∀ (n fuel : Nat) (inner : Bool) (s d t : List Byte), s.length ≤ n → s.length < fuel → (0 : Byte) ∉ s → EndsWell s → (inner = true → s ≠ []) →
    ∃ t', normalizeLines fuel inner (d ++ (s ++ 0 :: t)) d.length = .ok (d ++ (lines s ++ 0 :: t')) := by
  intro n
  induction n with
  | zero =>
    intro fuel inner s d t hn hf _ _ hin
    have : s = [] := by simpa using hn
    subst this
    cases fuel with
    | zero => omega
    | succ fuel =>
      cases inner with
      | true => exact absurd rfl (hin rfl)
      | false =>
        refine ⟨t, ?_⟩
        unfold normalizeLines
        rw [rd_app0]
        rfl
  | succ n ih =>
    intro fuel inner s d t hn hf h0 hw hin
    cases s with
    | nil =>
      cases fuel with
      | zero => omega
      | succ fuel =>
        cases inner with
        | true => exact absurd rfl (hin rfl)
        | false =>
          refine ⟨t, ?_⟩
          unfold normalizeLines
          rw [rd_app0]
          rfl
    | cons c s =>
      simp only [List.mem_cons, not_or] at h0
      simp only [List.length_cons] at hn hf
      cases fuel with
      | zero => omega
      | succ fuel =>
        unfold normalizeLines
        rw [rd_app0, show rd ((c :: s) ++ 0 :: t) 0 = .ok c from rfl, Res.ok_bind, if_neg (fun h => h0.1 h.2.symm)]
        by_cases hc : c = 0x0d
        · subst hc
          have hsne : s ≠ [] := by
            intro e; subst e; exact hw.1 ⟨[], rfl⟩
          rw [if_pos rfl, List.cons_append, wr_at, Res.ok_bind, rd_app]
          cases s with
          | nil => exact absurd rfl hsne
          | cons x s =>
            rw [show rd (0x0a :: ((x :: s) ++ 0 :: t)) 1 = .ok x from rfl, Res.ok_bind]
            simp only [List.mem_cons, not_or] at h0
            by_cases hx : x = 0x0a
            · subst hx
              have hsne2 : s ≠ [] := by
                intro e; subst e; exact hw.2 ⟨[], rfl⟩
              rw [if_pos rfl, drop_app]
              rw [show (0x0a :: (((0x0a : Byte) :: s) ++ 0 :: t)).drop 1 = (0x0a :: s) ++ 0 :: t from rfl,
                strlenMem_text _ _ (by simp only [List.mem_cons, not_or]; exact ⟨by decide, h0.2.2⟩), Res.ok_bind]
              have hmv : memmoveMem ((0x0a :: s) ++ 0 :: t) 0 1 ((0x0a : Byte) :: s).length = .ok (s ++ 0 :: (((0x0a : Byte) :: s) ++ 0 :: t).drop (s.length + 1)) := by
                rw [memmove_front _ _ _ (by simp; omega)]
                congr 1
                rw [show (((0x0a : Byte) :: s) ++ 0 :: t).drop 1 = (s ++ [0]) ++ t by simp, List.take_left' (by simp)]
                simp
              have hmv2 := memmove_app (d ++ [0x0a]) _ _ 0 1 _ hmv
              simp only [List.length_append, List.length_singleton, List.append_assoc, List.singleton_append, Nat.add_zero] at hmv2
              rw [show d.length + 2 = d.length + 1 + 1 from rfl, List.cons_append] at *
              rw [hmv2, Res.ok_bind]
              obtain ⟨t', ht'⟩ := ih fuel true s (d ++ [0x0a]) _ (by simp at hn; omega) (by simp at hf; omega) h0.2.2 (hw.suffix ⟨[13, 10], rfl⟩) (fun _ => hsne2)
              refine ⟨t', ?_⟩
              rw [show (0x0a : Byte) = 10 from rfl, show (0x0d : Byte) = 13 from rfl, lines_crlf]
              simp only [List.length_append, List.length_singleton, List.append_assoc, List.singleton_append] at ht'
              exact ht'
            · rw [if_neg hx]
              obtain ⟨t', ht'⟩ := ih fuel true (x :: s) (d ++ [0x0a]) t (by simpa using hn) (by simpa using hf)
                (by simp only [List.mem_cons, not_or]; exact ⟨h0.2.1, h0.2.2⟩) (hw.suffix ⟨[13], rfl⟩) (fun _ => by simp)
              refine ⟨t', ?_⟩
              rw [show (0x0d : Byte) = 13 from rfl, lines_cr _ (by simpa using hx)]
              simp only [List.length_append, List.length_singleton, List.append_assoc, List.singleton_append] at ht'
              exact ht'
        · rw [if_neg hc]
          obtain ⟨t', ht'⟩ := ih fuel false s (d ++ [c]) t (by omega) (by omega) h0.2 (hw.suffix ⟨[c], rfl⟩) (fun h => by cases h)
          refine ⟨t', ?_⟩
          rw [lines_other c s hc]
          simp only [List.length_append, List.length_singleton, List.append_assoc, List.singleton_append] at ht'
          rw [List.cons_append]
          exact ht'

theorem normalize_start (s t : List Byte) (h0 : (0 : Byte) ∉ s) (hw : EndsWell s) :
    ∃ t', normalizeLines (2 * (s ++ 0 :: t).length + 1) false (s ++ 0 :: t) 0 = .ok (lines s ++ 0 :: t') :=
  normalize_spec s.length _ false s [] t (Nat.le_refl _) (by simp; omega) h0 hw (fun h => by cases h)

theorem runs_parse {junk ents st mem} (s t : List Byte) (hst : st ≠ .token) (h0 : (0 : Byte) ∉ s) (hw : EndsWell s)
    (h : ∀ t', ∃ T, Runs junk ents st (scan [] (lines s) t' false) (mem ++ 0 :: T)) (hm : (0 : Byte) ∉ mem) :
    ∃ f0, ∀ f ≥ f0, parseEntities junk f (s ++ 0 :: t) ents st = .ok mem := by
  obtain ⟨t', ht'⟩ := normalize_start s t h0 hw
  obtain ⟨T, f0, hf⟩ := h t'
  refine ⟨f0, fun f hge => ?_⟩
  unfold parseEntities
  rw [ht', Res.ok_bind]
  have := hf f hge
  unfold scan at this
  simp only [List.nil_append, List.length_nil] at this
  rw [this, Res.ok_bind, if_neg hst, Res.ok_bind]
  show Res.ok (textOf (mem ++ 0 :: T)) = _
  rw [textOf_text _ _ hm]

theorem lines_no_nul (s : List Byte) (h : (0 : Byte) ∉ s) : (0 : Byte) ∉ lines s := by
  fun_induction lines s with
  | case1 => exact h
  | case2 => decide
  | case3 c hc => exact h
  | case4 c x s _ ih => simp only [List.mem_cons, not_or] at h ⊢; exact ⟨by decide, ih h.2.2⟩
  | case5 x s _ ih => simp only [List.mem_cons, not_or] at h ih ⊢; exact ⟨by decide, ih ⟨h.2.1, h.2.2⟩⟩
  | case6 c x s _ _ ih => simp only [List.mem_cons, not_or] at h ih ⊢; exact ⟨h.1, ih ⟨h.2.1, h.2.2⟩⟩

/-- **C85** (partial) The text of a CDATA section that does not end with a carriage return, or a carriage return and a line feed, is read
with every line end turned into a line feed and nothing else changed.  Missing: texts with such an end (`C85_end_violated`). -/
theorem C85_lines_partial (junk : Nat → Byte) (ents : List (List Byte × List Byte)) (s after : List Byte) (h0 : (0 : Byte) ∉ s) (hw : EndsWell s) :
    ∃ f0, ∀ f ≥ f0, parseEntities junk f (s ++ 0 :: after) ents .cdata = .ok (lines s) := by
  have hl := lines_no_nul s h0
  refine runs_parse s after (by decide) h0 hw (fun t' => ⟨t', ?_⟩) hl
  have := runs_plain (junk := junk) (ents := ents) (.inr rfl) [] t' (lines s ++ 0 :: t') false (lines s) [] hl (.inl rfl) (Runs.stop _ _ _)
  simpa using this

/-- **C84** (partial) Reading content: every character reference stands for its character, every reference to one of the five predefined
entities for its character, every reference to a declared entity for its text, and every other byte for itself — for all declarations
and all contents.  Missing: entities with an empty text (`C84_empty_violated`). -/
theorem C84_decode_partial (junk : Nat → Byte) (decls : List (List Byte × List Byte)) (hs : Sensible decls) (hne : ∀ d ∈ decls, d.2 ≠ []) (s o after : List Byte)
    (h0 : (0 : Byte) ∉ s) (hw : EndsWell s) (h : Means content decls (lines s) o) :
    ∃ f0, ∀ f ≥ f0, parseEntities junk f (s ++ 0 :: after) (predefinedEntities ++ entTable decls) .general = .ok o := by
  have hnul := means_no_nul (fun _ h => h) hs h
  refine runs_parse s after (by decide) h0 hw (fun t' => ?_) hnul.2
  obtain ⟨T, hr⟩ := runs_means junk .general (.inl rfl) decls hs hne (by rw [litOf_content _ (.inl rfl)]; exact h) [] t' false (by simp)
  exact ⟨T, hr⟩

theorem means_plain (decls : List (List Byte × List Byte)) : ∀ (v : List Byte), (0 : Byte) ∉ v → asc '&' ∉ v → Means content decls v v := by
  intro v
  induction v with
  | nil => intro _ _; exact .done
  | cons c v ih =>
    intro h0 ha
    simp only [List.mem_cons, not_or] at h0 ha
    exact .plain (fun e => ha.1 e.symm) (fun e => h0.1 e.symm) (ih h0.2 ha.2)

theorem lines_id : ∀ (s : List Byte), (13 : Byte) ∉ s → lines s = s := by
  intro s
  induction s with
  | nil => intro _; rfl
  | cons c s ih =>
    intro h
    simp only [List.mem_cons, not_or] at h
    rw [lines_other c s (fun e => h.1 e.symm), ih h.2]

theorem endsWell_of (s : List Byte) (h : (13 : Byte) ∉ s) : EndsWell s := by
  refine ⟨fun hs => ?_, fun hs => ?_⟩
  · exact h (hs.subset (by simp))
  · exact h (hs.subset (by simp))

/-- **C84** A reference to an entity with an empty text loses the end of the content: as many bytes as the reference is long.  (The buffer
for the new text is computed from the new length, but the old text is copied into it.) -/
theorem C84_empty_violated (junk : Nat → Byte) (name tail after : List Byte) (hn : (0 : Byte) ∉ name ∧ asc ';' ∉ name ∧ name.head? ≠ some (asc '#') ∧ (13 : Byte) ∉ name)
    (hk : ∀ c, (name, c) ∉ predefined) (ht : (0 : Byte) ∉ tail ∧ asc '&' ∉ tail ∧ (13 : Byte) ∉ tail) (hl : name.length + 2 ≤ tail.length) (hsz : name.length + 2 < sizeMax) :
    Means content [(name, [])] (bytes "&" ++ name ++ bytes ";" ++ tail) tail ∧
    (∃ f0, ∀ f ≥ f0, parseEntities junk f (bytes "&" ++ name ++ bytes ";" ++ tail ++ 0 :: after) (predefinedEntities ++ entTable [(name, [])]) .general =
      .ok (tail.take (tail.length - (name.length + 2)))) ∧
    tail.take (tail.length - (name.length + 2)) ≠ tail := by
  have hs : bytes "&" ++ name ++ bytes ";" ++ tail = asc '&' :: (name ++ asc ';' :: tail) := by simp [bytes, asc]
  have hcr : (13 : Byte) ∉ bytes "&" ++ name ++ bytes ";" ++ tail := by
    simp only [List.mem_append, not_or]; exact ⟨⟨⟨by decide, hn.2.2.2⟩, by decide⟩, ht.2.2⟩
  refine ⟨?_, ?_, ?_⟩
  · exact .entity (v := []) hk (by simp) (means_plain _ tail ht.1 ht.2.1)
  · refine runs_parse _ after (by decide) ?_ (endsWell_of _ hcr) (fun T => ?_) (fun h => ht.1 (List.mem_of_mem_take h))
    · simp only [List.mem_append, not_or]; exact ⟨⟨⟨by decide, hn.1⟩, by decide⟩, ht.1⟩
    rw [lines_id _ hcr, hs]
    have hhd : (name ++ asc ';' :: tail).headD 0 ≠ asc '#' := by
      cases name with
      | nil => show asc ';' ≠ asc '#'; decide
      | cons c name => intro e; exact hn.2.2.1 (by simpa using e)
    have hkeys : ∀ d ∈ predefinedDecls ++ [(name, ([] : List Byte))], (0 : Byte) ∉ d.1 ∧ asc ';' ∉ d.1 := by
      intro d hd
      rcases List.mem_append.mp hd with h | h
      · have key : ∀ d ∈ predefinedDecls, (0 : Byte) ∉ d.1 ∧ asc ';' ∉ d.1 := by decide +kernel
        exact key d h
      · rw [List.mem_singleton.mp h]; exact ⟨hn.1, hn.2.1⟩
    have hfind : (predefinedDecls ++ [(name, ([] : List Byte))]).find? (fun d => d.1 == name) = some (name, []) := by
      have hnone : predefinedDecls.find? (fun d => d.1 == name) = none := by
        rw [List.find?_eq_none]
        intro x hx e
        have e : x.1 = name := by simpa using e
        obtain ⟨c, hc⟩ := predefined_names x hx
        rw [e] at hc
        exact hk c hc
      rw [List.find?_append, hnone]; simp
    -- the step
    have hstep : ∃ T', entityStep junk (predefinedEntities ++ entTable [(name, [])]) .general (scan [] (asc '&' :: (name ++ asc ';' :: tail)) T false) =
        .ok (some (scan [] (tail.take (tail.length - (name.length + 2))) T' true)) := by
      rw [predefined_all, step_other junk _ _ [] _ T _ false (by decide) (fun h => hhd h.2.2), if_pos (by decide)]
      rw [findEntity_spec [] _ T _ _ (by
        intro e he
        obtain ⟨x, hx, rfl⟩ := List.mem_map.mp he
        simp only [List.mem_append, List.mem_singleton, not_or]
        exact ⟨(hkeys x (by simpa using hx)).1, by decide⟩), Res.ok_bind]
      rw [lookup_table name tail hn.2.1 _ (fun x hx => (hkeys x hx).2), hfind]
      simp only [Option.map_some]
      have hm0 : (0 : Byte) ∉ asc '&' :: name := by simp only [List.mem_cons, not_or]; exact ⟨by decide, hn.1⟩
      have hm : asc ';' ∉ asc '&' :: name := by simp only [List.mem_cons, not_or]; exact ⟨by decide, hn.2.1⟩
      generalize hmm : asc '&' :: name = m at hm0 hm
      have hml : m.length = name.length + 1 := by rw [← hmm]; simp
      rw [show asc '&' :: (name ++ asc ';' :: tail) = m ++ asc ';' :: tail by rw [← hmm]; rfl]
      have hr0 : (0 : Byte) ∉ m ++ asc ';' :: tail := by
        simp only [List.mem_append, List.mem_cons, not_or]; exact ⟨hm0, by decide, ht.1⟩
      have hsplit : ∀ u : List Byte, (m ++ asc ';' :: tail) ++ 0 :: u = m ++ asc ';' :: (tail ++ 0 :: u) := by intro u; simp
      have hn' : strlenMem (((m ++ asc ';' :: tail) ++ 0 :: T).drop m.length) = .ok (tail.length + 1) := by
        rw [hsplit, List.drop_append_length, show asc ';' :: (tail ++ 0 :: T) = (asc ';' :: tail) ++ 0 :: T from rfl, strlenMem_text _ _ (by
          simp only [List.mem_cons, not_or]; exact ⟨by decide, ht.1⟩)]
        rfl
      have hr : ∃ T', replaceEntity junk ([] ++ ((m ++ asc ';' :: tail) ++ 0 :: T)) false ([] : List Byte).length [] = .ok (tail.take (tail.length - (name.length + 2)) ++ 0 :: T', true) := by
        unfold replaceEntity
        simp only [List.nil_append, List.length_nil, List.drop_zero]
        rw [hsplit, strchrMem_some m _ hm0 hm, Res.ok_bind]
        simp only []
        rw [if_pos (by rw [Nat.zero_add, Nat.mod_eq_of_lt (by omega)]; omega), ← hsplit, Nat.zero_add, hn', Res.ok_bind]
        obtain ⟨T1, hg⟩ := growEmpty_new junk [] (m ++ asc ';' :: tail) T (tail.length + 1) (by simp) hr0 (by omega) (by simp)
        simp only [List.nil_append, List.length_nil, Nat.add_sub_cancel] at hg
        rw [hg, Res.ok_bind]
        have htk : (m ++ asc ';' :: tail).take tail.length = m ++ asc ';' :: tail.take (tail.length - (name.length + 2)) := by
          rw [List.take_append, List.take_of_length_le (by omega), show tail.length - m.length = (tail.length - (name.length + 2)) + 1 by omega, List.take_succ_cons]
        rw [htk, show (m ++ asc ';' :: tail.take (tail.length - (name.length + 2))) ++ 0 :: T1 = m ++ asc ';' :: (tail.take (tail.length - (name.length + 2)) ++ 0 :: T1) by simp,
          strchrMem_some m _ hm0 hm, Res.ok_bind]
        obtain ⟨T2, hp⟩ := putEntity_some [] m (tail.take (tail.length - (name.length + 2))) T1 [] (fun h => ht.1 (List.mem_of_mem_take h)) (by simp; omega)
        simp only [List.nil_append, List.length_nil] at hp
        rw [hp]
        exact ⟨T2, rfl⟩
      obtain ⟨T', hr⟩ := hr
      rw [hr, Res.ok_bind]
      exact ⟨T', rfl⟩
    obtain ⟨T', hstep⟩ := hstep
    refine ⟨T', .next hstep ?_⟩
    have := runs_plain (junk := junk) (ents := predefinedEntities ++ entTable [(name, [])]) (.inl rfl) [] T' (tail.take (tail.length - (name.length + 2)) ++ 0 :: T') true
      (tail.take (tail.length - (name.length + 2))) [] (fun h => ht.1 (List.mem_of_mem_take h)) (.inr (fun h => ht.2.1 (List.mem_of_mem_take h))) (Runs.stop _ _ _)
    simpa using this
  · intro e
    have := congrArg List.length e
    rw [List.length_take] at this
    omega

/-- The hypotheses of `C84_empty_violated` can be met: `&e;abc` loses its last three bytes. -/
example : ((0 : Byte) ∉ bytes "e" ∧ asc ';' ∉ bytes "e" ∧ (bytes "e").head? ≠ some (asc '#') ∧ (13 : Byte) ∉ bytes "e") ∧
    ((0 : Byte) ∉ bytes "abc" ∧ asc '&' ∉ bytes "abc" ∧ (13 : Byte) ∉ bytes "abc") ∧ (bytes "e").length + 2 ≤ (bytes "abc").length ∧
    (bytes "abc").take ((bytes "abc").length - ((bytes "e").length + 2)) = [] := by decide +kernel

/-- **C85** A text that ends with a carriage return: the scan for line ends steps over the NUL and reads on behind the text. -/
theorem C85_end_violated (junk : Nat → Byte) (ents : List (List Byte × List Byte)) (st : XmlState) (s : List Byte) (h0 : (0 : Byte) ∉ s) (hcr : (13 : Byte) ∉ s) (f : Nat) :
    parseEntities junk f (s ++ [13, 0]) ents st = .ub := by
  have key : ∀ (s d : List Byte) (fuel : Nat), (0 : Byte) ∉ s → (13 : Byte) ∉ s → s.length + 2 < fuel →
      normalizeLines fuel false (d ++ (s ++ [13, 0])) d.length = .ub := by
    intro s
    induction s with
    | nil =>
      intro d fuel _ _ hf
      match fuel, hf with
      | fuel + 3, _ =>
      unfold normalizeLines
      rw [rd_app0, show rd ([] ++ [(13 : Byte), 0]) 0 = .ok 13 from rfl, Res.ok_bind, if_neg (by decide), if_pos rfl, List.nil_append, wr_at, Res.ok_bind, rd_app,
        show rd [(0x0a : Byte), 0] 1 = .ok 0 from rfl, Res.ok_bind, if_neg (by decide)]
      unfold normalizeLines
      rw [rd_app, show rd [(0x0a : Byte), 0] 1 = .ok 0 from rfl, Res.ok_bind, if_neg (by decide), if_neg (by decide)]
      unfold normalizeLines
      rw [Nat.add_assoc, rd_app]
      rfl
    | cons c s ih =>
      intro d fuel h0 hcr hf
      simp only [List.mem_cons, not_or, List.length_cons] at h0 hcr hf
      cases fuel with
      | zero => omega
      | succ fuel =>
        unfold normalizeLines
        rw [rd_app0, show rd ((c :: s) ++ [13, 0]) 0 = .ok c from rfl, Res.ok_bind, if_neg (fun h => h0.1 h.2.symm), if_neg (fun h => hcr.1 h.symm)]
        have := ih (d ++ [c]) fuel h0.2 hcr.2 (by omega)
        simpa using this
  unfold parseEntities
  have := key s [] (2 * (s ++ [13, 0]).length + 1) h0 hcr (by simp; omega)
  simp only [List.nil_append, List.length_nil] at this
  rw [this]
  rfl

/-- **C85** The scan changes what lies behind the text: here the byte behind the NUL. -/
theorem C85_behind_violated : normalizeLines 12 false (bytes "a\r" ++ 0 :: bytes "\rb" ++ [0]) 0 = .ok (bytes "a\n" ++ 0 :: bytes "\nb" ++ [0]) := by decide +kernel

/-- A text with every kind of line end meets the hypotheses of `C85_lines_partial`. -/
example : (0 : Byte) ∉ bytes "a\r\nb\rc\n" ∧ lines (bytes "a\r\nb\rc\n") = bytes "a\nb\nc\n" ∧
    ¬ [13] <:+ bytes "a\r\nb\rc\n" ∧ ¬ [13, 10] <:+ bytes "a\r\nb\rc\n" := by decide +kernel

/-- `x &amp; &#65;&#x42;&who;!` with `who` declared as `C` meets the hypotheses of `C84_decode_partial`. -/
example : Sensible [(bytes "who", bytes "C")] ∧ Means content [(bytes "who", bytes "C")] (bytes "x&amp;&#65;&#x42;&who;!") (bytes "x&ABC!") := by
  refine ⟨?_, ?_⟩
  · intro d hd
    rw [List.mem_singleton.mp hd]
    refine ⟨by decide, by decide, by decide, by decide, by decide, ?_⟩
    have e : sizeMax = 2 ^ 64 := by unfold sizeMax; rfl
    rw [e]; decide
  · have h1 : Means content [(bytes "who", bytes "C")] (bytes "!") (bytes "!") := means_plain _ _ (by decide) (by decide)
    have h2 := Means.entity (name := bytes "who") (v := bytes "C") (decls := [(bytes "who", bytes "C")]) (by intro c; simp [predefined, bytes]) (by decide) h1
    have h3 := Means.hex (bs := bytes "42") (n := 66) ⟨[4, 2], by decide +kernel, by decide, by decide, by decide⟩ (by decide) (by decide) h2
    have h4 := Means.decimal (bs := bytes "65") (n := 65) ⟨[6, 5], by decide +kernel, by decide, by decide, by decide⟩ (by decide) (by decide) h3
    have h5 := Means.known (name := bytes "amp") (c := 38) (by decide +kernel) h4
    have h6 := Means.plain (c := 120) (by decide) (by decide) h5
    exact h6

end Wizard.Props

import Verif.Model.Doctype
import Verif.Spec.Doctype
import Verif.Lemmas.XmlDoc
/-! Lemmas about `ParseInternalDoctype`. -/
namespace Wizard.DocP
open Wizard Wizard.Spec.Xml Wizard.Props Wizard.XmlP

/-- Whatever the fuel beyond some amount, the loop yields `out`. -/
def Leads (junk : Nat → Byte) (s : DocState) (p : List Byte) (out : Option DocState) : Prop :=
  ∃ f0, ∀ f ≥ f0, ∀ k, p.length < k → docLoop junk f k s p = .ok out

def skips (c : Byte) : Bool := c != asc '<' && c != asc '%'

theorem Leads.skip {junk s p out} (a : List Byte) (ha : ∀ c ∈ a, skips c = true) (h : Leads junk s p out) : Leads junk s (a ++ p) out := by
  obtain ⟨f0, hf⟩ := h
  refine ⟨f0, fun f hge k hk => ?_⟩
  rw [← hf f hge k (by simp at hk; omega)]
  cases k with
  | zero => simp at hk
  | succ k =>
    unfold docLoop
    have : (a ++ p).dropWhile (fun c => c != asc '<' && c != asc '%') = p.dropWhile (fun c => c != asc '<' && c != asc '%') := by
      clear hk hf
      induction a with
      | nil => rfl
      | cons c a ih =>
        have := ha c List.mem_cons_self
        unfold skips at this
        rw [List.cons_append, List.dropWhile_cons, if_pos this]
        exact ih (fun c hc => ha c (List.mem_cons_of_mem _ hc))
    rw [this]

theorem Leads.end_ {junk s} : Leads junk s [] (some s) := by
  refine ⟨0, fun f _ k hk => ?_⟩
  cases k with
  | zero => simp at hk
  | succ k => rfl

theorem loop_at {junk f k s c q} (hc : skips c = false) : docLoop junk f (k + 1) s (c :: q) = (docTurn junk f s (c :: q) >>= fun
      | .fail => .ok none
      | .stop s => .ok (some s)
      | .go s p => docLoop junk f k s p) := by
  conv => lhs; unfold docLoop
  unfold skips at hc
  have : (c :: q).dropWhile (fun c => c != asc '<' && c != asc '%') = c :: q := by rw [List.dropWhile_cons, if_neg (by rw [hc]; simp)]
  rw [this]
  refine congrArg (Bind.bind _) (funext fun x => ?_)
  cases x <;> rfl

theorem Leads.turn {junk s c q s' p' out} (hc : skips c = false) (ht : ∃ f0, ∀ f ≥ f0, docTurn junk f s (c :: q) = .ok (.go s' p')) (hl : p'.length < (c :: q).length)
    (h : Leads junk s' p' out) : Leads junk s (c :: q) out := by
  obtain ⟨f0, hf⟩ := h
  obtain ⟨f1, ht⟩ := ht
  refine ⟨max f0 f1, fun f hge k hk => ?_⟩
  cases k with
  | zero => simp at hk
  | succ k =>
    rw [loop_at hc, ht f (by omega), Res.ok_bind]
    exact hf f (by omega) k (by simp only [List.length_cons] at hl hk; omega)

theorem Leads.last {junk s c q s'} (hc : skips c = false) (ht : ∃ f0, ∀ f ≥ f0, docTurn junk f s (c :: q) = .ok (.stop s')) : Leads junk s (c :: q) (some s') := by
  obtain ⟨f1, ht⟩ := ht
  refine ⟨f1, fun f hge k hk => ?_⟩
  cases k with
  | zero => simp at hk
  | succ k => rw [loop_at hc, ht f hge, Res.ok_bind]

theorem Leads.parse {junk r p s} (h : Leads junk ⟨r, [], none⟩ p (some s)) : ∃ f0, ∀ f ≥ f0, parseInternalDoctype junk f r p = .ok (some s.root) := by
  obtain ⟨f0, hf⟩ := h
  refine ⟨f0, fun f hge => ?_⟩
  unfold parseInternalDoctype
  rw [hf f hge _ (by omega), Res.ok_bind]

theorem lt_stops : skips (asc '<') = false := by decide

theorem blank_skips : ∀ c : Byte, (c = 9 ∨ c = 10 ∨ c = 13 ∨ c = 32) → skips c = true := by decide +kernel

theorem gap_cons {g : List Byte} (h : Gap g) : ∃ c r, g = c :: r ∧ isXmlSpace c = true := by
  obtain ⟨h1, h2⟩ := h
  cases g with
  | nil => exact absurd rfl h1
  | cons c r => exact ⟨c, r, rfl, (blank_xml c (h2 c List.mem_cons_self)).1⟩

theorem gap_head {g x : List Byte} (h : Gap g) : ∃ c, (g ++ x).head? = some c ∧ isXmlSpace c = true := by
  obtain ⟨c, r, rfl, hc⟩ := gap_cons h
  exact ⟨c, rfl, hc⟩

/-- White space is skipped up to a byte that is not white space. -/
theorem drop_gap {g x : List Byte} (hg : Blank g) (hx : ∀ c, x.head? = some c → isXmlSpace c = false) : (g ++ x).dropWhile isXmlSpace = x :=
  (scan_stop (fun c hc => (blank_xml c (hg c hc)).1) hx).2

/-- A name ends at white space. -/
theorem scan_name {n g x : List Byte} (hn : Name n) (hg : Gap g) : (n ++ (g ++ x)).takeWhile (fun b => !isXmlSpace b) = n ∧ (n ++ (g ++ x)).dropWhile (fun b => !isXmlSpace b) = g ++ x := by
  refine scan_stop (fun c hc => by simp [(name_byte c (hn.2 c hc)).1]) (fun c hc => ?_)
  obtain ⟨d, hd, hs⟩ := gap_head (x := x) hg
  rw [hd] at hc; cases hc; simp [hs]

theorem name_head {n x : List Byte} (hn : Name n) : ∃ c, (n ++ x).head? = some c ∧ c ∈ n ∧ isXmlSpace c = false := by
  obtain ⟨⟨c, r, rfl, _⟩, h⟩ := hn
  exact ⟨c, rfl, List.mem_cons_self, (name_byte c (h c List.mem_cons_self)).1⟩

/-- The names of entities the code reads: they start with an ASCII letter or `_`. -/
def Begins (n : List Byte) : Prop := ∀ c, n.head? = some c → Letter c ∨ c = 95

/-- The texts of entities the theorem is about. -/
def PlainText (raw : List Byte) : Prop := EndsWell raw ∧ asc '&' ∉ raw ∧ asc '%' ∉ raw

theorem lines_mem {s : List Byte} {c : Byte} (hc : c ≠ 10) : c ∈ lines s → c ∈ s := by
  induction s using lines.induct with
  | case1 => exact id
  | case2 => unfold lines; rw [if_pos rfl]; intro h; simp at h; exact absurd h hc
  | case3 x hx => unfold lines; rw [if_neg hx]; exact id
  | case4 x y s h ih => unfold lines; rw [if_pos h]; intro hm; rcases List.mem_cons.mp hm with h | h; exact absurd h hc; exact List.mem_cons_of_mem _ (List.mem_cons_of_mem _ (ih h))
  | case5 y s h ih => unfold lines; rw [if_neg h, if_pos rfl]; intro hm; rcases List.mem_cons.mp hm with h | h; exact absurd h hc; exact List.mem_cons_of_mem _ (ih h)
  | case6 x y s h h2 ih =>
    unfold lines; rw [if_neg h, if_neg h2]; intro hm
    rcases List.mem_cons.mp hm with h | h
    · exact h ▸ List.mem_cons_self
    · exact List.mem_cons_of_mem _ (ih h)

/-- A declaration of an entity with a plain text is stored. -/
theorem declare_plain (junk : Nat → Byte) (after : List Byte) (d : XmlDecls) (b : Bool) (name raw : List Byte) (hc : Chars raw) (hp : PlainText raw) :
    ∃ f0, ∀ f ≥ f0, declareEntity junk f after d ⟨b, name, raw⟩ =
      .ok (some (if b then { d with params := d.params ++ [(name ++ [asc ';'], lines raw)] } else { d with general := d.general ++ [(name ++ [asc ';'], lines raw)] })) := by
  have h0 := chars_no_nul hc
  have la : asc '&' ∉ lines raw := fun h => hp.2.1 (lines_mem (by decide) h)
  have lp : asc '%' ∉ lines raw := fun h => hp.2.2 (lines_mem (by decide) h)
  obtain ⟨f0, hf⟩ := runs_parse (junk := junk) (ents := d.params) (st := .parameter) (mem := lines raw) raw after (by decide) h0 hp.1
    (fun t' => ⟨t', by simpa using runs_declared (junk := junk) (ents := d.params) t' false (lines raw) [] (lines_no_nul raw h0) lp (fun hi => la (hi.subset (by simp)))⟩) (lines_no_nul raw h0)
  refine ⟨f0, fun f hge => ?_⟩
  unfold declareEntity
  simp only []
  rw [hf f hge, Res.ok_bind]
  rw [validate_no_amp _ _ 1024 _ la, if_pos rfl]

/-- The state behind an entity. -/
def afterEntity (s : DocState) (b : Bool) (name raw : List Byte) : DocState :=
  if b then { s with params := s.params ++ [(name ++ [asc ';'], lines raw)], name := some (name ++ [asc ';']) }
  else { s with root := { s.root with entities := s.root.entities ++ [(name ++ [asc ';'], lines raw)] }, name := some (name ++ [asc ';']) }

theorem quote_space : ∀ q : Byte, (q = 34 ∨ q = 39) → isXmlSpace q = false ∧ (q = asc '"' ∨ q = asc '\'') := by decide +kernel

/-- An entity: `c` is what follows the first white space, `b` whether it starts with `%`. -/
theorem entity_read (junk : Nat → Byte) (s : DocState) (gap c pre name gap' raw rest : List Byte) (quote : Byte) (b : Bool) (hg : Gap gap) (hn : Name name) (hb : Begins name)
    (hg' : Gap gap') (hq : quote = 34 ∨ quote = 39) (hraw : Chars raw) (hqr : quote ∉ raw) (hp : PlainText raw)
    (hc : c = pre ++ (name ++ (gap' ++ (quote :: (raw ++ quote :: rest))))) (hpre : ∀ x ∈ pre, isXmlSpace x = true ∨ x = asc '%') (hcs : ∀ x, c.head? = some x → isXmlSpace x = false)
    (hbc : b = decide (c.head? = some (asc '%'))) :
    ∃ f0, ∀ f ≥ f0, docEntity junk f s (gap ++ c) = .ok (.go (afterEntity s b name raw) rest) := by
  obtain ⟨f0, hf⟩ := declare_plain junk rest ⟨s.root.entities, s.params⟩ b name raw hraw hp
  refine ⟨f0, fun f hge => ?_⟩
  unfold docEntity
  obtain ⟨x, hx, hxs⟩ := gap_head (x := c) hg
  rw [if_neg (by rw [hx]; simp [hxs])]
  simp only []
  rw [drop_gap hg.2 hcs]
  obtain ⟨n0, hn0, hnm, hns⟩ := name_head (x := gap' ++ (quote :: (raw ++ quote :: rest))) hn
  have hl := letter_start n0 (hb n0 (by obtain ⟨⟨c, r, rfl, _⟩, _⟩ := hn; exact hn0))
  have hd : c.dropWhile (fun b => isXmlSpace b || b == asc '%') = name ++ (gap' ++ (quote :: (raw ++ quote :: rest))) := by
    rw [hc]
    refine (scan_stop (fun x hx => by rcases hpre x hx with h | h <;> simp [h]) (fun x hx => ?_)).2
    rw [hn0] at hx; cases hx
    have : n0 ≠ asc '%' := by rintro rfl; revert hl; decide
    simp [hns, this]
  rw [hd, if_neg (by rw [hn0]; rcases hl with h | h <;> simp [h])]
  obtain ⟨t1, t2⟩ := scan_name (x := quote :: (raw ++ quote :: rest)) hn hg'
  rw [t1, t2]
  obtain ⟨w, ws, hw, hws⟩ := gap_cons hg'
  obtain ⟨hqs, hqq⟩ := quote_space quote hq
  have hws' : Blank ws := fun c hc => hg'.2 c (by rw [hw]; exact List.mem_cons_of_mem _ hc)
  rw [hw]
  simp only [List.cons_append]
  rw [drop_gap (x := quote :: (raw ++ quote :: rest)) hws' (fun c hc => by simp at hc; rw [← hc]; exact hqs)]
  simp only []
  rw [if_neg (by rcases hqq with h | h <;> simp [h])]
  have t3 := scan_stop (p := (· != quote)) (a := raw) (b := quote :: rest) (fun x hx => by simp; rintro rfl; exact hqr hx) (fun x hx => by simp at hx; simp [hx])
  rw [t3.1, t3.2]
  simp only [List.drop_succ_cons, List.drop_zero]
  rw [← hbc]
  rw [hf f hge, Res.ok_bind]
  unfold afterEntity
  cases b <;> simp

/-! ### A turn of the loop -/

theorem turn_entity (junk : Nat → Byte) (f : Nat) (s : DocState) (x : List Byte) (hl : 1 < x.length) :
    docTurn junk f s (bytes "<!ENTITY" ++ x) = docEntity junk f s x := by
  show docTurn junk f s (60 :: 33 :: 69 :: 78 :: 84 :: 73 :: 84 :: 89 :: x) = _
  unfold docTurn
  rw [if_pos ⟨by simp only [List.length_cons]; omega, by rw [List.isPrefixOf_iff_prefix]; exact ⟨x, rfl⟩⟩]
  rfl

theorem turn_attlist (junk : Nat → Byte) (f : Nat) (s : DocState) (x : List Byte) : docTurn junk f s (bytes "<!ATTLIST" ++ x) = docAttlist junk f s x := by
  show docTurn junk f s (60 :: 33 :: 65 :: 84 :: 84 :: 76 :: 73 :: 83 :: 84 :: x) = _
  unfold docTurn
  rw [if_neg (by rw [List.isPrefixOf_iff_prefix]; rintro ⟨_, t, ht⟩; cases ht), if_pos (by rw [List.isPrefixOf_iff_prefix]; exact ⟨x, rfl⟩)]
  rfl

theorem turn_comment (junk : Nat → Byte) (f : Nat) (s : DocState) (x : List Byte) :
    docTurn junk f s (bytes "<!--" ++ x) = .ok (goOn s ((strstrC (ascText "-->") x).map Prod.snd)) := by
  show docTurn junk f s (60 :: 33 :: 45 :: 45 :: x) = _
  unfold docTurn
  rw [if_neg (by rw [List.isPrefixOf_iff_prefix]; rintro ⟨_, t, ht⟩; cases ht), if_neg (by rw [List.isPrefixOf_iff_prefix]; rintro ⟨t, ht⟩; cases ht),
    if_pos (by rw [List.isPrefixOf_iff_prefix]; exact ⟨x, rfl⟩)]
  rfl

theorem turn_pi (junk : Nat → Byte) (f : Nat) (s : DocState) (x t rest : List Byte) (h : strstrC (ascText "?>") x = some (t, rest)) :
    docTurn junk f s (bytes "<?" ++ x) = .ok (.go { s with root := parsePI s.root t } (rest.drop 1)) := by
  show docTurn junk f s (60 :: 63 :: x) = _
  unfold docTurn
  rw [if_neg (by rw [List.isPrefixOf_iff_prefix]; rintro ⟨_, t, ht⟩; cases ht), if_neg (by rw [List.isPrefixOf_iff_prefix]; rintro ⟨t, ht⟩; cases ht),
    if_neg (by rw [List.isPrefixOf_iff_prefix]; rintro ⟨t, ht⟩; cases ht), if_pos (by rw [List.isPrefixOf_iff_prefix]; exact ⟨x, rfl⟩)]
  simp only [List.drop_succ_cons, List.drop_zero]
  rw [h]

theorem turn_element (junk : Nat → Byte) (f : Nat) (s : DocState) (x : List Byte) :
    docTurn junk f s (bytes "<!ELEMENT" ++ x) = .ok (goOn s (strchrP (asc '>') (bytes "<!ELEMENT" ++ x))) := by
  show docTurn junk f s (60 :: 33 :: 69 :: 76 :: 69 :: 77 :: 69 :: 78 :: 84 :: x) = _
  unfold docTurn
  rw [if_neg (by rw [List.isPrefixOf_iff_prefix]; rintro ⟨_, t, ht⟩; cases ht), if_neg (by rw [List.isPrefixOf_iff_prefix]; rintro ⟨t, ht⟩; cases ht),
    if_neg (by rw [List.isPrefixOf_iff_prefix]; rintro ⟨t, ht⟩; cases ht), if_neg (by rw [List.isPrefixOf_iff_prefix]; rintro ⟨t, ht⟩; cases ht), if_pos (by simp; decide)]
  rfl

theorem turn_notation (junk : Nat → Byte) (f : Nat) (s : DocState) (x : List Byte) :
    docTurn junk f s (bytes "<!NOTATION" ++ x) = .ok (goOn s (strchrP (asc '>') (bytes "<!NOTATION" ++ x))) := by
  show docTurn junk f s (60 :: 33 :: 78 :: 79 :: 84 :: 65 :: 84 :: 73 :: 79 :: 78 :: x) = _
  unfold docTurn
  rw [if_neg (by rw [List.isPrefixOf_iff_prefix]; rintro ⟨_, t, ht⟩; cases ht), if_neg (by rw [List.isPrefixOf_iff_prefix]; rintro ⟨t, ht⟩; cases ht),
    if_neg (by rw [List.isPrefixOf_iff_prefix]; rintro ⟨t, ht⟩; cases ht), if_neg (by rw [List.isPrefixOf_iff_prefix]; rintro ⟨t, ht⟩; cases ht), if_pos (by simp; decide)]
  rfl

theorem strchr_first {a x : List Byte} {c : Byte} (h : c ∉ a) : strchrP c (a ++ c :: x) = some (c :: x) := by
  unfold strchrP
  rw [if_pos (by simp)]
  rw [(scan_stop (p := (· != c)) (a := a) (b := c :: x) (fun y hy => by simp; rintro rfl; exact h hy) (fun y hy => by simp at hy; simp [hy])).2]

/-! ### The declarations -/

/-- The restrictions of the theorem: names of entities start with an ASCII letter or `_`; their texts hold no references and do not end
with a carriage return (and a line feed); what is skipped holds no `>`. -/
def Fit : Decl → Prop
  | .entity _ name _ _ raw _ => Begins name ∧ PlainText raw
  | .param _ _ name _ _ raw _ => Begins name ∧ PlainText raw
  | .external _ name _ raw => Begins name ∧ (62 : Byte) ∉ raw
  | .notation_ raw => (62 : Byte) ∉ raw
  | _ => True

/-- The state behind a declaration. -/
def afterDecl (s : DocState) : Decl → DocState
  | .entity _ name _ _ raw _ => afterEntity s false name raw
  | .param _ _ name _ _ raw _ => afterEntity s true name raw
  | .external _ _ _ _ => { s with name := some [] }
  | .pi target _ body => { s with root := { s.root with pis := addPI target body s.root.before s.root.pis } }
  | _ => s

theorem Leads.gt {junk s p out} (g : List Byte) (hg : Blank g) (h : Leads junk s p out) : Leads junk s (g ++ (bytes ">" ++ p)) out :=
  .skip g (fun c hc => blank_skips c (hg c hc)) (.skip (bytes ">") (by decide +kernel) h)

theorem lower_xml : (bytes "xml").map (fun c => if 65 ≤ c.toNat ∧ c.toNat ≤ 90 then c + 32 else c) = bytes "xml" := by decide +kernel

set_option maxHeartbeats 1000000 in
theorem decl_read (junk : Nat → Byte) (s : DocState) (d : Decl) (hw : d.WF) (hf : Fit d) (p : List Byte) (out : Option DocState) (h : Leads junk (afterDecl s d) p out) :
    Leads junk s (d.render ++ p) out := by
  cases d with
  | blank t => exact .skip t (fun c hc => blank_skips c (hw c hc)) h
  | entity gap name gap' quote raw gap'' =>
    obtain ⟨hg, hn, hg', hq, hraw, hqr, hg''⟩ := hw
    have er : (Decl.entity gap name gap' quote raw gap'').render ++ p = bytes "<!ENTITY" ++ (gap ++ (name ++ (gap' ++ (quote :: (raw ++ quote :: (gap'' ++ (bytes ">" ++ p))))))) := by
      simp [Decl.render]
    obtain ⟨n0, hn0, hnm, hns⟩ := name_head (x := gap' ++ (quote :: (raw ++ quote :: (gap'' ++ (bytes ">" ++ p))))) hn
    obtain ⟨f0, hr⟩ := entity_read junk s gap (name ++ (gap' ++ (quote :: (raw ++ quote :: (gap'' ++ (bytes ">" ++ p)))))) [] name gap' raw (gap'' ++ (bytes ">" ++ p)) quote false hg hn hf.1 hg' hq hraw hqr hf.2
      rfl (by simp) (fun x hx => by rw [hn0] at hx; cases hx; exact hns) (by
        rw [hn0]
        have hl := letter_start n0 (hf.1 n0 (by obtain ⟨⟨c, r, rfl, _⟩, _⟩ := hn; exact hn0))
        have : n0 ≠ asc '%' := by rintro rfl; revert hl; decide
        simp [this])
    rw [er]
    refine .turn (s' := afterEntity s false name raw) (p' := gap'' ++ (bytes ">" ++ p)) lt_stops ⟨f0, fun f hge => ?_⟩ ?_ (.gt gap'' hg'' h)
    · exact (turn_entity junk f s _ (by simp; omega)).trans (hr f hge)
    · simp [bytes]; omega
  | param gap gap₁ name gap' quote raw gap'' =>
    obtain ⟨hg, hg1, hn, hg', hq, hraw, hqr, hg''⟩ := hw
    have er : (Decl.param gap gap₁ name gap' quote raw gap'').render ++ p = bytes "<!ENTITY" ++ (gap ++ ((asc '%' :: gap₁) ++ (name ++ (gap' ++ (quote :: (raw ++ quote :: (gap'' ++ (bytes ">" ++ p)))))))) := by
      simp [Decl.render, show bytes "%" = [asc '%'] by decide +kernel]
    obtain ⟨f0, hr⟩ := entity_read junk s gap ((asc '%' :: gap₁) ++ (name ++ (gap' ++ (quote :: (raw ++ quote :: (gap'' ++ (bytes ">" ++ p))))))) (asc '%' :: gap₁) name gap' raw (gap'' ++ (bytes ">" ++ p)) quote true hg hn hf.1 hg' hq hraw hqr hf.2
      rfl (fun x hx => by rcases List.mem_cons.mp hx with h | h; exact .inr h; exact .inl (blank_xml x (hg1.2 x h)).1) (fun x hx => by simp at hx; rw [← hx]; decide) (by simp)
    rw [er]
    refine .turn (s' := afterEntity s true name raw) (p' := gap'' ++ (bytes ">" ++ p)) lt_stops ⟨f0, fun f hge => ?_⟩ ?_ (.gt gap'' hg'' h)
    · exact (turn_entity junk f s _ (by simp; omega)).trans (hr f hge)
    · simp [bytes]; omega
  | external gap name gap' raw =>
    obtain ⟨hg, hn, hg', hpre, hraw⟩ := hw
    obtain ⟨r0, r1, hr0, hr0n⟩ : ∃ r0 r1, raw = r0 :: r1 ∧ isXmlSpace r0 = false ∧ r0 ≠ asc '"' ∧ r0 ≠ asc '\'' := by
      rcases hpre with ⟨t, rfl⟩ | ⟨t, rfl⟩
      · exact ⟨83, bytes "YSTEM" ++ t, rfl, by decide⟩
      · exact ⟨80, bytes "UBLIC" ++ t, rfl, by decide⟩
    have er : (Decl.external gap name gap' raw).render ++ p = bytes "<!ENTITY" ++ (gap ++ (name ++ (gap' ++ (raw ++ asc '>' :: p)))) := by
      simp [Decl.render, show bytes ">" = [asc '>'] by decide +kernel]
    rw [er]
    refine .turn (s' := { s with name := some [] }) (p' := asc '>' :: p) lt_stops ⟨0, fun f hge => ?_⟩ ?_ (.gt [] (by simp [Blank]) h)
    · refine (turn_entity junk f s _ (by obtain ⟨c, r, rfl, _⟩ := gap_cons hg; obtain ⟨c, r, rfl, _⟩ := gap_cons hg'; simp; omega)).trans ?_
      unfold docEntity
      obtain ⟨x, hx, hxs⟩ := gap_head (x := name ++ (gap' ++ (raw ++ asc '>' :: p))) hg
      rw [if_neg (by rw [hx]; simp [hxs])]
      simp only []
      obtain ⟨n0, hn0, hnm, hns⟩ := name_head (x := gap' ++ (raw ++ asc '>' :: p)) hn
      rw [drop_gap hg.2 (fun x hx => by rw [hn0] at hx; cases hx; exact hns)]
      have hl := letter_start n0 (hf.1 n0 (by obtain ⟨⟨c, r, rfl, _⟩, _⟩ := hn; exact hn0))
      have hd : (name ++ (gap' ++ (raw ++ asc '>' :: p))).dropWhile (fun b => isXmlSpace b || b == asc '%') = name ++ (gap' ++ (raw ++ asc '>' :: p)) := by
        have := (scan_stop (p := fun b => isXmlSpace b || b == asc '%') (a := []) (b := name ++ (gap' ++ (raw ++ asc '>' :: p))) (by simp) (fun x hx => by
          rw [hn0] at hx; cases hx
          have : n0 ≠ asc '%' := by rintro rfl; revert hl; decide
          simp [hns, this])).2
        simpa using this
      rw [hd, if_neg (by rw [hn0]; rcases hl with h | h <;> simp [h])]
      obtain ⟨t1, t2⟩ := scan_name (x := raw ++ asc '>' :: p) hn hg'
      rw [t2]
      obtain ⟨w, ws, hw', hws⟩ := gap_cons hg'
      have hws' : Blank ws := fun c hc => hg'.2 c (by rw [hw']; exact List.mem_cons_of_mem _ hc)
      rw [hw']
      simp only [List.cons_append]
      rw [drop_gap hws' (fun c hc => by rw [hr0] at hc; simp at hc; rw [← hc]; exact hr0n.1)]
      have hb : asc '>' ∉ ws ++ raw := by
        rw [List.mem_append, not_or]
        refine ⟨fun h => ?_, hf.2⟩
        have := hws' _ h
        revert this; decide
      have hs : strchrP (asc '>') (ws ++ (raw ++ asc '>' :: p)) = some (asc '>' :: p) := by rw [← List.append_assoc, strchr_first hb]
      rw [hr0] at hs ⊢
      simp only [List.cons_append] at hs ⊢
      rw [if_pos hr0n.2, hs]
      rfl
    · simp; omega
  | element raw =>
    obtain ⟨_, hraw, hgt⟩ := hw
    have er : (Decl.element raw).render ++ p = bytes "<!ELEMENT" ++ (raw ++ asc '>' :: p) := by
      simp [Decl.render, show bytes ">" = [asc '>'] by decide +kernel]
    rw [er]
    refine .turn (s' := s) (p' := asc '>' :: p) lt_stops ⟨0, fun f hge => ?_⟩ ?_ (.gt [] (by simp [Blank]) h)
    · refine (turn_element junk f s _).trans ?_
      rw [← List.append_assoc, strchr_first (by rw [List.mem_append, not_or]; exact ⟨by decide +kernel, hgt⟩)]
      rfl
    · simp; omega
  | notation_ raw =>
    have er : (Decl.notation_ raw).render ++ p = bytes "<!NOTATION" ++ (raw ++ asc '>' :: p) := by
      simp [Decl.render, show bytes ">" = [asc '>'] by decide +kernel]
    rw [er]
    refine .turn (s' := s) (p' := asc '>' :: p) lt_stops ⟨0, fun f hge => ?_⟩ ?_ (.gt [] (by simp [Blank]) h)
    · refine (turn_notation junk f s _).trans ?_
      rw [← List.append_assoc, strchr_first (by rw [List.mem_append, not_or]; exact ⟨by decide +kernel, hf⟩)]
      rfl
    · simp; omega
  | comment raw =>
    obtain ⟨hraw, h1, h2⟩ := hw
    have er : (Decl.comment raw).render ++ p = bytes "<!--" ++ (raw ++ (bytes "-->" ++ p)) := by simp [Decl.render]
    rw [er]
    have hno : ¬ bytes "-->" <:+: raw ++ (bytes "-->").dropLast := by
      rw [show (bytes "-->").dropLast = [45] ++ [45] by decide +kernel, ← List.append_assoc]
      intro hi
      have hi := infix_snoc (q := [45, 45]) (x := 62) (by decide +kernel) (by decide) (infix_snoc (q := [45, 45]) (x := 62) (by decide +kernel) (by decide) hi)
      exact h1 (List.IsInfix.trans ⟨[], [62], by decide +kernel⟩ hi)
    refine .turn (s' := s) (p' := bytes "-->" ++ p) lt_stops ⟨0, fun f hge => ?_⟩ ?_ (.skip (bytes "-->") (by decide +kernel) h)
    · refine (turn_comment junk f s _).trans ?_
      rw [show ascText "-->" = bytes "-->" by decide +kernel, strstr_first (bytes "-->") (by decide +kernel) raw p hno]
      rfl
    · simp [bytes]; omega
  | pi target gap body =>
    obtain ⟨hn, hx, hg, hb, hc, hno, hh⟩ := hw
    have er : (Decl.pi target gap body).render ++ p = bytes "<?" ++ ((target ++ gap ++ body) ++ (bytes "?>" ++ p)) := by simp [Decl.render]
    rw [er]
    have hq : asc '?' ∉ target ++ gap := by
      rw [List.mem_append, not_or]
      refine ⟨fun h => (name_byte _ (hn.2 _ h)).2.2.2.2.2.2.2 rfl, fun h => ?_⟩
      have := hg _ h
      revert this; decide
    have hno' : ¬ bytes "?>" <:+: (target ++ gap ++ body) ++ (bytes "?>").dropLast := by
      rw [show (bytes "?>").dropLast = [63] by decide +kernel]
      intro hi
      have hi := infix_snoc (q := [63]) (x := 62) (by decide +kernel) (by decide) hi
      exact hno (infix_of_append_blank (target ++ gap) hq hi)
    have hpi : parsePI s.root (target ++ gap ++ body) = { s.root with pis := addPI target body s.root.before s.root.pis } := by
      unfold parsePI
      rw [pi_split target gap body hn hg hb hh]
      simp only []
      rw [if_neg]
      rw [show ascText "xml" = bytes "xml" by decide +kernel]
      rintro rfl
      exact hx lower_xml
    refine .turn (s' := afterDecl s (.pi target gap body)) (p' := bytes ">" ++ p) lt_stops ⟨0, fun f hge => ?_⟩ ?_ (.skip (bytes ">") (by decide +kernel) h)
    · refine (turn_pi junk f s _ (target ++ gap ++ body) (bytes "?>" ++ p) ?_).trans ?_
      · rw [show ascText "?>" = bytes "?>" by decide +kernel]
        exact strstr_first (bytes "?>") (by decide +kernel) _ p hno'
      · rw [hpi]; rfl
    · simp [bytes]; omega

theorem decls_read (junk : Nat → Byte) : ∀ (ds : List Decl) (s : DocState) (p : List Byte) (out : Option DocState), (∀ d ∈ ds, d.WF) → (∀ d ∈ ds, Fit d) →
    Leads junk (ds.foldl afterDecl s) p out → Leads junk s (ds.flatMap Decl.render ++ p) out := by
  intro ds
  induction ds with
  | nil => intro s p out _ _ h; exact h
  | cons d ds ih =>
    intro s p out hw hf h
    rw [List.flatMap_cons, List.append_assoc]
    exact decl_read junk s d (hw d List.mem_cons_self) (hf d List.mem_cons_self) _ out (ih _ p out (fun d hd => hw d (List.mem_cons_of_mem _ hd)) (fun d hd => hf d (List.mem_cons_of_mem _ hd)) h)

/-- What the declarations leave. -/
theorem after_decls (ds : List Decl) : ∀ (s : DocState), (ds.foldl afterDecl s).root =
    { s.root with entities := s.root.entities ++ entTable (generals ds), pis := addAll s.root.before (declPIs ds) s.root.pis } := by
  induction ds with
  | nil => intro s; simp [generals, declPIs, entTable, addAll]
  | cons d ds ih =>
    intro s
    rw [List.foldl_cons, ih]
    cases d <;> simp [afterDecl, afterEntity, generals, declPIs, entTable, addAll, XmlRoot.before]

/-! ### Lists of attributes -/

/-- How `ParseEntities` is to read a value. -/
def stateOf (t : AttType) : XmlState := if t = .cdata then .attribute else .token

theorem prefix_no {pat x : List Byte} (h : ¬ pat <+: x) : pat.isPrefixOf x = false := by
  cases hb : pat.isPrefixOf x with
  | false => rfl
  | true => exact absurd (List.isPrefixOf_iff_prefix.mp hb) h

theorem prefix_yes (pat x : List Byte) : pat.isPrefixOf (pat ++ x) = true := List.isPrefixOf_iff_prefix.mpr ⟨x, rfl⟩

/-- Behind a type: a byte that is neither white space nor `)`. -/
def Opens (d : List Byte) : Prop := ∃ c r, d = c :: r ∧ isXmlSpace c = false ∧ c ≠ asc ')'

theorem drop_close {g d : List Byte} (hg : ∀ c ∈ g, isXmlSpace c = true ∨ c = asc ')') (hd : Opens d) : (g ++ d).dropWhile (fun c => isXmlSpace c || c == asc ')') = d := by
  refine (scan_stop (fun c hc => by rcases hg c hc with h | h <;> simp [h]) (fun c hc => ?_)).2
  obtain ⟨x, r, rfl, h1, h2⟩ := hd
  simp at hc; rw [← hc]; simp [h1, h2]

theorem paren_read {raw z : List Byte} (h : asc ')' ∉ raw) : asc ')' ∈ asc '(' :: (raw ++ asc ')' :: z) ∧ (asc '(' :: (raw ++ asc ')' :: z)).dropWhile (· != asc ')') = asc ')' :: z := by
  refine ⟨by simp, ?_⟩
  exact (scan_stop (p := (· != asc ')')) (a := asc '(' :: raw) (b := asc ')' :: z) (fun x hx => by
    rcases List.mem_cons.mp hx with h' | h'
    · rw [h']; decide
    · simp; rintro rfl; exact h h') (fun x hx => by simp at hx; simp [← hx])).2

theorem choice_byte (c : Byte) (h : NameByte c ∨ Blank [c] ∨ c = 124) : c ≠ asc ')' := by
  rintro rfl
  rcases h with h | h | h
  · have := (name_byte _ h)
    revert h; unfold NameByte NameStart Letter; decide
  · have := h (asc ')') List.mem_cons_self
    revert this; decide
  · revert h; decide

theorem gap_space {g : List Byte} (h : Gap g) : ∀ c ∈ g, isXmlSpace c = true := fun c hc => (blank_xml c (h.2 c hc)).1

theorem word_start : ∀ w ∈ [bytes "ID", bytes "IDREF", bytes "IDREFS", bytes "ENTITY", bytes "ENTITIES", bytes "NMTOKEN", bytes "NMTOKENS"],
    (w.take 2).length = 2 ∧ w.head? ≠ some 67 ∧ w.take 2 ≠ [78, 79] ∧ w.head? ≠ some (asc '(') ∧ ∀ c ∈ w, isXmlSpace c = false := by decide +kernel

theorem word_facts (w : List Byte) (hw : w ∈ [bytes "ID", bytes "IDREF", bytes "IDREFS", bytes "ENTITY", bytes "ENTITIES", bytes "NMTOKEN", bytes "NMTOKENS"]) :
    (∀ z, ¬ ascText "CDATA" <+: w ++ z ∧ ¬ ascText "NOTATION" <+: w ++ z) ∧ (∃ c r, w = c :: r ∧ c ≠ asc '(') ∧ ∀ c ∈ w, isXmlSpace c = false := by
  obtain ⟨h1, h2, h3, h4, h5⟩ := word_start w hw
  match w, h1 with
  | a :: b :: r, _ =>
    refine ⟨fun z => ⟨?_, ?_⟩, ⟨a, b :: r, rfl, fun e => h4 (by rw [e]; rfl)⟩, h5⟩
    · rw [show ascText "CDATA" = 67 :: ascText "DATA" by decide +kernel, List.cons_append, List.cons_prefix_cons]
      rintro ⟨e, _⟩
      exact h2 (by rw [← e]; rfl)
    · rw [show ascText "NOTATION" = 78 :: 79 :: ascText "TATION" by decide +kernel, List.cons_append, List.cons_append, List.cons_prefix_cons, List.cons_prefix_cons]
      rintro ⟨e1, e2, _⟩
      exact h3 (by rw [← e1, ← e2]; rfl)
  | [], h => simp at h
  | [a], h => simp at h

set_option maxHeartbeats 1000000 in
/-- What the type is read as, up to the `#FIXED`. -/
theorem type_read (t : AttType) (ht : t.WF) (ws gap₂ d : List Byte) (hws : Blank ws) (hg : Gap gap₂) (hd : Opens d) :
    attType (ws ++ (t.render ++ (gap₂ ++ d))) = some (stateOf t, if (ascText "#FIXED").isPrefixOf d then (d.drop 6).dropWhile isXmlSpace else d) := by
  have hstart : ∀ c, (t.render ++ (gap₂ ++ d)).head? = some c → isXmlSpace c = false := by
    intro c hc
    cases t with
    | cdata => cases hc; decide
    | tokens w =>
      obtain ⟨_, ⟨x, r, rfl, _⟩, hx⟩ := word_facts w ht
      cases hc; exact hx _ List.mem_cons_self
    | choice raw => cases hc; decide
    | notation_ gap raw => cases hc; decide
  unfold attType
  simp only []
  rw [drop_gap hws hstart]
  cases t with
  | cdata =>
    have h1 : (ascText "CDATA").isPrefixOf (AttType.cdata.render ++ (gap₂ ++ d)) = true := prefix_yes _ _
    have h2 : (ascText "NOTATION").isPrefixOf (AttType.cdata.render ++ (gap₂ ++ d)) = false := prefix_no (by rintro ⟨t, ht⟩; cases ht)
    rw [h1, h2]
    simp only [Bool.false_eq_true, if_true, if_false]
    rw [if_neg (by show ¬ some (67 : Byte) = some (asc '('); decide)]
    have h3 : (AttType.cdata.render ++ (gap₂ ++ d)).dropWhile (fun c => !isXmlSpace c) = gap₂ ++ d :=
      (scan_stop (fun c hc => by have key : ∀ c ∈ bytes "CDATA", (!isXmlSpace c) = true := by decide +kernel
                                 exact key c hc) (fun c hc => by obtain ⟨x, hx, hs⟩ := gap_head (x := d) hg; rw [hx] at hc; cases hc; simp [hs])).2
    rw [h3]
    simp only []
    rw [drop_close (fun c hc => .inl (gap_space hg c hc)) hd]
    rfl
  | tokens w =>
    obtain ⟨k1, ⟨c0, r0, k2, k2'⟩, k3⟩ := word_facts w ht
    have h1 : (ascText "CDATA").isPrefixOf ((AttType.tokens w).render ++ (gap₂ ++ d)) = false := prefix_no (k1 _).1
    have h2 : (ascText "NOTATION").isPrefixOf ((AttType.tokens w).render ++ (gap₂ ++ d)) = false := prefix_no (k1 _).2
    rw [h1, h2]
    simp only [Bool.false_eq_true, if_false]
    rw [if_neg (by show ¬ (w ++ (gap₂ ++ d)).head? = _; rw [k2]; simp; exact k2')]
    have h3 : ((AttType.tokens w).render ++ (gap₂ ++ d)).dropWhile (fun c => !isXmlSpace c) = gap₂ ++ d :=
      (scan_stop (fun c hc => by simp [k3 c hc]) (fun c hc => by obtain ⟨x, hx, hs⟩ := gap_head (x := d) hg; rw [hx] at hc; cases hc; simp [hs])).2
    rw [h3]
    simp only []
    rw [drop_close (fun c hc => .inl (gap_space hg c hc)) hd]
    rfl
  | choice raw =>
    have er : (AttType.choice raw).render ++ (gap₂ ++ d) = asc '(' :: (raw ++ asc ')' :: (gap₂ ++ d)) := by
      simp [AttType.render, show bytes "(" = [asc '('] by decide +kernel, show bytes ")" = [asc ')'] by decide +kernel]
    rw [er]
    have h1 : (ascText "CDATA").isPrefixOf (asc '(' :: (raw ++ asc ')' :: (gap₂ ++ d))) = false := prefix_no (by rintro ⟨t, ht⟩; cases ht)
    have h2 : (ascText "NOTATION").isPrefixOf (asc '(' :: (raw ++ asc ')' :: (gap₂ ++ d))) = false := prefix_no (by rintro ⟨t, ht⟩; cases ht)
    obtain ⟨p1, p2⟩ := paren_read (z := gap₂ ++ d) (fun h => choice_byte _ (ht _ h) rfl)
    rw [h1, h2]
    simp only [Bool.false_eq_true, if_false]
    rw [if_pos List.head?_cons, if_pos p1, p2]
    simp only []
    rw [show asc ')' :: (gap₂ ++ d) = (asc ')' :: gap₂) ++ d from rfl, drop_close (fun c hc => by
      rcases List.mem_cons.mp hc with h | h
      · exact .inr h
      · exact .inl (gap_space hg c h)) hd]
    rfl
  | notation_ gap raw =>
    have er : (AttType.notation_ gap raw).render ++ (gap₂ ++ d) = bytes "NOTATION" ++ (gap ++ (asc '(' :: (raw ++ asc ')' :: (gap₂ ++ d)))) := by
      simp [AttType.render, show bytes "(" = [asc '('] by decide +kernel, show bytes ")" = [asc ')'] by decide +kernel]
    rw [er]
    have h1 : (ascText "CDATA").isPrefixOf (bytes "NOTATION" ++ (gap ++ (asc '(' :: (raw ++ asc ')' :: (gap₂ ++ d))))) = false := prefix_no (by rintro ⟨t, ht⟩; cases ht)
    have h2 : (ascText "NOTATION").isPrefixOf (bytes "NOTATION" ++ (gap ++ (asc '(' :: (raw ++ asc ')' :: (gap₂ ++ d))))) = true := prefix_yes _ _
    have h3 : (bytes "NOTATION" ++ (gap ++ (asc '(' :: (raw ++ asc ')' :: (gap₂ ++ d))))).drop 8 = gap ++ (asc '(' :: (raw ++ asc ')' :: (gap₂ ++ d))) := rfl
    obtain ⟨p1, p2⟩ := paren_read (z := gap₂ ++ d) (fun h => choice_byte _ (ht.2 _ h) rfl)
    rw [h1, h2]
    simp only [Bool.false_eq_true, if_true, if_false]
    rw [h3, drop_gap ht.1.2 (fun c hc => by simp at hc; rw [← hc]; decide), if_pos List.head?_cons, if_pos p1, p2]
    simp only []
    rw [show asc ')' :: (gap₂ ++ d) = (asc ')' :: gap₂) ++ d from rfl, drop_close (fun c hc => by
      rcases List.mem_cons.mp hc with h | h
      · exact .inr h
      · exact .inl (gap_space hg c h)) hd]
    rfl

/-- Whether a default gives a value. -/
def AttDefault.hasValue : AttDefault → Bool
  | .required => false
  | .implied => false
  | _ => true

/-- Where the pointer is behind definitions that are followed by `q`. -/
def endOf (e : AttEnd) : List AttDef → List Byte → AttEnd
  | [], _ => e
  | a :: ds, q => endOf (if AttDefault.hasValue a.dflt then .cut else .at (68 :: (ds.flatMap AttDef.render ++ q))) ds q

/-- What the definitions store, for the values `val`. -/
def stored (val : AttDef → Option (List Byte)) (defs : List AttDef) : List (List Byte × Option (List Byte) × XmlState) :=
  defs.flatMap (fun a => if a.type = .cdata ∧ AttDefault.hasValue a.dflt = false then [] else [(a.name, val a, stateOf a.type)])

/-- The defaults that hold one element, or none. -/
def oneTag (tag : List Byte) (l : List (List Byte × Option (List Byte) × XmlState)) : List XmlDefaults := if l = [] then [] else [⟨tag, l⟩]

theorem store_one (tag : List Byte) (l : List (List Byte × Option (List Byte) × XmlState)) (a : List Byte × Option (List Byte) × XmlState) :
    storeDefault 0 tag a (oneTag tag l) = oneTag tag (l ++ [a]) := by
  unfold oneTag
  by_cases h : l = []
  · subst h; rfl
  · rw [if_neg h, if_neg (by simp)]; rfl

theorem att_blank (junk : Nat → Byte) (f i : Nat) (tag : List Byte) (k : Nat) (r : XmlRoot) (e : AttEnd) (g p : List Byte) (hg : Blank g) :
    attLoop junk f i tag k r e (g ++ p) = attLoop junk f i tag k r e p := by
  cases k with
  | zero => rfl
  | succ k =>
    have : (g ++ p).dropWhile isXmlSpace = p.dropWhile isXmlSpace := by
      induction g with
      | nil => rfl
      | cons c g ih =>
        rw [List.cons_append, List.dropWhile_cons, if_pos (blank_xml c (hg c List.mem_cons_self)).1]
        exact ih (fun c hc => hg c (List.mem_cons_of_mem _ hc))
    unfold attLoop
    rw [this]

/-- Where a definition or the end of a list may follow. -/
def Ends (q : List Byte) : Prop := ∃ c r, q = c :: r ∧ (isXmlSpace c = true ∨ c = asc '>')

theorem hash_opens (x : List Byte) : Opens (asc '#' :: x) := ⟨_, _, rfl, by decide⟩

theorem quote_opens (q : Byte) (x : List Byte) (h : q = 34 ∨ q = 39) : Opens (q :: x) := by
  refine ⟨q, x, rfl, (quote_space q h).1, ?_⟩
  rcases h with rfl | rfl <;> decide

/-- A definition up to its default. -/
theorem att_head (junk : Nat → Byte) (f : Nat) (tag : List Byte) (k : Nat) (r : XmlRoot) (e : AttEnd) (a : AttDef) (hw : a.WF) (d : List Byte) (hd : Opens d) (c : Byte) (q : List Byte)
    (hx : (if (ascText "#FIXED").isPrefixOf d then (d.drop 6).dropWhile isXmlSpace else d) = c :: q) :
    attLoop junk f 0 tag (k + 1) r e (a.gap ++ a.name ++ a.gap₁ ++ a.type.render ++ a.gap₂ ++ d) =
      if c = asc '#' then
        let w := q.dropWhile (fun c => !isXmlSpace c && c != asc '>')
        let last := ((c :: q).drop ((c :: q).length - w.length - 1))
        if stateOf a.type = .attribute then attLoop junk f 0 tag k r (.at last) w
        else attLoop junk f 0 tag k { r with defaults := storeDefault 0 tag (a.name, none, stateOf a.type) r.defaults } (.at last) w
      else if c = asc '"' ∨ c = asc '\'' then
        match q.dropWhile (· != c) with
        | [] => .ok none
        | _ :: rest => do
          let v ← parseEntities junk f (q.takeWhile (· != c) ++ 0 :: rest) r.entities (stateOf a.type)
          attLoop junk f 0 tag k { r with defaults := storeDefault 0 tag (a.name, some v, stateOf a.type) r.defaults } .cut rest
      else .ok none := by
  obtain ⟨hg, hn, hg1, ht, hg2, _⟩ := hw
  obtain ⟨n0, hn0, hnm, hns⟩ := name_head (x := a.gap₁ ++ (a.type.render ++ (a.gap₂ ++ d))) hn
  obtain ⟨t1, t2⟩ := scan_name (x := a.type.render ++ (a.gap₂ ++ d)) hn hg1
  obtain ⟨w, ws, hw', hws⟩ := gap_cons hg1
  have hws' : Blank ws := fun c hc => hg1.2 c (by rw [hw']; exact List.mem_cons_of_mem _ hc)
  simp only [List.append_assoc]
  rw [att_blank _ _ _ _ _ _ _ _ _ hg.2]
  conv => lhs; unfold attLoop
  have hd0 : (a.name ++ (a.gap₁ ++ (a.type.render ++ (a.gap₂ ++ d)))).dropWhile isXmlSpace = a.name ++ (a.gap₁ ++ (a.type.render ++ (a.gap₂ ++ d))) := by
    have := (scan_stop (p := isXmlSpace) (a := []) (b := a.name ++ (a.gap₁ ++ (a.type.render ++ (a.gap₂ ++ d)))) (by simp) (fun x hx => by rw [hn0] at hx; cases hx; exact hns)).2
    simpa using this
  simp only [hd0]
  rw [if_neg (by
    rintro (h | h)
    · rw [h] at hn0; cases hn0
    · rw [h] at hn0; cases hn0; exact (name_byte _ (hn.2 _ hnm)).2.2.2.2.1 rfl), t1, t2]
  rw [hw']
  simp only [List.cons_append]
  rw [type_read a.type ht ws a.gap₂ d hws' hg2 hd, hx]
  rfl

theorem att_hash (junk : Nat → Byte) (f : Nat) (tag : List Byte) (k : Nat) (r : XmlRoot) (e : AttEnd) (a : AttDef) (hw : a.WF) (w q : List Byte)
    (h : w = bytes "IMPLIED" ∨ w = bytes "REQUIRED") (hq : Ends q) :
    attLoop junk f 0 tag (k + 1) r e (a.gap ++ a.name ++ a.gap₁ ++ a.type.render ++ a.gap₂ ++ (asc '#' :: (w ++ q))) =
      attLoop junk f 0 tag k (if a.type = .cdata then r else { r with defaults := storeDefault 0 tag (a.name, none, stateOf a.type) r.defaults }) (.at (68 :: q)) q := by
  have hfix : (ascText "#FIXED").isPrefixOf (asc '#' :: (w ++ q)) = false := by
    apply prefix_no
    rcases h with rfl | rfl <;> (rintro ⟨t, ht⟩; cases ht)
  rw [att_head junk f tag k r e a hw _ (hash_opens _) (asc '#') (w ++ q) (by rw [hfix]; simp)]
  have hd : (w ++ q).dropWhile (fun c => !isXmlSpace c && c != asc '>') = q := by
    refine (scan_stop (fun c hc => ?_) (fun c hc => ?_)).2
    · have key : ∀ c ∈ bytes "IMPLIED" ++ bytes "REQUIRED", (!isXmlSpace c && c != asc '>') = true := by decide +kernel
      rcases h with rfl | rfl
      · exact key c (List.mem_append_left _ hc)
      · exact key c (List.mem_append_right _ hc)
    · obtain ⟨x, y, rfl, hx⟩ := hq
      simp at hc; subst hc
      rcases hx with hx | hx <;> simp [hx]
  have hl : (asc '#' :: (w ++ q)).drop ((asc '#' :: (w ++ q)).length - q.length - 1) = 68 :: q := by
    rcases h with rfl | rfl
    · have : (asc '#' :: (bytes "IMPLIED" ++ q)).length - q.length - 1 = 7 := by simp only [List.length_cons, List.length_append, show (bytes "IMPLIED").length = 7 by decide +kernel]; omega
      rw [this]; rfl
    · have : (asc '#' :: (bytes "REQUIRED" ++ q)).length - q.length - 1 = 8 := by simp only [List.length_cons, List.length_append, show (bytes "REQUIRED").length = 8 by decide +kernel]; omega
      rw [this]; rfl
  rw [if_pos rfl]
  simp only [hd]
  rw [hl]
  by_cases hc : a.type = .cdata
  · rw [if_pos hc, if_pos (by unfold stateOf; rw [if_pos hc])]
  · rw [if_neg hc, if_neg (by unfold stateOf; rw [if_neg hc]; decide)]

theorem att_value (junk : Nat → Byte) (f : Nat) (tag : List Byte) (k : Nat) (r : XmlRoot) (e : AttEnd) (a : AttDef) (hw : a.WF) (d : List Byte) (hd : Opens d) (quote : Byte) (raw q v : List Byte)
    (hx : (if (ascText "#FIXED").isPrefixOf d then (d.drop 6).dropWhile isXmlSpace else d) = quote :: (raw ++ quote :: q)) (hq : quote = 34 ∨ quote = 39) (hqr : quote ∉ raw)
    (hv : parseEntities junk f (raw ++ 0 :: q) r.entities (stateOf a.type) = .ok v) :
    attLoop junk f 0 tag (k + 1) r e (a.gap ++ a.name ++ a.gap₁ ++ a.type.render ++ a.gap₂ ++ d) =
      attLoop junk f 0 tag k { r with defaults := storeDefault 0 tag (a.name, some v, stateOf a.type) r.defaults } .cut q := by
  rw [att_head junk f tag k r e a hw d hd quote (raw ++ quote :: q) hx]
  rw [if_neg (by rcases hq with rfl | rfl <;> decide), if_pos (quote_space quote hq).2]
  have t := scan_stop (p := (· != quote)) (a := raw) (b := quote :: q) (fun y hy => by simp; rintro rfl; exact hqr hy) (fun x hx => by simp at hx; simp [hx])
  rw [t.1, t.2]
  simp only []
  rw [hv, Res.ok_bind]

/-- A default that does not end with a carriage return (and a line feed). -/
def FitDefault : AttDefault → Prop
  | .value _ raw => EndsWell raw
  | .fixed _ _ raw => EndsWell raw
  | _ => True

theorem value_read (junk : Nat → Byte) (decls : List (List Byte × List Byte)) (ht : Texts decls) (t : AttType) (raw v q : List Byte) (hc : Chars raw) (hw : EndsWell raw) (h : ValueOf decls t raw v) :
    ∃ f0, ∀ f ≥ f0, parseEntities junk f (raw ++ 0 :: q) (predefinedEntities ++ entTable decls) (stateOf t) = .ok v := by
  have := value_parse junk ht _ raw v q hc hw h
  unfold stateOf
  by_cases hcd : t = .cdata
  · rw [if_pos hcd]
    rw [if_neg (by simp [hcd])] at this
    exact this
  · rw [if_neg hcd]
    rw [if_pos (by simp [hcd])] at this
    exact this

/-- One definition. -/
theorem att_step (junk : Nat → Byte) (decls : List (List Byte × List Byte)) (ht : Texts decls) (tag : List Byte) (a : AttDef) (hw : a.WF) (hf : FitDefault a.dflt) (val : AttDef → Option (List Byte))
    (hv : a.Gives decls (val a)) (q : List Byte) (hq : Ends q) : ∃ f0, ∀ f ≥ f0, ∀ k e acc (r : XmlRoot), r.entities = predefinedEntities ++ entTable decls → r.defaults = oneTag tag acc →
      attLoop junk f 0 tag (k + 1) r e (a.render ++ q) =
        attLoop junk f 0 tag k { r with defaults := oneTag tag (acc ++ stored val [a]) } (if AttDefault.hasValue a.dflt then .cut else .at (68 :: q)) q := by
  have hash : ∀ w, (w = bytes "IMPLIED" ∨ w = bytes "REQUIRED") → a.dflt.render = asc '#' :: w → AttDefault.hasValue a.dflt = false → val a = none →
      ∃ f0, ∀ f ≥ f0, ∀ k e acc (r : XmlRoot), r.entities = predefinedEntities ++ entTable decls → r.defaults = oneTag tag acc →
      attLoop junk f 0 tag (k + 1) r e (a.render ++ q) =
        attLoop junk f 0 tag k { r with defaults := oneTag tag (acc ++ stored val [a]) } (if AttDefault.hasValue a.dflt then .cut else .at (68 :: q)) q := by
    intro w hw' hr hno hval
    refine ⟨0, fun f _ k e acc r _ hr' => ?_⟩
    have er : a.render ++ q = a.gap ++ a.name ++ a.gap₁ ++ a.type.render ++ a.gap₂ ++ (asc '#' :: (w ++ q)) := by unfold AttDef.render; rw [hr]; simp
    rw [er, att_hash junk f tag k r e a hw w q hw' hq, hno]
    simp only [Bool.false_eq_true, if_false]
    congr 1
    unfold stored
    simp only [List.flatMap_cons, List.flatMap_nil, List.append_nil]
    by_cases hc : a.type = .cdata
    · rw [if_pos hc, if_pos ⟨hc, hno⟩, List.append_nil, ← hr']
    · rw [if_neg hc, if_neg (fun h => hc h.1), hr', store_one, hval]
  have value : ∀ (d : List Byte) (quote : Byte) (raw : List Byte) (v : List Byte), a.dflt.render ++ q = d → Opens d → (if (ascText "#FIXED").isPrefixOf d then (d.drop 6).dropWhile isXmlSpace else d) = quote :: (raw ++ quote :: q) →
      (quote = 34 ∨ quote = 39) → quote ∉ raw → Chars raw → EndsWell raw → ValueOf decls a.type raw v → AttDefault.hasValue a.dflt = true → val a = some v →
      ∃ f0, ∀ f ≥ f0, ∀ k e acc (r : XmlRoot), r.entities = predefinedEntities ++ entTable decls → r.defaults = oneTag tag acc →
      attLoop junk f 0 tag (k + 1) r e (a.render ++ q) =
        attLoop junk f 0 tag k { r with defaults := oneTag tag (acc ++ stored val [a]) } (if AttDefault.hasValue a.dflt then .cut else .at (68 :: q)) q := by
    intro d quote raw v hr ho hx hq' hqr hc he hm hyes hval
    obtain ⟨f0, hf0⟩ := value_read junk decls ht a.type raw v q hc he hm
    refine ⟨f0, fun f hge k e acc r hre hr' => ?_⟩
    have er : a.render ++ q = a.gap ++ a.name ++ a.gap₁ ++ a.type.render ++ a.gap₂ ++ d := by unfold AttDef.render; rw [← hr]; simp
    rw [er, att_value junk f tag k r e a hw d ho quote raw q v hx hq' hqr (by rw [hre]; exact hf0 f hge), hyes, if_pos rfl]
    congr 1
    unfold stored
    simp only [List.flatMap_cons, List.flatMap_nil, List.append_nil]
    rw [if_neg (by rw [hyes]; simp), hr', store_one, hval]
  obtain ⟨_, _, _, _, _, hdw⟩ := hw
  unfold AttDef.Gives at hv
  cases hd : a.dflt with
  | required =>
    rw [hd] at hv hash
    exact hash _ (.inr rfl) rfl rfl hv
  | implied =>
    rw [hd] at hv hash
    exact hash _ (.inl rfl) rfl rfl hv
  | value quote raw =>
    rw [hd] at hv value hdw hf
    obtain ⟨v, hval, hm⟩ := hv
    refine value (quote :: (raw ++ quote :: q)) quote raw v (by simp [AttDefault.render]) (quote_opens _ _ hdw.1) ?_ hdw.1 hdw.2.2.1 hdw.2.1 hf hm rfl hval
    rw [if_neg]
    rw [prefix_no]
    · simp
    · rcases hdw.1 with rfl | rfl <;> (rintro ⟨t, ht⟩; cases ht)
  | fixed gap quote raw =>
    rw [hd] at hv value hdw hf
    obtain ⟨v, hval, hm⟩ := hv
    refine value (bytes "#FIXED" ++ (gap ++ (quote :: (raw ++ quote :: q)))) quote raw v (by simp [AttDefault.render]) ⟨_, _, rfl, by decide⟩ ?_ hdw.2.1 hdw.2.2.2.1 hdw.2.2.1 hf hm rfl hval
    have : (ascText "#FIXED").isPrefixOf (bytes "#FIXED" ++ (gap ++ (quote :: (raw ++ quote :: q)))) = true := prefix_yes _ _
    rw [if_pos this]
    exact drop_gap hdw.1.2 (fun c hc => by simp at hc; rw [← hc]; exact (quote_space quote hdw.2.1).1)

theorem render_ends (defs : List AttDef) (hw : ∀ a ∈ defs, a.WF) (q : List Byte) (hq : Ends q) : Ends (defs.flatMap AttDef.render ++ q) := by
  cases defs with
  | nil => exact hq
  | cons a ds =>
    obtain ⟨c, r, hc, hs⟩ := gap_cons (hw a List.mem_cons_self).1
    refine ⟨c, r ++ a.name ++ a.gap₁ ++ a.type.render ++ a.gap₂ ++ a.dflt.render ++ ds.flatMap AttDef.render ++ q, ?_, .inl hs⟩
    rw [List.flatMap_cons]
    unfold AttDef.render
    rw [hc]
    simp

/-- All definitions. -/
theorem att_loop (junk : Nat → Byte) (decls : List (List Byte × List Byte)) (ht : Texts decls) (tag : List Byte) (val : AttDef → Option (List Byte)) (gap' rest : List Byte) (hg : Blank gap') :
    ∀ (defs : List AttDef), (∀ a ∈ defs, a.WF) → (∀ a ∈ defs, FitDefault a.dflt) → (∀ a ∈ defs, a.Gives decls (val a)) →
      ∃ f0, ∀ f ≥ f0, ∀ k e acc (r : XmlRoot), r.entities = predefinedEntities ++ entTable decls → r.defaults = oneTag tag acc → defs.length < k →
        attLoop junk f 0 tag k r e (defs.flatMap AttDef.render ++ (gap' ++ asc '>' :: rest)) =
          .ok (some ({ r with defaults := oneTag tag (acc ++ stored val defs) }, endOf e defs (gap' ++ asc '>' :: rest))) := by
  have hends : Ends (gap' ++ asc '>' :: rest) := by
    cases gap' with
    | nil => exact ⟨_, _, rfl, .inr rfl⟩
    | cons c g => exact ⟨c, g ++ asc '>' :: rest, rfl, .inl (blank_xml c (hg c List.mem_cons_self)).1⟩
  intro defs
  induction defs with
  | nil =>
    intro _ _ _
    refine ⟨0, fun f _ k e acc r _ hr hk => ?_⟩
    cases k with
    | zero => simp at hk
    | succ k =>
      rw [List.flatMap_nil, List.nil_append, att_blank _ _ _ _ _ _ _ _ _ hg]
      unfold attLoop
      have : (asc '>' :: rest).dropWhile isXmlSpace = asc '>' :: rest := by rw [List.dropWhile_cons, if_neg (by decide)]
      simp only [this]
      rw [if_pos (.inr rfl)]
      simp only [endOf, stored, List.flatMap_nil, List.append_nil]
      rw [← hr]
  | cons a ds ih =>
    intro hw hf hv
    obtain ⟨f0, h0⟩ := att_step junk decls ht tag a (hw a List.mem_cons_self) (hf a List.mem_cons_self) val (hv a List.mem_cons_self) (ds.flatMap AttDef.render ++ (gap' ++ asc '>' :: rest))
      (render_ends ds (fun b hb => hw b (List.mem_cons_of_mem _ hb)) _ hends)
    obtain ⟨f1, h1⟩ := ih (fun b hb => hw b (List.mem_cons_of_mem _ hb)) (fun b hb => hf b (List.mem_cons_of_mem _ hb)) (fun b hb => hv b (List.mem_cons_of_mem _ hb))
    refine ⟨max f0 f1, fun f hge k e acc r hre hr hk => ?_⟩
    cases k with
    | zero => simp at hk
    | succ k =>
      rw [List.flatMap_cons, List.append_assoc, h0 f (by omega) k e acc r hre hr]
      rw [h1 f (by omega) k _ (acc ++ stored val [a]) { r with defaults := oneTag tag (acc ++ stored val [a]) } hre rfl (by simp at hk; omega)]
      have : acc ++ stored val [a] ++ stored val ds = acc ++ stored val (a :: ds) := by simp [stored]
      rw [this]
      rfl

theorem defs_length (defs : List AttDef) (hw : ∀ a ∈ defs, a.WF) : defs.length ≤ (defs.flatMap AttDef.render).length := by
  induction defs with
  | nil => simp
  | cons a ds ih =>
    have := ih (fun b hb => hw b (List.mem_cons_of_mem _ hb))
    obtain ⟨c, r, hc, hs⟩ := gap_cons (hw a List.mem_cons_self).1
    rw [List.flatMap_cons, List.length_append, List.length_cons]
    have : 1 ≤ a.render.length := by unfold AttDef.render; rw [hc]; simp
    omega

/-- What a list of attributes leads to. -/
def afterList (s : DocState) (tag : List Byte) (l : List (List Byte × Option (List Byte) × XmlState)) : DocState :=
  { s with root := { s.root with defaults := oneTag tag l }, name := some [] }

theorem attlist_read (junk : Nat → Byte) (decls : List (List Byte × List Byte)) (ht : Texts decls) (l : AttList) (hw : l.WF) (hf : ∀ a ∈ l.defs, FitDefault a.dflt)
    (val : AttDef → Option (List Byte)) (hv : ∀ a ∈ l.defs, a.Gives decls (val a)) (rest : List Byte) (hne : l.defs ≠ [] ∨ l.gap' ≠ []) :
    ∃ f0, ∀ f ≥ f0, ∀ (s : DocState), s.root.entities = predefinedEntities ++ entTable decls → s.root.defaults = [] →
      docTurn junk f s (l.render ++ rest) = .ok (match endOf .cut l.defs (l.gap' ++ asc '>' :: rest) with
        | .cut => .stop (afterList s l.tag (stored val l.defs))
        | .at p => .go (afterList s l.tag (stored val l.defs)) p) := by
  obtain ⟨hg, hn, hd, hg'⟩ := hw
  obtain ⟨f0, h0⟩ := att_loop junk decls ht l.tag val l.gap' rest hg' l.defs hd hf hv
  refine ⟨f0, fun f hge s hse hsd => ?_⟩
  have er : l.render ++ rest = bytes "<!ATTLIST" ++ (l.gap ++ (l.tag ++ (l.defs.flatMap AttDef.render ++ (l.gap' ++ asc '>' :: rest)))) := by
    unfold AttList.render
    simp [show bytes ">" = [asc '>'] by decide +kernel]
  rw [er, turn_attlist]
  obtain ⟨c, r, hx, hc⟩ : ∃ c r, l.defs.flatMap AttDef.render ++ (l.gap' ++ asc '>' :: rest) = c :: r ∧ isXmlSpace c = true := by
    cases hdf : l.defs with
    | nil =>
      rcases hne with h | h
      · exact absurd hdf h
      · obtain ⟨c, r, hc, hs⟩ := gap_cons ⟨h, hg'⟩
        exact ⟨c, r ++ asc '>' :: rest, by rw [hc]; rfl, hs⟩
    | cons a ds =>
      obtain ⟨c, r, hc, hs⟩ := gap_cons (hd a (by rw [hdf]; exact List.mem_cons_self)).1
      refine ⟨c, r ++ a.name ++ a.gap₁ ++ a.type.render ++ a.gap₂ ++ a.dflt.render ++ ds.flatMap AttDef.render ++ (l.gap' ++ asc '>' :: rest), ?_, hs⟩
      rw [List.flatMap_cons]
      unfold AttDef.render
      rw [hc]
      simp
  have hloop := h0 f hge ((c :: r).length + 1) .cut [] s.root hse (by rw [hsd]; rfl) (by
    rw [← hx]
    have := defs_length l.defs hd
    simp only [List.length_append, List.length_cons] at this ⊢
    omega)
  rw [hx] at hloop
  obtain ⟨n0, hn0, hnm, hns⟩ := name_head (x := c :: r) hn
  unfold docAttlist
  simp only []
  rw [hx, drop_gap hg.2 (fun x hx => by rw [hn0] at hx; cases hx; exact hns), if_neg (by intro h; rw [h] at hn0; cases hn0)]
  have t := scan_stop (p := fun c => !isXmlSpace c && c != asc '>') (a := l.tag) (b := c :: r)
    (fun x hx => by simp [(name_byte x (hn.2 x hx)).1, (name_byte x (hn.2 x hx)).2.2.2.2.1]) (fun x hx => by simp at hx; subst hx; simp [hc])
  rw [t.1, t.2, if_neg (by simp; rintro rfl; revert hc; decide)]
  have hi : defaultsAt s.name s.root.defaults = 0 := by rw [hsd]; unfold defaultsAt; split <;> rfl
  rw [hi]
  have hb : attLoop junk f 0 l.tag ((c :: r).length + 1) s.root .cut ((c :: r).drop 1) = attLoop junk f 0 l.tag ((c :: r).length + 1) s.root .cut (c :: r) := by
    have key : ∀ c : Byte, isXmlSpace c = true → (c = 9 ∨ c = 10 ∨ c = 13 ∨ c = 32) := by decide +kernel
    exact (att_blank junk f 0 l.tag _ s.root .cut [c] r (by intro x hx; simp at hx; subst hx; exact key x hc)).symm
  rw [hb, hloop, Res.ok_bind]
  simp only [List.nil_append]
  unfold afterList
  cases endOf .cut l.defs (l.gap' ++ asc '>' :: rest) <;> rfl

theorem endOf_snoc (e : AttEnd) (ds : List AttDef) (a : AttDef) (q : List Byte) : endOf e (ds ++ [a]) q = if AttDefault.hasValue a.dflt then .cut else .at (68 :: q) := by
  induction ds generalizing e with
  | nil => rfl
  | cons d ds ih => exact ih _

end Wizard.DocP

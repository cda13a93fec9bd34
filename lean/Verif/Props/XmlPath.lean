import Verif.Model.XmlPath
import Verif.Spec.XmlPath
import Verif.Props.Path
import Verif.Props.XmlTree
/-! C90, C91: paths into XML trees. -/
namespace Wizard.Props
open Wizard Wizard.XmlL Wizard.Spec.XmlTree Wizard.Spec.XmlPath Wizard.Spec.Path

theorem tagBuffer_length : tagBuffer.length = wizardPathExtent := by unfold tagBuffer; rw [List.length_replicate]

theorem pathTag_plain (found : List Byte → Bool) (t : List Byte) (hp : Plain t) : pathTag found t = .ok (t, 0) := by
  obtain ⟨h0, _, hc, hb, hl⟩ := hp
  unfold pathTag
  by_cases hne : t = []
  · subst hne
    have h : getPathComponent found [] .subnode tagBuffer = .ok tagBuffer ∧ getPathComponent found [] .canonical tagBuffer = .ok tagBuffer := by
      unfold getPathComponent
      rw [if_pos rfl, if_pos rfl]
      exact ⟨wr_at [] (List.replicate 4095 0) 0 0, wr_at [] (List.replicate 4095 0) 0 0⟩
    have ht : textOf tagBuffer = [] := by
      unfold textOf tagBuffer
      exact List.takeWhile_cons_of_neg (by simp)
    rw [h.1, Res.ok_bind, h.2, Res.ok_bind, ht]
    rfl
  · obtain ⟨d, s⟩ := plain found t hc hb
    obtain ⟨_, ⟨m2, h2, t2, _⟩, ⟨m3, h3, t3, _⟩⟩ := C57_marks found t tagBuffer [] t t [] hne h0 hl (by rw [tagBuffer_length]; exact Nat.le_refl _) d (.inl rfl) s
    rw [h2, Res.ok_bind, h3, Res.ok_bind, t2, t3]
    rfl

theorem stepOrdered_zero (h : XmlHeap) (n : Option Nat) : stepOrdered h 0 n = n := by cases n <;> rfl

theorem forest_first {h : XmlHeap} {s : Past} (f : Forest h s) (p : Nat) (t : List Byte) : ∃ o, getChild h p t = .ok o ∧ FirstChild s p t o := by
  obtain ⟨L, S, k, d, _⟩ := f.kids p
  have hM : (L.map (fun i => (i, h.offset i))).map (·.1) = L := by rw [List.map_map]; simp [Function.comp_def]
  refine ⟨_, kids_getChild k t, _, d, ?_⟩
  rw [hM]
  unfold byTag
  congr 1
  apply List.filter_congr
  intro i hi
  rw [f.tags i (k.bd i hi)]
  simp

theorem walk_plain {h : XmlHeap} {s : Past} (f : Forest h s) (found : List Byte → Bool) : ∀ (ts : List (List Byte)) (p : Nat), (∀ t ∈ ts, Plain t) →
    ∃ o, walkPath found h ts p = .ok o ∧ Leads s p ts o := by
  intro ts
  induction ts with
  | nil => intro p _; exact ⟨_, rfl, .here p⟩
  | cons t ts ih =>
    intro p hp
    obtain ⟨o, h1, h2⟩ := forest_first f p t
    rw [walkPath, pathTag_plain found t (hp t (by simp)), Res.ok_bind, h1, Res.ok_bind]
    simp only [stepOrdered_zero]
    cases o with
    | none => exact ⟨none, rfl, .none p t ts h2⟩
    | some c =>
      obtain ⟨o, h3, h4⟩ := ih c (fun t ht => hp t (List.mem_cons_of_mem _ ht))
      exact ⟨o, h3, .down p t ts c o h2 h4⟩

theorem path_plain (found : List Byte → Bool) (h : XmlHeap) (p : Nat) (ts : List (List Byte)) (hne : ts ≠ []) (hp : ∀ t ∈ ts, Plain t) :
    getXmlPath found h p ([asc '/'].intercalate ts) = walkPath found h ts p := by
  unfold getXmlPath
  rw [C87_join ts hne (fun c hc => (hp c hc).1) (fun c hc => (hp c hc).2.1), Res.ok_bind]

/-- **C90** (partial) After every history, `GetXMLTreePath` with a path of tags goes from a node to the first child with the first tag, from
there to the first child with the second, and so on, whatever files there are.  Missing: numbers in brackets
(`C90_subnode_violated`) and tags with a colon (`C90_directory_violated`). -/
theorem C90_path_partial (found : List Byte → Bool) (ops : List XmlOp) (ha : Past.start.AllAllowed ops) :
    ∃ h, xmlRun XmlHeap.empty ops = .ok h ∧ ∀ p ts, ts ≠ [] → (∀ t ∈ ts, Plain t) →
      ∃ o, getXmlPath found h p ([asc '/'].intercalate ts) = .ok o ∧ Leads (Past.start.run ops) p ts o := by
  obtain ⟨h, e, f⟩ := forest_run ops _ _ forest_empty ha
  refine ⟨h, e, fun p ts hne hp => ?_⟩
  rw [path_plain found h p ts hne hp]
  exact walk_plain f found ts p hp

theorem doc_unique {A M N : List (Nat × Nat)} (hM : DocumentOrder A M) (hN : DocumentOrder A N) : M = N := by
  obtain ⟨m1, m2⟩ := hM
  obtain ⟨n1, n2⟩ := hN
  have hf : ∀ o, M.filter (·.2 == o) = N.filter (·.2 == o) := fun o => by rw [m2, n2]
  clear m2 n2
  induction M generalizing N with
  | nil =>
    cases N with
    | nil => rfl
    | cons b N =>
      have := hf b.2
      rw [List.filter_cons_of_pos (by simp)] at this
      cases this
  | cons a M ih =>
    have hmem : ∀ x, x ∈ a :: M ↔ x ∈ N := by
      intro x
      have := hf x.2
      constructor
      · intro hx
        have h1 : x ∈ (a :: M).filter (·.2 == x.2) := List.mem_filter.2 ⟨hx, by simp⟩
        rw [this] at h1
        exact (List.mem_filter.1 h1).1
      · intro hx
        have h1 : x ∈ N.filter (·.2 == x.2) := List.mem_filter.2 ⟨hx, by simp⟩
        rw [← this] at h1
        exact (List.mem_filter.1 h1).1
    cases N with
    | nil => exact absurd ((hmem a).1 (by simp)) (by simp)
    | cons b N =>
      have h1 : a.2 ≤ b.2 := by
        rcases List.mem_cons.1 ((hmem b).2 (by simp)) with e | h
        · rw [e]; exact Nat.le_refl _
        · exact (List.pairwise_cons.1 m1).1 b h
      have h2 : b.2 ≤ a.2 := by
        rcases List.mem_cons.1 ((hmem a).1 (by simp)) with e | h
        · rw [e]; exact Nat.le_refl _
        · exact (List.pairwise_cons.1 n1).1 a h
      have hab : a.2 = b.2 := Nat.le_antisymm h1 h2
      have := hf a.2
      rw [List.filter_cons_of_pos (by simp), List.filter_cons_of_pos (by simp [hab])] at this
      have e := (List.cons.inj this).1
      subst e
      rw [ih (List.pairwise_cons.1 m1).2 (List.pairwise_cons.1 n1).2 ?_]
      intro o
      have := hf o
      rw [List.filter_cons, List.filter_cons] at this
      split at this
      · exact (List.cons.inj this).2
      · exact this

theorem one_component (found : List Byte → Bool) (h : XmlHeap) (p : Nat) (c t : List Byte) (j : Nat) (h0 : (0 : Byte) ∉ c) (hs : asc '/' ∉ c) (ht : pathTag found c = .ok (t, j)) :
    getXmlPath found h p c = (do let child ← getChild h p t; .ok (stepOrdered h j child)) := by
  have := C87_join [c] (by simp) (by simpa using h0) (by simpa using hs)
  rw [List.intercalate_singleton] at this
  unfold getXmlPath
  rw [this, Res.ok_bind, walkPath, ht, Res.ok_bind]
  congr 1
  funext child
  simp only []
  cases hstep : stepOrdered h j child <;> simp only [walkPath]

/-- **C90** is false of numbers: `tag[2]` does not give the second child with the tag, but the child that follows the first one with the
tag, whatever its tag is. -/
theorem C90_subnode_violated (found : List Byte → Bool) (ops : List XmlOp) (ha : Past.start.AllAllowed ops) (p : Nat) (t : List Byte) (ht : Plain t) (hl : t.length + 3 < wizardPathExtent)
    (M pre post : List (Nat × Nat)) (c d : Nat × Nat) (hM : DocumentOrder ((Past.start.run ops).attached p) M) (hsplit : M = pre ++ c :: d :: post)
    (hc : (Past.start.run ops).tags[c.1]? = some t) (hpre : ∀ x ∈ pre, (Past.start.run ops).tags[x.1]? ≠ some t) :
    ∃ h, xmlRun XmlHeap.empty ops = .ok h ∧ getXmlPath found h p (t ++ [asc '[', asc '2', asc ']']) = .ok (some d.1) := by
  obtain ⟨h, e, f⟩ := forest_run ops _ _ forest_empty ha
  refine ⟨h, e, ?_⟩
  obtain ⟨h0, hs, hcol, hb, _⟩ := ht
  have hx : ∀ x : Byte, x ∉ t → x ∉ [asc '[', asc '2', asc ']'] → x ∉ t ++ [asc '[', asc '2', asc ']'] := by
    intro x h1 h2 h3
    rcases List.mem_append.1 h3 with h | h
    · exact h1 h
    · exact h2 h
  have htag : pathTag found (t ++ [asc '[', asc '2', asc ']']) = .ok (t, 1) := by
    have dr : Drive found (t ++ [asc '[', asc '2', asc ']']) [] (t ++ [asc '[', asc '2', asc ']']) := .inl ⟨rfl, rfl, .inl (hx _ hcol (by decide))⟩
    have sb : Subnode (t ++ [asc '[', asc '2', asc ']']) t [asc '2'] := .inr ⟨by simp, by decide⟩
    obtain ⟨_, ⟨m2, h2, t2, _⟩, ⟨m3, h3, t3, _⟩⟩ := C57_marks found _ tagBuffer [] _ t [asc '2'] (by simp) (hx _ h0 (by decide)) (by simpa using hl)
      (by rw [tagBuffer_length]; exact Nat.le_refl _) dr (.inl rfl) sb
    unfold pathTag
    rw [h2, Res.ok_bind, h3, Res.ok_bind, t2, t3]
    have : ((strtolC 10 [asc '2']).1 - 1).toNat = 1 := by decide
    rw [this]
  rw [one_component found h p _ t 1 (hx _ h0 (by decide)) (hx _ hs (by decide)) htag]
  obtain ⟨L, S, k, dc, _⟩ := f.kids p
  have hL : L.map (fun i => (i, h.offset i)) = M := doc_unique dc hM
  have hL' : L = M.map (·.1) := by rw [← hL, List.map_map]; simp [Function.comp_def]
  rw [kids_getChild k t, Res.ok_bind]
  have hfirst : (byTag h t L).head? = some c.1 := by
    have hcong : byTag h t L = L.filter (fun i => (Past.start.run ops).tags[i]? == some t) := by
      unfold byTag
      apply List.filter_congr
      intro i hi
      rw [f.tags i (k.bd i hi)]
      simp
    rw [hcong, hL', hsplit, List.map_append, List.map_cons, List.filter_append, List.filter_cons_of_pos (by rw [hc]; simp)]
    have : (pre.map (·.1)).filter (fun i => (Past.start.run ops).tags[i]? == some t) = [] := by
      rw [List.filter_eq_nil_iff]
      intro a ha
      obtain ⟨x, hx, rfl⟩ := List.mem_map.1 ha
      simpa using hpre x hx
    rw [this]
    rfl
  have hord := k.ord
  rw [hL', hsplit, List.map_append, List.map_cons, List.map_cons, Seg_append] at hord
  obtain ⟨m, _, hm1⟩ := hord
  rw [hfirst]
  simp only [stepOrdered]
  simp only [Seg] at hm1
  rw [hm1.2.1]

/-- **C90** is false of tags with a colon: which child `ns:tag` gives depends on the files in the working directory.  If there is one
called `ns`, the child with tag `tag` is meant, otherwise the child with tag `ns:tag`. -/
theorem C90_directory_violated (found : List Byte → Bool) (h : XmlHeap) (p : Nat) (ns t : List Byte) (hn : Plain ns) (ht : Plain t) (hne : ns ≠ []) (hl : ns.length + 1 + (ns.length + 1 + t.length) < wizardPathExtent) :
    (found ns = true → found (ns ++ asc ':' :: t) = false → getXmlPath found h p (ns ++ asc ':' :: t) = getChild h p t) ∧
    (found ns = false → getXmlPath found h p (ns ++ asc ':' :: t) = getChild h p (ns ++ asc ':' :: t)) := by
  obtain ⟨n0, ns', nc, nb, _⟩ := hn
  obtain ⟨t0, ts', tc, tb, _⟩ := ht
  have hx : ∀ x : Byte, x ∉ ns → x ∉ t → x ≠ asc ':' → x ∉ ns ++ asc ':' :: t := by
    intro x h1 h2 h3 h4
    rcases List.mem_append.1 h4 with h | h
    · exact h1 h
    · rcases List.mem_cons.1 h with h | h
      · exact h3 h
      · exact h2 h
  have hlen : (ns ++ asc ':' :: t).length < wizardPathExtent := by simp; omega
  have key : ∀ f u, Drive found (ns ++ asc ':' :: t) f u → asc ']' ∉ u → (u = ns ++ asc ':' :: t ∨ f = ns) → getXmlPath found h p (ns ++ asc ':' :: t) = getChild h p u := by
    intro f u dr hu hfu
    have sb : Subnode u u [] := .inl ⟨rfl, rfl, fun ⟨a, t, h⟩ => hu (by rw [h]; simp)⟩
    obtain ⟨_, ⟨m2, h2, t2, _⟩, ⟨m3, h3, t3, _⟩⟩ := C57_marks found _ tagBuffer f u u [] (by simp) (hx _ n0 t0 (by decide)) hlen
      (by rw [tagBuffer_length]; exact Nat.le_refl _) dr (by
        rcases hfu with e | e
        · exact .inl e
        · right; rw [e, tagBuffer_length]; simp; omega) sb
    have htag : pathTag found (ns ++ asc ':' :: t) = .ok (u, 0) := by
      unfold pathTag
      rw [h2, Res.ok_bind, h3, Res.ok_bind, t2, t3]
      rfl
    rw [one_component found h p _ u 0 (hx _ n0 t0 (by decide)) (hx _ ns' ts' (by decide)) htag]
    cases hg : getChild h p u with
    | ok o => rw [Res.ok_bind, stepOrdered_zero]
    | ub => rfl
    | fatal => rfl
  constructor
  · intro h1 h2
    exact key ns t (.inr ⟨rfl, nc, h2, .inr h1⟩) tb (.inr rfl)
  · intro h1
    exact key [] _ (.inl ⟨rfl, rfl, .inr (.inr ⟨ns, t, rfl, nc, hne, h1⟩)⟩) (hx _ nb tb (by decide)) (.inl rfl)

/-! ### Adding a path -/

theorem first_unique {s : Past} {p : Nat} {t : List Byte} {a b : Option Nat} (ha : FirstChild s p t a) (hb : FirstChild s p t b) : a = b := by
  obtain ⟨M, h1, h2⟩ := ha
  obtain ⟨N, h3, h4⟩ := hb
  rw [doc_unique h1 h3] at h2
  rw [← h2, ← h4]

theorem first_iff {h : XmlHeap} {s : Past} (f : Forest h s) (p : Nat) (t : List Byte) (o : Option Nat) : getChild h p t = .ok o ↔ FirstChild s p t o := by
  obtain ⟨o', h1, h2⟩ := forest_first f p t
  rw [h1]
  constructor
  · intro e; rw [← Res.ok.inj e]; exact h2
  · intro h; rw [first_unique h2 h]

theorem attached_add (s : Past) (q : Nat) (t : List Byte) (o p : Nat) : (s.step (.add q t o)).attached p = s.attached p ++ (if q = p then [(s.tags.length, o)] else []) := by
  have := attached_snoc s (s.tags ++ [t]) q s.tags.length o p
  show Past.attached ⟨_, _⟩ p = _
  rw [this]
  split <;> simp

/-- The children with a tag, without the new node. -/
theorem add_children {h : XmlHeap} {s : Past} (f : Forest h s) (q : Nat) (t : List Byte) (o p : Nat) {M M' : List (Nat × Nat)}
    (hM : DocumentOrder (s.attached p) M) (hM' : DocumentOrder ((s.step (.add q t o)).attached p) M') (u : List Byte) :
    ((M'.map (·.1)).filter (fun i => (s.step (.add q t o)).tags[i]? == some u)).filter (· != s.tags.length) = (M.map (·.1)).filter (fun i => s.tags[i]? == some u) := by
  have hb : ∀ e ∈ s.attached p, e.1 < s.tags.length := by
    intro e he
    have := f.bound _ (mem_attached.1 he)
    rw [f.size] at this
    exact this
  have hA : (s.step (.add q t o)).attached p = s.attached p ++ (if q = p then [(s.tags.length, o)] else []) := attached_add s q t o p
  have hd : DocumentOrder (s.attached p) (M'.filter (·.1 != s.tags.length)) := by
    refine ⟨List.Pairwise.filter _ hM'.1, fun x => ?_⟩
    have e1 : (M'.filter (·.1 != s.tags.length)).filter (·.2 == x) = (M'.filter (·.2 == x)).filter (·.1 != s.tags.length) := by
      rw [List.filter_filter, List.filter_filter]
      congr 1; funext i; exact Bool.and_comm _ _
    rw [e1, hM'.2 x, hA, List.filter_append, List.filter_append]
    have e2 : ((if q = p then [(s.tags.length, o)] else []).filter (·.2 == x)).filter (·.1 != s.tags.length) = [] := by
      rw [List.filter_filter, List.filter_eq_nil_iff]
      intro a ha
      split at ha
      · rw [List.mem_singleton] at ha; rw [ha]; simp
      · simp at ha
    rw [e2, List.append_nil, List.filter_eq_self]
    intro a ha
    have := hb a (List.mem_filter.1 ha).1
    simp; omega
  rw [doc_unique hM hd, List.filter_filter, List.filter_map, List.filter_map, List.filter_filter]
  congr 1
  apply List.filter_congr
  intro a ha
  simp only [Function.comp_apply]
  have ha' := (docOrder_mem hM' a).1 ha
  rw [hA] at ha'
  rcases List.mem_append.1 ha' with h1 | h1
  · have := hb a h1
    have e : (s.step (.add q t o)).tags[a.1]? = s.tags[a.1]? := List.getElem?_append_left this
    rw [e, Bool.and_comm]
  · split at h1
    · rw [List.mem_singleton] at h1
      rw [h1]
      simp
    · simp at h1

/-- What one more child with a new tag changes. -/
theorem add_mono {h : XmlHeap} {s : Past} (f : Forest h s) {q : Nat} (hq : q < h.size) (t : List Byte) (o : Nat) (hnone : getChild h q t = .ok none) :
    ∃ h', addChild h q t o = .ok h' ∧ Forest h' (s.step (.add q t o)) ∧ getChild h' q t = .ok (some h.size) ∧
      ∀ p u c, getChild h p u = .ok (some c) → getChild h' p u = .ok (some c) := by
  obtain ⟨h', e, f'⟩ := forest_step f (.add q t o) (by rw [f.size] at hq; exact hq)
  have hA : ∀ p, (s.step (.add q t o)).attached p = s.attached p ++ (if q = p then [(s.tags.length, o)] else []) := attached_add s q t o
  have hn := (first_iff f q t none).1 hnone
  refine ⟨h', e, f', ?_, ?_⟩
  · rw [first_iff f']
    obtain ⟨M, m1, m2⟩ := hn
    obtain ⟨_, _, N, n1, _⟩ := forest_first f' q t
    refine ⟨N, n1, ?_⟩
    have hc := add_children f q t o q m1 n1 t
    rw [List.head?_eq_none_iff.1 m2, List.filter_eq_nil_iff] at hc
    have hin : s.tags.length ∈ (N.map (·.1)).filter (fun i => (s.step (.add q t o)).tags[i]? == some t) := by
      refine List.mem_filter.2 ⟨List.mem_map.2 ⟨(s.tags.length, o), (docOrder_mem n1 _).2 (by rw [hA, if_pos rfl]; simp), rfl⟩, ?_⟩
      have : (s.step (.add q t o)).tags[s.tags.length]? = some t := by
        show (s.tags ++ [t])[s.tags.length]? = some t
        simp
      rw [this]; simp
    cases hl : (N.map (·.1)).filter (fun i => (s.step (.add q t o)).tags[i]? == some t) with
    | nil => rw [hl] at hin; simp at hin
    | cons x l =>
      have := hc x (by rw [hl]; simp)
      rw [f.size]
      simp at this
      rw [this]; rfl
  · intro p u c hpc
    rw [first_iff f']
    obtain ⟨M, m1, m2⟩ := (first_iff f p u (some c)).1 hpc
    obtain ⟨_, _, N, n1, _⟩ := forest_first f' p u
    refine ⟨N, n1, ?_⟩
    have hc := add_children f q t o p m1 n1 u
    have hself : ((N.map (·.1)).filter (fun i => (s.step (.add q t o)).tags[i]? == some u)).filter (· != s.tags.length) = (N.map (·.1)).filter (fun i => (s.step (.add q t o)).tags[i]? == some u) := by
      rw [List.filter_eq_self]
      intro a ha
      obtain ⟨ha1, ha2⟩ := List.mem_filter.1 ha
      obtain ⟨x, hx, rfl⟩ := List.mem_map.1 ha1
      simp only [bne_iff_ne, ne_eq]
      intro ex
      rw [ex] at ha2
      have ht : (s.step (.add q t o)).tags[s.tags.length]? = some t := by
        show (s.tags ++ [t])[s.tags.length]? = some t
        simp
      rw [ht] at ha2
      have htu : t = u := by simpa using ha2
      have hx' := (docOrder_mem n1 x).1 hx
      rw [hA] at hx'
      rcases List.mem_append.1 hx' with h1 | h1
      · have := f.bound _ (mem_attached.1 h1)
        rw [f.size] at this
        simp only [] at this
        omega
      · split at h1
        · rename_i hqp
          subst hqp htu
          have := first_unique hn ((first_iff f q t (some c)).1 hpc)
          cases this
        · simp at h1
    rw [← hself, hc, m2]

theorem walk_mono {h h' : XmlHeap} (found : List Byte → Bool) (hm : ∀ q u c, getChild h q u = .ok (some c) → getChild h' q u = .ok (some c)) :
    ∀ (ts : List (List Byte)) (p n : Nat), (∀ t ∈ ts, Plain t) → walkPath found h ts p = .ok (some n) → walkPath found h' ts p = .ok (some n) := by
  intro ts
  induction ts with
  | nil => intro p n _ h; exact h
  | cons t ts ih =>
    intro p n hp hw
    rw [walkPath, pathTag_plain found t (hp t (by simp)), Res.ok_bind] at hw ⊢
    simp only [stepOrdered_zero] at hw ⊢
    cases hg : getChild h p t with
    | ok o =>
      rw [hg, Res.ok_bind] at hw
      cases o with
      | none => cases hw
      | some c =>
        rw [hm p t c hg, Res.ok_bind]
        exact ih c n (fun t ht => hp t (List.mem_cons_of_mem _ ht)) hw
    | ub => rw [hg] at hw; cases hw
    | fatal => rw [hg] at hw; cases hw

theorem child_bound {h : XmlHeap} {s : Past} (f : Forest h s) {p : Nat} {t : List Byte} {c : Nat} (hg : getChild h p t = .ok (some c)) : c < h.size := by
  obtain ⟨L, S, k, _, _⟩ := f.kids p
  rw [kids_getChild k t] at hg
  exact k.bd c (List.mem_filter.1 (List.mem_of_mem_head? (Res.ok.inj hg))).1

theorem make_plain (found : List Byte → Bool) (o : Nat) : ∀ (ts : List (List Byte)) (h : XmlHeap) (s : Past) (p : Nat), Forest h s → p < h.size → (∀ t ∈ ts, Plain t) →
    ∃ h' n ops, makePath found o ts h p = .ok (h', some n) ∧ xmlRun h ops = .ok h' ∧ s.AllAllowed ops ∧ walkPath found h' ts p = .ok (some n) ∧
      (∀ q u c, getChild h q u = .ok (some c) → getChild h' q u = .ok (some c)) ∧ (∀ m, walkPath found h ts p = .ok (some m) → h' = h ∧ n = m) := by
  intro ts
  induction ts with
  | nil => intro h s p f hp _; exact ⟨h, p, [], rfl, rfl, trivial, rfl, fun _ _ _ h => h, fun m e => ⟨rfl, Option.some.inj (Res.ok.inj e)⟩⟩
  | cons t ts ih =>
    intro h s p f hp hpl
    have hpt := pathTag_plain found t (hpl t (by simp))
    have hpl' : ∀ t ∈ ts, Plain t := fun t ht => hpl t (List.mem_cons_of_mem _ ht)
    obtain ⟨oc, hg, _⟩ := forest_first f p t
    rw [makePath, hpt, Res.ok_bind]
    unfold childOrAdd
    simp only [hg, Res.ok_bind, stepOrdered_zero]
    cases oc with
    | some c =>
      obtain ⟨h', n, ops, i1, i2, i3, i4, i5, i6⟩ := ih h s c f (child_bound f hg) hpl'
      refine ⟨h', n, ops, i1, i2, i3, ?_, i5, ?_⟩
      · rw [walkPath, hpt, Res.ok_bind]
        simp only [stepOrdered_zero]
        rw [i5 p t c hg, Res.ok_bind]
        exact i4
      · intro m hm
        rw [walkPath, hpt, Res.ok_bind] at hm
        simp only [stepOrdered_zero] at hm
        rw [hg, Res.ok_bind] at hm
        exact i6 m hm
    | none =>
      obtain ⟨h1, a1, f1, a3, a4⟩ := add_mono f hp t o hg
      have hsz : h1.size = h.size + 1 := by
        rw [f1.size, f.size]
        show (s.tags ++ [t]).length = _
        simp
      obtain ⟨h', n, ops, i1, i2, i3, i4, i5, i6⟩ := ih h1 _ h.size f1 (by omega) hpl'
      refine ⟨h', n, .add p t o :: ops, ?_, ?_, ⟨by rw [f.size] at hp; exact hp, i3⟩, ?_, fun q u c hc => i5 q u c (a4 q u c hc), ?_⟩
      · simp only [a1, Res.ok_bind]
        exact i1
      · rw [xmlRun, show xmlStep h (.add p t o) = .ok h1 from a1, Res.ok_bind, i2]
      · rw [walkPath, hpt, Res.ok_bind]
        simp only [stepOrdered_zero]
        rw [i5 p t _ a3, Res.ok_bind]
        exact i4
      · intro m hm
        rw [walkPath, hpt, Res.ok_bind] at hm
        simp only [stepOrdered_zero] at hm
        rw [hg, Res.ok_bind] at hm
        cases hm

/-- **C91** (partial) After every history, `AddPathToXMLTree` with a path of tags returns a node, and `GetXMLTreePath` with the same path
finds that node afterwards; all it does to the tree is adding children; every path that led to a node still leads to that node; and a
path that exists is left as it is.  Missing: numbers in brackets and tags with a colon, as in C90. -/
theorem C91_add_partial (found : List Byte → Bool) (ops : List XmlOp) (ha : Past.start.AllAllowed ops) (p : Nat) (hp : p < (Past.start.run ops).tags.length)
    (ts : List (List Byte)) (hne : ts ≠ []) (hpl : ∀ t ∈ ts, Plain t) (o : Nat) :
    ∃ h h' n more, xmlRun XmlHeap.empty ops = .ok h ∧ addXmlPath found h p ([asc '/'].intercalate ts) o = .ok (h', some n) ∧
      xmlRun h more = .ok h' ∧ (Past.start.run ops).AllAllowed more ∧
      getXmlPath found h' p ([asc '/'].intercalate ts) = .ok (some n) ∧
      (∀ q us m, us ≠ [] → (∀ u ∈ us, Plain u) → getXmlPath found h q ([asc '/'].intercalate us) = .ok (some m) → getXmlPath found h' q ([asc '/'].intercalate us) = .ok (some m)) ∧
      (∀ m, getXmlPath found h p ([asc '/'].intercalate ts) = .ok (some m) → h' = h ∧ n = m) := by
  obtain ⟨h, e, f⟩ := forest_run ops _ _ forest_empty ha
  obtain ⟨h', n, more, i1, i2, i3, i4, i5, i6⟩ := make_plain found o ts h _ p f (by rw [f.size]; exact hp) hpl
  refine ⟨h, h', n, more, e, ?_, i2, i3, ?_, ?_, ?_⟩
  · unfold addXmlPath
    rw [C87_join ts hne (fun c hc => (hpl c hc).1) (fun c hc => (hpl c hc).2.1), Res.ok_bind, i1]
  · rw [path_plain found h' p ts hne hpl, i4]
  · intro q us m hus hup hm
    rw [path_plain found _ q us hus hup] at hm ⊢
    exact walk_mono found i5 us q m hup hm
  · intro m hm
    rw [path_plain found h p ts hne hpl] at hm
    exact i6 m hm

/-- The tree with children a@5, b@2, a@2, a@7, c@2 of node 0: `a[2]` is the node 5, with tag `c`, and not the node 1. -/
example : (xmlRun XmlHeap.empty sampleOps).bind (fun h => listTag h 0 [97]) = .ok [3, 1, 4] := by decide +kernel
example : DocumentOrder ((Past.start.run sampleOps).attached 0) ([(2, 2)] ++ (3, 2) :: (5, 2) :: [(1, 5), (4, 7)]) := by
  refine ⟨by decide, fun o => ?_⟩
  rw [show (Past.start.run sampleOps).attached 0 = [(1, 5), (2, 2), (3, 2), (4, 7), (5, 2)] by decide]
  by_cases h5 : o = 5
  · subst h5; decide
  · by_cases h2 : o = 2
    · subst h2; decide
    · by_cases h7 : o = 7
      · subst h7; decide
      · have e : ∀ n : Nat, n ≠ o → (n == o) = false := by intro n hn; simpa using hn
        simp only [List.nil_append, List.cons_append, List.filter_cons, List.filter_nil, e 5 (Ne.symm h5), e 2 (Ne.symm h2), e 7 (Ne.symm h7)]
        rfl
example : Plain [97] ∧ Plain [110, 115] := by unfold Plain; decide
example : (Past.start.run sampleOps).tags[3]? = some [97] ∧ (Past.start.run sampleOps).tags[2]? ≠ some [97] := by decide

end Wizard.Props

import Verif.Spec.XmlDestroy
import Verif.Lemmas.XmlDestroy
/-! C165: giving up trees. -/
namespace Wizard.Props
open Wizard Wizard.XmlL Wizard.XmlDes Wizard.Spec.XmlTree

/-- The parents as they were logged. -/
theorem parent_logged {h : XmlHeap} {s : Past} (f : Forest h s) (k p : Nat) : h.parent k = some p ↔ ∃ o, (p, k, o) ∈ s.log := by
  constructor
  · intro hk
    by_cases hl : ∀ e ∈ s.log, e.2.1 ≠ k
    · rw [(f.lone k hl).1] at hk; cases hk
    · simp only [ne_eq, Classical.not_forall, Classical.not_not] at hl
      obtain ⟨⟨q, j, o⟩, he, rfl⟩ := hl
      have := f.up _ he
      rw [hk] at this
      cases this
      exact ⟨o, he⟩
  · rintro ⟨o, ho⟩
    exact f.up _ ho

theorem kid_parent {h : XmlHeap} {s : Past} (f : Forest h s) {p : Nat} {L : List Nat} (d : DocumentOrder (s.attached p) (L.map (fun i => (i, h.offset i)))) (k : Nat) :
    k ∈ L ↔ h.parent k = some p := by
  rw [parent_logged f]
  constructor
  · intro hk; exact ⟨_, kid_logged d hk⟩
  · rintro ⟨o, ho⟩
    have h1 : (k, o) ∈ L.map (fun i => (i, h.offset i)) := (docOrder_mem d _).2 (mem_attached.2 ho)
    obtain ⟨i, hi, e⟩ := List.mem_map.1 h1
    cases e; exact hi

theorem below_up {s : Past} {par : Nat → Option Nat} (hp : ∀ k p, par k = some p ↔ ∃ o, (p, k, o) ∈ s.log) (x y : Nat) : Below s x y ↔ ∃ m, upBy par m y = some x := by
  constructor
  · intro h
    induction h with
    | self => exact ⟨0, rfl⟩
    | child _ ho ih =>
      obtain ⟨m, hm⟩ := ih
      refine ⟨m + 1, ?_⟩
      show (par _).bind _ = _
      rw [(hp _ _).2 ⟨_, ho⟩]
      exact hm
  · rintro ⟨m, h⟩
    induction m generalizing y with
    | zero => cases h; exact .self
    | succ m ih =>
      cases hq : par y with
      | none => simp [upBy, hq] at h
      | some q =>
        obtain ⟨o, ho⟩ := (hp _ _).1 hq
        refine .child (ih q ?_) ho
        simpa [upBy, hq] using h

/-- A top has tables. -/
theorem top_whole : ∀ (ops : List XmlOp) (s : Past), s.AllAllowed ops → ∀ x, s.tags.length ≤ x → (s.run ops).Top x → wholeAfter s.tags.length ops x = true := by
  intro ops
  induction ops with
  | nil => intro s _ x hx ht; have := ht.1; simp only [Past.run, List.foldl_nil] at this; omega
  | cons op ops ih =>
    intro s ha x hx ht
    have ht : ((s.step op).run ops).Top x := ht
    have ihs := ih (s.step op) ha.2 x
    cases op with
    | newTag tag =>
      simp only [wholeAfter]
      split
      · rfl
      · next hne =>
        have := ihs (by simp [Past.step]; omega) ht
        simpa [Past.step] using this
    | add parent tag offset =>
      simp only [wholeAfter]
      split
      · next e =>
        exfalso
        have mono : ∀ (ops : List XmlOp) (s : Past), ∀ e ∈ s.log, e ∈ (s.run ops).log := by
          intro ops
          induction ops with
          | nil => intro s e he; exact he
          | cons op ops ih =>
            intro s e he
            refine ih (s.step op) e ?_
            cases op <;> simp [Past.step, he]
        exact ht.2 _ (mono ops _ (parent, s.tags.length, offset) (by simp [Past.step])) e.symm
      · next hne =>
        have := ihs (by simp [Past.step]; omega) ht
        simpa [Past.step] using this
    | insert parent child offset =>
      simp only [wholeAfter]
      exact ihs hx ht

/-- **C165.**  After every history of making elements, adding children and inserting elements, giving up the trees of any distinct tops, in
any order, works: no element that was given up is touched again, exactly the elements of these trees are given up, each once, and so are the
tables of the tops, each once; the children of the elements that stay are what they were.  What is missing: the tables of the elements that
`NewXMLTreeTag` made and that were inserted into a tree (`C165_inserted_violated`). -/
theorem C165_destroy_partial (ops : List XmlOp) (ha : Past.start.AllAllowed ops) (xs : List Nat) (hxs : ∀ x ∈ xs, (Past.start.run ops).Top x) (hnd : xs.Nodup) :
    ∃ l F, xmlLife ops = .ok l ∧ ∀ f ≥ F, ∃ l', destroyAll f l xs = .ok l' ∧ l'.gone.Nodup ∧ (∀ y, y ∈ l'.gone ↔ ∃ x ∈ xs, Below (Past.start.run ops) x y) ∧
      l'.tables.Nodup ∧ (∀ x, x ∈ l'.tables ↔ x ∈ xs) ∧ ∀ p, p ∉ l'.gone → listChildren l'.heap p = listChildren l.heap p := by
  obtain ⟨h, e, f⟩ := forest_run ops _ _ forest_empty ha
  have hp := parent_logged f
  have hroot : ∀ x ∈ xs, Rooted h.child h.ordered h.parent h.size x := fun x hx =>
    { kids := fun p => by
        obtain ⟨L, S, k, d, _⟩ := f.kids p
        exact ⟨L, k.ord, k.nd, kid_parent f d⟩
      small := fun k p hk => by
        obtain ⟨o, ho⟩ := (hp k p).1 hk
        exact ⟨f.bound _ ho, f.par _ ho⟩
      top := (f.lone x (hxs x hx).2).1
      lt := by rw [f.size]; exact (hxs x hx).1 }
  obtain ⟨F, D⟩ := tops_destroyed ⟨h, wholeAfter 0 ops, [], []⟩ h.parent h.size (fun k p hk => ⟨p, hk⟩) xs
    (fun x hx => ⟨hroot x hx, (f.lone x (hxs x hx).2).2, fun _ => top_whole ops Past.start ha x (Nat.zero_le _) (hxs x hx)⟩) hnd rfl rfl
  refine ⟨_, F, by rw [xmlLife, e, Res.ok_bind], fun n hn => ?_⟩
  obtain ⟨l', d1, d2, d3, d4, d5, d6, d7⟩ := D n hn
  refine ⟨l', d1, d2, fun y => ?_, d4, fun x => ?_, fun p hpg => ?_⟩
  · rw [d3]; simp only [below_up hp]
  · rw [d5]
    exact ⟨And.left, fun hx => ⟨hx, (f.lone x (hxs x hx).2).1⟩⟩
  · obtain ⟨L, S, k, d, _⟩ := f.kids p
    rw [show listChildren (XmlLife.heap ⟨h, wholeAfter 0 ops, [], []⟩) p = .ok L from kids_list k]
    refine follow_spec _ _ _ _ ?_ (by rw [d7]; exact Nat.lt_succ_of_le k.len)
    rw [(d6 p hpg).1]
    refine Seg_congr (fun i hi => ?_) k.ord
    refine ((d6 i (fun hig => hpg ?_)).2).symm
    obtain ⟨x, hx, m, hm⟩ := (d3 i).1 hig
    have hpi := (kid_parent f d i).1 hi
    cases m with
    | zero =>
      cases hm
      rw [(f.lone i (hxs i hx).2).1] at hpi; cases hpi
    | succ m => exact (d3 p).2 ⟨x, hx, m, by simpa [upBy, hpi] using hm⟩

theorem made_whole : ∀ (ops1 : List XmlOp) (tag : List Byte) (ops2 : List XmlOp) (s : Past), wholeAfter s.tags.length (ops1 ++ .newTag tag :: ops2) (s.run ops1).tags.length = true := by
  have grows : ∀ (ops : List XmlOp) (s : Past), s.tags.length ≤ (s.run ops).tags.length := by
    intro ops
    induction ops with
    | nil => intro s; exact Nat.le_refl _
    | cons op ops ih =>
      intro s
      refine Nat.le_trans ?_ (ih (s.step op))
      cases op <;> simp [Past.step]
  intro ops1 tag ops2
  induction ops1 with
  | nil => intro s; simp [Past.run, wholeAfter]
  | cons op ops ih =>
    intro s
    have h := ih (s.step op)
    have hg := grows ops (s.step op)
    show wholeAfter _ (op :: (ops ++ _)) ((s.step op).run ops).tags.length = true
    cases op with
    | newTag t =>
      have e : (s.step (.newTag t)).tags.length = s.tags.length + 1 := by simp [Past.step]
      rw [e] at h hg
      simp only [wholeAfter]
      rw [if_neg (by omega)]
      exact h
    | add p t o =>
      have e : (s.step (.add p t o)).tags.length = s.tags.length + 1 := by simp [Past.step]
      rw [e] at h hg
      simp only [wholeAfter]
      rw [if_neg (by omega)]
      exact h
    | insert p c o => exact h

/-- **C165 is false** of the tables of elements that `NewXMLTreeTag` made and that were inserted into another tree: whatever else is done,
giving up the tree frees the element but not its tables, which nothing can reach any more. -/
theorem C165_inserted_violated (ops : List XmlOp) (ha : Past.start.AllAllowed ops) (xs : List Nat) (hxs : ∀ x ∈ xs, (Past.start.run ops).Top x) (hnd : xs.Nodup)
    (p c o r : Nat) (hm : Made ops c) (hc : (p, c, o) ∈ (Past.start.run ops).log) (hr : r ∈ xs) (hb : Below (Past.start.run ops) r c) :
    ∃ l F, xmlLife ops = .ok l ∧ l.whole c = true ∧ ∀ f ≥ F, ∃ l', destroyAll f l xs = .ok l' ∧ c ∈ l'.gone ∧ c ∉ l'.tables := by
  obtain ⟨l, F, h1, h2⟩ := C165_destroy_partial ops ha xs hxs hnd
  refine ⟨l, F, h1, ?_, fun f hf => ?_⟩
  · obtain ⟨ops1, tag, ops2, e, ec⟩ := hm
    have : l.whole = wholeAfter 0 ops := by
      obtain ⟨h, e, _⟩ := forest_run ops _ _ forest_empty ha
      rw [xmlLife, e, Res.ok_bind] at h1
      cases h1; rfl
    rw [this, e, ec]
    exact made_whole ops1 tag ops2 Past.start
  · obtain ⟨l', d1, _, d3, _, d5, _⟩ := h2 f hf
    refine ⟨l', d1, (d3 c).2 ⟨r, hr, hb⟩, fun h => ?_⟩
    exact (hxs c ((d5 c).1 h)).2 _ hc rfl

theorem whole_made : ∀ (ops : List XmlOp) (s : Past) (c : Nat), wholeAfter s.tags.length ops c = true → ∃ ops1 tag ops2, ops = ops1 ++ .newTag tag :: ops2 ∧ c = (s.run ops1).tags.length := by
  intro ops
  induction ops with
  | nil => intro s c h; cases h
  | cons op ops ih =>
    intro s c h
    have step : wholeAfter (s.step op).tags.length ops c = true → ∃ ops1 tag ops2, op :: ops = ops1 ++ .newTag tag :: ops2 ∧ c = (s.run ops1).tags.length := by
      intro h
      obtain ⟨ops1, tag, ops2, e, ec⟩ := ih _ _ h
      exact ⟨op :: ops1, tag, ops2, by rw [e]; rfl, ec⟩
    cases op with
    | newTag t =>
      simp only [wholeAfter] at h
      split at h
      · rename_i hc; exact ⟨[], t, ops, rfl, hc⟩
      · exact step (by rw [show (s.step (.newTag t)).tags.length = s.tags.length + 1 by simp [Past.step]]; exact h)
    | add p t o =>
      simp only [wholeAfter] at h
      split at h
      · cases h
      · exact step (by rw [show (s.step (.add p t o)).tags.length = s.tags.length + 1 by simp [Past.step]]; exact h)
    | insert p c o => exact step h

/-- **C165** (what leaks, exactly): of the elements that are given up, those keep their tables in memory that `NewXMLTreeTag` made and that are not among the tops that were named; elements that
`AddChildToXMLTree` made have no tables. -/
theorem C165_leak (ops : List XmlOp) (ha : Past.start.AllAllowed ops) (xs : List Nat) (hxs : ∀ x ∈ xs, (Past.start.run ops).Top x) (hnd : xs.Nodup) :
    ∃ l F, xmlLife ops = .ok l ∧ (∀ c, l.whole c = true ↔ Made ops c) ∧
      ∀ f ≥ F, ∃ l', destroyAll f l xs = .ok l' ∧ ∀ c ∈ l'.gone, (l.whole c = true ∧ c ∉ l'.tables) ↔ (Made ops c ∧ c ∉ xs) := by
  obtain ⟨l, F, h1, h2⟩ := C165_destroy_partial ops ha xs hxs hnd
  have hw : l.whole = wholeAfter 0 ops := by
    obtain ⟨h, e, _⟩ := forest_run ops _ _ forest_empty ha
    rw [xmlLife, e, Res.ok_bind] at h1
    cases h1; rfl
  have hmade : ∀ c, l.whole c = true ↔ Made ops c := by
    intro c
    rw [hw]
    refine ⟨fun h => whole_made ops Past.start c h, ?_⟩
    rintro ⟨ops1, tag, ops2, e, ec⟩
    rw [e, ec]
    exact made_whole ops1 tag ops2 Past.start
  refine ⟨l, F, h1, hmade, fun f hf => ?_⟩
  obtain ⟨l', d1, _, _, _, d5, _⟩ := h2 f hf
  exact ⟨l', d1, fun c _ => by rw [hmade, d5]⟩

/-- `PruneTagFromXMLTree` keeps the parent, and forgets the place in the list. -/
theorem prune_keeps {h h' : XmlHeap} {x : Nat} (e : pruneTag h x = .ok h') : h'.parent = h.parent ∧ h'.ordered x = none := by
  have hn : ∀ (h : XmlHeap) (n x : Nat) (h' : XmlHeap), pruneNext h n x = .ok h' → h'.parent = h.parent := by
    intro h n x h' e
    unfold pruneNext at e
    cases hb : beforeNext h.next x (h.size + 1) n with
    | ok m =>
      rw [hb, Res.ok_bind] at e
      split at e <;> cases e <;> rfl
    | ub => rw [hb] at e; cases e
    | fatal => rw [hb] at e; cases e
  have hs : ∀ (h : XmlHeap) (n x : Nat) (r : XmlHeap × Nat), pruneSibling h n x = .ok r → r.1.parent = h.parent := by
    intro h n x r e
    unfold pruneSibling at e
    split at e
    · cases hb : beforeTag h.sibling h.tag (h.tag x) (h.size + 1) n with
      | ok m =>
        rw [hb, Res.ok_bind] at e
        split at e
        · cases e
        · split at e <;> cases e <;> rfl
      | ub => rw [hb] at e; cases e
      | fatal => rw [hb] at e; cases e
    · cases e; rfl
  have hf : ∀ (h : XmlHeap) (p x : Nat) (h' : XmlHeap), pruneFrom h p x = .ok h' → h'.parent = h.parent := by
    intro h p x h' e
    unfold pruneFrom at e
    split at e
    · cases e
    · split at e
      · cases e; rfl
      · next first _ _ =>
        cases hb : beforeOrdered h x (h.size + 1) first with
        | ok m =>
          rw [hb, Res.ok_bind] at e
          simp only [] at e
          cases hb2 : pruneSibling { h with ordered := upd h.ordered m (h.ordered x) } first x with
          | ok r =>
            rw [hb2, Res.ok_bind] at e
            rw [hn _ _ _ _ e]
            have := hs _ _ _ _ hb2
            exact this
          | ub => rw [hb2] at e; cases e
          | fatal => rw [hb2] at e; cases e
        | ub => rw [hb] at e; cases e
        | fatal => rw [hb] at e; cases e
  unfold pruneTag at e
  cases hb : pruneParent { h with sibling := patchNext h.sibling (h.next x) (h.sibling x) } x with
  | ok h1 =>
    rw [hb, Res.ok_bind] at e
    cases e
    refine ⟨show h1.parent = h.parent from ?_, upd_same ..⟩
    unfold pruneParent at hb
    split at hb
    · have := hf _ _ _ _ hb
      exact this
    · cases hb; rfl
  | ub => rw [hb] at e; cases e
  | fatal => rw [hb] at e; cases e

/-- **C165** for elements that were pruned: after every history, pruning any child `x` of any element and then giving up any distinct ones of `x`
and the tops, in any order, works: exactly the elements that hang from these are given up, each once.  So a tree may be given up before or after
what was pruned from it.  The tables of `x` are never given up (what is missing is the same as in `C165_destroy_partial`). -/
theorem C165_pruned_partial (ops : List XmlOp) (ha : Past.start.AllAllowed ops) (p x o : Nat) (hx : (p, x, o) ∈ (Past.start.run ops).log)
    (xs : List Nat) (hxs : ∀ z ∈ xs, ((Past.start.run ops).without x).Top z) (hnd : xs.Nodup) :
    ∃ l h' F, xmlLife ops = .ok l ∧ pruneTag l.heap x = .ok h' ∧ ∀ f ≥ F, ∃ l', destroyAll f { l with heap := h' } xs = .ok l' ∧ l'.gone.Nodup ∧
      (∀ y, y ∈ l'.gone ↔ ∃ z ∈ xs, Below ((Past.start.run ops).without x) z y) ∧
      l'.tables.Nodup ∧ (∀ z, z ∈ l'.tables ↔ z ∈ xs ∧ z ≠ x) ∧ ∀ q, q ∉ l'.gone → listChildren l'.heap q = listChildren h' q := by
  obtain ⟨h, L1, L2, S, e, f, k, hpar, _, d⟩ := prune_state ops ha p x o hx
  obtain ⟨h', c1, c2, c3, c4, c5, c6, c7, c8⟩ := pruneTag_spec k hpar
  obtain ⟨k1, k2⟩ := prune_keeps c1
  have hp := parent_logged f
  have nd := k.nd
  have hxL : x ∉ L1 ++ L2 := by
    rw [List.nodup_append, List.nodup_cons] at nd
    rw [List.mem_append]
    rintro (m | m)
    · exact nd.2.2 x m x (List.mem_cons_self ..) rfl
    · exact nd.2.1.1 m
  have hpw : ∀ j q, upd h.parent x none j = some q ↔ ∃ o, (q, j, o) ∈ ((Past.start.run ops).without x).log := by
    intro j q
    by_cases hj : j = x
    · subst hj
      rw [upd_same]
      simp [Past.without]
    · rw [upd_ne _ _ hj, hp]
      simp [Past.without, hj]
  have hkids : ∀ q, ∃ L, Seg h'.ordered (h'.child q) L none ∧ L.Nodup ∧ L.length ≤ h'.size ∧ ∀ j, j ∈ L ↔ upd h.parent x none j = some q := by
    intro q
    by_cases hq : q = p
    · subst hq
      refine ⟨L1 ++ L2, c4, ?_, ?_, fun j => ?_⟩
      · exact nd.sublist (List.Sublist.append (List.Sublist.refl _) (List.sublist_cons_self ..))
      · have := k.len
        simp only [List.length_append, List.length_cons] at this
        rw [List.length_append, c2]; omega
      · by_cases hj : j = x
        · subst hj
          rw [upd_same]
          exact ⟨fun h => absurd h hxL, fun h => by cases h⟩
        · rw [upd_ne _ _ hj, ← kid_parent f d]
          simp [hj]
    · obtain ⟨L', S', k', d', _⟩ := f.kids q
      have hdis : ∀ i ∈ L', i ∉ L1 ++ x :: L2 := by
        intro i hi hm
        have a1 := kid_logged d' hi
        have a2 := kid_logged d hm
        have := nodup_map_inj f.once a1 a2 rfl
        exact hq (congrArg Prod.fst this)
      refine ⟨L', ?_, k'.nd, by rw [c2]; exact k'.len, fun j => ?_⟩
      · rw [c7 q hq]
        exact Seg_congr (fun i hi => (c8 i (hdis i hi)).1.symm) k'.ord
      · by_cases hj : j = x
        · subst hj
          rw [upd_same]
          exact ⟨fun h => absurd (by simp) (hdis _ h), fun h => by cases h⟩
        · rw [upd_ne _ _ hj, ← kid_parent f d']
  have htop : ∀ z ∈ xs, z = x ∨ (z ≠ x ∧ (Past.start.run ops).Top z) := by
    intro z hz
    by_cases hzx : z = x
    · exact .inl hzx
    · refine .inr ⟨hzx, (hxs z hz).1, fun e he hez => (hxs z hz).2 e ?_ hez⟩
      exact List.mem_filter.2 ⟨he, by simp [hez, hzx]⟩
  have hroot : ∀ z ∈ xs, Rooted h'.child h'.ordered (upd h.parent x none) h'.size z := fun z hz =>
    { kids := fun q => by
        obtain ⟨L, a, b, _, c⟩ := hkids q
        exact ⟨L, a, b, c⟩
      small := fun j q hj => by
        by_cases hjx : j = x
        · subst hjx; rw [upd_same] at hj; cases hj
        · rw [upd_ne _ _ hjx] at hj
          obtain ⟨o, ho⟩ := (hp j q).1 hj
          rw [c2]
          exact ⟨f.bound _ ho, f.par _ ho⟩
      top := by
        rcases htop z hz with rfl | ⟨hzx, ht⟩
        · exact upd_same ..
        · rw [upd_ne _ _ hzx]; exact (f.lone z ht.2).1
      lt := by rw [c2, f.size]; exact (hxs z hz).1 }
  obtain ⟨F, D⟩ := tops_destroyed ⟨h', wholeAfter 0 ops, [], []⟩ (upd h.parent x none) h'.size (fun j q hj => by
      by_cases hjx : j = x
      · subst hjx; rw [upd_same] at hj; cases hj
      · rw [upd_ne _ _ hjx] at hj
        exact ⟨q, by rw [← hj]; exact congrFun k1 j⟩) xs
    (fun z hz => ⟨hroot z hz, by
      rcases htop z hz with rfl | ⟨hzx, ht⟩
      · exact k2
      · show h'.ordered z = none
        rw [(c8 z (fun hm => ht.2 _ (kid_logged d hm) rfl)).1]
        exact (f.lone z ht.2).2, fun hn => by
      rcases htop z hz with rfl | ⟨hzx, ht⟩
      · have hn : h'.parent z = none := hn
        rw [k1, hpar] at hn; cases hn
      · exact top_whole ops Past.start ha z (Nat.zero_le _) ht⟩) hnd rfl rfl
  refine ⟨_, h', F, by rw [xmlLife, e, Res.ok_bind], c1, fun n hn => ?_⟩
  obtain ⟨l', d1, d2, d3, d4, d5, d6, d7⟩ := D n hn
  refine ⟨l', d1, d2, fun y => ?_, d4, fun z => ?_, fun q hqg => ?_⟩
  · rw [d3]; simp only [below_up hpw]
  · rw [d5]
    refine and_congr_right (fun hz => ?_)
    show h'.parent z = none ↔ _
    rw [k1]
    rcases htop z hz with rfl | ⟨hzx, ht⟩
    · simp [hpar]
    · simp [(f.lone z ht.2).1, hzx]
  · obtain ⟨L, a, b, c, m⟩ := hkids q
    rw [show listChildren h' q = .ok L from follow_spec _ _ _ _ a (Nat.lt_succ_of_le c)]
    refine follow_spec _ _ _ _ ?_ (by rw [d7]; exact Nat.lt_succ_of_le c)
    rw [(d6 q hqg).1]
    refine Seg_congr (fun i hi => ?_) a
    refine ((d6 i (fun hig => hqg ?_)).2).symm
    obtain ⟨z, hz, n, hn⟩ := (d3 i).1 hig
    have hqi := (m i).1 hi
    cases n with
    | zero =>
      cases hn
      rw [(hroot i hz).top] at hqi; cases hqi
    | succ n => exact (d3 q).2 ⟨z, hz, n, by simpa [upBy, hqi] using hn⟩

-- the root "r" with a child "a" at 5 and the element "c" with a child "d", inserted at 2: everything is given up, the tables of "c" are not
def insertedOps : List XmlOp := [.newTag [114], .add 0 [97] 5, .newTag [99], .add 2 [100] 0, .insert 0 2 2]

example : (xmlLife insertedOps).bind (fun l => (destroyAll 20 l [0]).bind (fun l => .ok (l.gone, l.tables))) = .ok ([0, 3, 2, 1], [0]) := by
  simp [insertedOps, xmlLife, xmlRun, xmlStep, newNode, addChild, insertTag, insertOrdered, insertSame, findTag, insertFirst, lastLE, dropFirst, siblingSpot, upd, XmlHeap.empty, Res.ok_bind, Res.bind,
    destroyAll, destroyTree, destroyChild, destroyOrdered, destroyRoot, wholeAfter]

example : Past.start.AllAllowed insertedOps := by
  simp [insertedOps, Past.AllAllowed, Past.Allowed, Past.start, Past.step]

example : (Past.start.run insertedOps).Top 0 ∧ Made insertedOps 2 ∧ (0, 2, 2) ∈ (Past.start.run insertedOps).log ∧ Below (Past.start.run insertedOps) 0 3 := by
  refine ⟨?_, ⟨[.newTag [114], .add 0 [97] 5], [99], [.add 2 [100] 0, .insert 0 2 2], rfl, rfl⟩, ?_, .child (.child .self (o := 2) ?_) (p := 2) (o := 0) ?_⟩ <;>
  simp [insertedOps, Past.Top, Past.run, Past.step, Past.start]

-- the element "c" pruned again: it and the root are given up in either order, its tables are not
example : ∀ z ∈ [2, 0], ((Past.start.run insertedOps).without 2).Top z := by
  simp [insertedOps, Past.Top, Past.without, Past.run, Past.step, Past.start]

example : (xmlLife insertedOps).bind (fun l => (pruneTag l.heap 2).bind (fun h => (destroyAll 20 { l with heap := h } [2, 0]).bind (fun l => .ok (l.gone, l.tables)))) =
    .ok ([0, 1, 2, 3], [0]) := by
  simp [insertedOps, xmlLife, xmlRun, xmlStep, newNode, addChild, insertTag, insertOrdered, insertSame, findTag, insertFirst, dropFirst, siblingSpot, upd, XmlHeap.empty, Res.ok_bind, Res.bind,
    destroyAll, destroyTree, destroyChild, destroyOrdered, destroyRoot, wholeAfter, pruneTag, pruneParent, pruneFrom, patchNext, pruneSibling, pruneNext]

end Wizard.Props

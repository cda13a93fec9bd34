import Verif.Model.LinkedList
import Verif.Lemmas.Res
/-! Representation predicate of linked lists on the heap and one lemma per primitive. -/
namespace Wizard

/-- `ns` (pairs of address and value) is the chain in `h` from `a` to `b`. -/
def Seg (h : LHeap) : Nat → List (Nat × Nat) → Nat → Prop
  | a, [], b => a = b
  | a, x :: xs, b => a = x.1 ∧ a ≠ 0 ∧ ∃ n, h a = some (x.2, n) ∧ Seg h n xs b

/-- Address of the node at position `i`, NULL beyond the end. -/
def addrAt (ns : List (Nat × Nat)) (i : Nat) : Nat := (ns[i]?.map Prod.fst).getD 0

abbrev addrs (ns : List (Nat × Nat)) : List Nat := ns.map Prod.fst

theorem seg_append {h : LHeap} : ∀ {xs ys : List (Nat × Nat)} {a c : Nat},
    Seg h a (xs ++ ys) c ↔ ∃ b, Seg h a xs b ∧ Seg h b ys c := by
  intro xs
  induction xs with
  | nil => intro ys a c; simp [Seg]
  | cons x xs ih =>
    intro ys a c
    simp only [List.cons_append, Seg]
    constructor
    · rintro ⟨h1, h2, n, h3, h4⟩
      obtain ⟨b, h5, h6⟩ := ih.mp h4
      exact ⟨b, ⟨h1, h2, n, h3, h5⟩, h6⟩
    · rintro ⟨b, ⟨h1, h2, n, h3, h4⟩, h5⟩
      exact ⟨h1, h2, n, h3, ih.mpr ⟨b, h4, h5⟩⟩

theorem seg_congr {h h' : LHeap} : ∀ {xs : List (Nat × Nat)} {a b : Nat},
    (∀ x ∈ addrs xs, h' x = h x) → Seg h a xs b → Seg h' a xs b := by
  intro xs
  induction xs with
  | nil => intro a b _ h; exact h
  | cons x xs ih =>
    rintro a b hc ⟨h1, h2, n, h3, h4⟩
    refine ⟨h1, h2, n, ?_, ih (fun y hy => hc y (by simp at hy ⊢; exact .inr hy)) h4⟩
    rw [hc a (by simp [h1]), h3]

theorem seg_ne_zero {h : LHeap} : ∀ {xs : List (Nat × Nat)} {a b : Nat},
    Seg h a xs b → (0 : Nat) ∉ addrs xs := by
  intro xs
  induction xs with
  | nil => intro a b _; simp
  | cons x xs ih =>
    rintro a b ⟨h1, h2, n, h3, h4⟩
    simp only [List.map_cons, List.mem_cons, not_or]
    exact ⟨by omega, ih h4⟩

theorem seg_start {h : LHeap} {xs : List (Nat × Nat)} {a : Nat} (hs : Seg h a xs 0) :
    a = addrAt xs 0 := by
  cases xs with
  | nil => exact hs
  | cons x xs => exact hs.1

theorem seg_live {h : LHeap} {xs ys : List (Nat × Nat)} {x : Nat × Nat} {a : Nat}
    (hs : Seg h a (xs ++ x :: ys) 0) : h x.1 = some (x.2, addrAt ys 0) := by
  obtain ⟨b, _, h1, _, n, h2, h3⟩ := seg_append.mp hs
  subst h1
  rw [h2, seg_start h3]

theorem walk_seg {h : LHeap} {ys : List (Nat × Nat)} {x : Nat × Nat} :
    ∀ {xs : List (Nat × Nat)} {a : Nat}, Seg h a (xs ++ x :: ys) 0 →
      walkE h a xs.length = .ok x.1 := by
  intro xs
  induction xs with
  | nil => rintro a ⟨h1, _⟩; simp [walkE, h1]
  | cons y xs ih =>
    rintro a ⟨_, _, n, h3, h4⟩
    simp only [List.length_cons, walkE, ldE, h3, Res.ok_bind]
    exact ih h4

/-- Conditional postcondition. -/
def IfPost {α : Type} (c : Prop) [Decidable c] (P Q : α → Prop) (o : α) : Prop :=
  if c then P o else Q o

theorem IfPost.pos {α : Type} {c : Prop} [Decidable c] {P Q : α → Prop} {o : α} (h : c) (hp : P o) :
    IfPost c P Q o := by unfold IfPost; rw [if_pos h]; exact hp

theorem IfPost.neg {α : Type} {c : Prop} [Decidable c] {P Q : α → Prop} {o : α} (h : ¬ c)
    (hp : Q o) : IfPost c P Q o := by unfold IfPost; rw [if_neg h]; exact hp

/-! ### Positions and addresses -/

theorem addrAt_mid (xs ys : List (Nat × Nat)) (e : Nat × Nat) :
    addrAt (xs ++ e :: ys) xs.length = e.1 := by simp [addrAt]

theorem addrAt_len (xs : List (Nat × Nat)) : addrAt xs xs.length = 0 := by simp [addrAt]

theorem addrAt_mem {ns : List (Nat × Nat)} {i : Nat} (h : i < ns.length) :
    addrAt ns i ∈ addrs ns := by
  simp only [addrAt, List.getElem?_eq_getElem h, Option.map_some, Option.getD_some]
  exact List.mem_map.mpr ⟨_, List.getElem_mem h, rfl⟩

theorem addrAt_inj {ns : List (Nat × Nat)} (hn : (addrs ns).Nodup) (h0 : (0 : Nat) ∉ addrs ns)
    {i j : Nat} (hi : i ≤ ns.length) (hj : j ≤ ns.length) : addrAt ns i = addrAt ns j ↔ i = j := by
  constructor
  · intro h
    rcases Nat.lt_or_ge i ns.length with hi' | hi' <;> rcases Nat.lt_or_ge j ns.length with hj' | hj'
    · simp only [addrAt, List.getElem?_eq_getElem hi', List.getElem?_eq_getElem hj',
        Option.map_some, Option.getD_some] at h
      have := (List.getElem_inj (xs := addrs ns) (i := i) (j := j) (h₀ := by simpa) (h₁ := by simpa)
        hn).mp (by simpa using h)
      exact this
    · have : j = ns.length := by omega
      subst this
      rw [addrAt_len] at h
      exact absurd (h ▸ addrAt_mem hi') h0
    · have : i = ns.length := by omega
      subst this
      rw [addrAt_len] at h
      exact absurd (h ▸ addrAt_mem hj') h0
    · omega
  · rintro rfl; rfl

theorem addrAt_eq_zero {ns : List (Nat × Nat)} (h0 : (0 : Nat) ∉ addrs ns)
    {i : Nat} (hi : i ≤ ns.length) : addrAt ns i = 0 ↔ i = ns.length := by
  constructor
  · intro h
    rcases Nat.lt_or_ge i ns.length with hi' | hi'
    · exact absurd (h ▸ addrAt_mem hi') h0
    · omega
  · rintro rfl; exact addrAt_len _

theorem addrAt_erase_lt {xs ys : List (Nat × Nat)} {e : Nat × Nat} {i : Nat} (h : i < xs.length) :
    addrAt (xs ++ e :: ys) i = addrAt (xs ++ ys) i := by
  simp [addrAt, List.getElem?_append_left h]

theorem addrAt_erase_gt {xs ys : List (Nat × Nat)} {e : Nat × Nat} {i : Nat} (h : xs.length < i) :
    addrAt (xs ++ e :: ys) i = addrAt (xs ++ ys) (i - 1) := by
  simp only [addrAt]
  rw [List.getElem?_append_right (by omega), List.getElem?_append_right (by omega)]
  have : i - xs.length = (i - 1 - xs.length) + 1 := by omega
  rw [this, List.getElem?_cons_succ]

theorem addrAt_tail0 {xs ys : List (Nat × Nat)} : addrAt (xs ++ ys) xs.length = addrAt ys 0 := by
  simp only [addrAt]
  rw [List.getElem?_append_right (Nat.le_refl _), Nat.sub_self]

/-! ### The representation predicate -/

/-- The list object `s` holds the nodes `ns`, its iterator stands before position `pos`. `tl` says
whether the tail pointer is meaningful (after a hash-map rehash it is not). -/
structure Repr (s : LList) (tl : Bool) (ns : List (Nat × Nat)) (pos : Nat) : Prop where
  seg : Seg s.heap s.head ns 0
  nodup : (addrs ns).Nodup
  /-- no element is leaked -/
  dom : ∀ a, s.heap a ≠ none → a ∈ addrs ns
  cnt : s.elements = ns.length
  cap : s.elements ≤ s.capacity
  tail : tl = true → ns ≠ [] → s.tail = addrAt ns (ns.length - 1)
  next : s.next = addrAt ns pos
  pos_le : pos ≤ ns.length

variable {s : LList} {tl : Bool} {ns : List (Nat × Nat)} {pos : Nat}

theorem Repr.nz (h : Repr s tl ns pos) : (0 : Nat) ∉ addrs ns := seg_ne_zero h.seg

theorem Repr.head_eq (h : Repr s tl ns pos) : s.head = addrAt ns 0 := seg_start h.seg

theorem Repr.fresh (h : Repr s tl ns pos) {a : Nat} (hf : s.heap a = none) : a ∉ addrs ns := by
  intro hm
  obtain ⟨x, hx, rfl⟩ := List.mem_map.mp hm
  obtain ⟨xs, ys, rfl⟩ := List.append_of_mem hx
  rw [seg_live h.seg] at hf
  cases hf

/-- The position of the iterator after removing position `i`. -/
def posErase (pos i : Nat) : Nat := if i < pos then pos - 1 else pos

theorem addrAt_posErase {xs ys : List (Nat × Nat)} {e : Nat × Nat} :
    addrAt (xs ++ ys) (posErase pos xs.length) =
      if pos = xs.length then addrAt ys 0 else addrAt (xs ++ e :: ys) pos := by
  unfold posErase
  split
  · rw [if_neg (by omega), addrAt_erase_gt (by omega)]
  · split
    · rename_i h; subst h; exact addrAt_tail0
    · rw [addrAt_erase_lt (by omega)]

/-- Heap with one element freed. -/
def delE (h : LHeap) (a : Nat) : LHeap := fun b => if b = a then none else h b

theorem unlinkAfter_repr {xs ys : List (Nat × Nat)} {p e : Nat × Nat}
    (h : Repr s tl (xs ++ p :: e :: ys) pos) :
    (unlinkAfter s p.1).Ok fun o => o.1 = e.2 ∧
      Repr o.2 tl (xs ++ p :: ys) (posErase pos (xs.length + 1)) ∧ o.2.capacity = s.capacity := by
  have hp : s.heap p.1 = some (p.2, e.1) := by have := seg_live h.seg; simpa [addrAt] using this
  have hseg' : Seg s.heap s.head ((xs ++ [p]) ++ e :: ys) 0 := by simpa using h.seg
  have he : s.heap e.1 = some (e.2, addrAt ys 0) := seg_live hseg'
  have hnd := h.nodup
  have hpe : e.1 ≠ p.1 := by
    intro hh
    simp [List.nodup_append, hh] at hnd
  have hx : ∀ x ∈ addrs xs, x ≠ p.1 ∧ x ≠ e.1 := by
    intro x hx
    simp only [addrs, List.map_append, List.map_cons, List.nodup_append, List.mem_cons] at hnd
    exact ⟨hnd.2.2 x hx _ (.inl rfl), hnd.2.2 x hx _ (.inr (.inl rfl))⟩
  have hy : ∀ x ∈ addrs ys, x ≠ p.1 ∧ x ≠ e.1 := by
    intro x hx
    simp only [addrs, List.map_append, List.map_cons, List.nodup_append, List.nodup_cons,
      List.mem_cons, not_or] at hnd
    constructor
    · rintro rfl; exact hnd.2.1.1.2 hx
    · rintro rfl; exact hnd.2.1.2.1 hx
  unfold unlinkAfter
  simp only [ldE, hp, Res.ok_bind, he, stNext, setE, if_neg hpe, freeE]
  refine ⟨_, rfl, rfl, ⟨?_, ?_, ?_, ?_, ?_, ?_, ?_, ?_⟩, rfl⟩
  · obtain ⟨b, h1, h2, h3, n, h4, h5⟩ := seg_append.mp h.seg
    refine seg_append.mpr ⟨b, seg_congr (fun x hxx => ?_) h1, h2, h3, addrAt ys 0, ?_, ?_⟩
    · simp [hx x hxx]
    · subst h2; simp [Ne.symm hpe]
    · obtain ⟨h6, h7, m, h8, h9⟩ := h5
      have := seg_start h9
      subst this
      exact seg_congr (fun x hxx => by simp [hy x hxx]) h9
  · have : List.Sublist (addrs (xs ++ p :: ys)) (addrs (xs ++ p :: e :: ys)) := by
      simp [addrs]
    exact this.nodup hnd
  · intro a ha
    by_cases hae : a = e.1
    · simp [hae] at ha
    · by_cases hap : a = p.1
      · simp [hap]
      · simp only [hae, hap, if_false] at ha
        have := h.dom a (by simpa using ha)
        simp at this ⊢
        grind
  · have := h.cnt; simp at this ⊢; omega
  · have := h.cap; simp; omega
  · intro ht _
    have := h.tail ht (by simp)
    simp only
    have hlast : addrAt (xs ++ p :: e :: ys) ((xs ++ p :: e :: ys).length - 1) = e.1 ↔ ys = [] := by
      have e1 : xs ++ p :: e :: ys = (xs ++ [p]) ++ e :: ys := by simp
      constructor
      · intro hh
        rw [← addrAt_mid (xs ++ [p]) ys e, e1] at hh
        have := (addrAt_inj (by rw [← e1]; exact hnd) (by rw [← e1]; exact h.nz)
          (by simp) (by simp)).mp hh
        simp at this
        cases ys with
        | nil => rfl
        | cons y ys => simp at this
      · rintro rfl
        rw [e1, ← addrAt_mid (xs ++ [p]) [] e]
        simp
    rw [this]
    split
    · rename_i hh
      have := hlast.mp hh.symm
      subst this
      rw [← addrAt_mid xs [] p]; simp
    · rename_i hh
      have hne : ys ≠ [] := fun hy => hh (hlast.mpr hy).symm
      have e1 : xs ++ p :: e :: ys = (xs ++ [p]) ++ e :: ys := by simp
      have e2 : xs ++ p :: ys = (xs ++ [p]) ++ ys := by simp
      have hl : 0 < ys.length := List.length_pos_iff.mpr hne
      rw [e1, e2, addrAt_erase_gt (by simp; omega)]
      congr 1
      simp
  · have e1 : xs ++ p :: e :: ys = (xs ++ [p]) ++ e :: ys := by simp
    have e2 : xs ++ p :: ys = (xs ++ [p]) ++ ys := by simp
    have hl : xs.length + 1 = (xs ++ [p]).length := by simp
    simp only
    rw [e2, hl, addrAt_posErase (e := e), h.next, ← e1]
    have hiff : addrAt (xs ++ p :: e :: ys) pos = e.1 ↔ pos = (xs ++ [p]).length := by
      rw [← addrAt_mid (xs ++ [p]) ys e, ← e1]
      exact addrAt_inj hnd h.nz h.pos_le (by simp)
    simp only [hiff]
  · have := h.pos_le
    unfold posErase
    simp at this ⊢
    split <;> omega

theorem unlinkHead_repr {ys : List (Nat × Nat)} {e : Nat × Nat} (h : Repr s tl (e :: ys) pos) :
    (unlinkHead s).Ok fun o => o.1 = e.2 ∧ Repr o.2 tl ys (posErase pos 0) ∧
      o.2.capacity = s.capacity := by
  have hh : s.head = e.1 := h.head_eq
  have he : s.heap e.1 = some (e.2, addrAt ys 0) := seg_live (xs := []) h.seg
  have hnd := h.nodup
  simp only [List.map_cons, List.nodup_cons] at hnd
  unfold unlinkHead
  simp only [ldE, hh, he, Res.ok_bind, freeE]
  refine ⟨_, rfl, rfl, ⟨?_, hnd.2, ?_, ?_, ?_, ?_, ?_, ?_⟩, rfl⟩
  · obtain ⟨_, _, n, h3, h4⟩ := h.seg
    have := seg_start h4
    subst this
    refine seg_congr (fun x hx => ?_) h4
    simp only
    rw [if_neg]; rintro rfl; exact hnd.1 hx
  · intro a ha
    by_cases hae : a = e.1
    · simp [hae] at ha
    · simp only [hae, if_false] at ha
      have := h.dom a ha
      simpa [hae] using this
  · have := h.cnt; simp at this ⊢; omega
  · have := h.cap; simp; omega
  · intro ht hne
    have hl : 0 < ys.length := List.length_pos_iff.mpr hne
    have := h.tail ht (by simp)
    simp only
    rw [this]
    have e1 : e :: ys = [] ++ e :: ys := rfl
    rw [e1, addrAt_erase_gt (by simp; omega)]
    simp
  · simp only
    have := addrAt_posErase (pos := pos) (xs := []) (ys := ys) (e := e)
    simp only [List.nil_append, List.length_nil] at this
    rw [this, h.next]
    have hiff : addrAt (e :: ys) pos = e.1 ↔ pos = 0 := by
      rw [← addrAt_mid [] ys e]
      exact addrAt_inj h.nodup h.nz h.pos_le (by simp)
    simp only [hiff]
  · have := h.pos_le
    unfold posErase
    simp at this ⊢
    split <;> omega

/-- The same, for an index that may be out of range. -/
def posRemove (n pos i : Nat) : Nat := if i < n then posErase pos i else pos

theorem removeElement_repr (h : Repr s tl ns pos) (i : Nat) :
    (removeElement s i).Ok fun o => o.1 = ((ns.map Prod.snd)[i]?).getD 0 ∧
      (∃ ns', ns'.map Prod.snd = (ns.map Prod.snd).eraseIdx i ∧
        Repr o.2 tl ns' (posRemove ns.length pos i)) ∧
      o.2.capacity = s.capacity := by
  unfold removeElement
  rw [h.cnt]
  split
  · rename_i hi
    refine ⟨_, rfl, ?_, ⟨ns, ?_, by unfold posRemove; rw [if_neg (by omega)]; exact h⟩, rfl⟩
    · simp [hi]
    · rw [List.eraseIdx_of_length_le (by simpa using hi)]
  · rename_i hi
    rw [show posRemove ns.length pos i = posErase pos i from if_pos (by omega)]
    split
    · rename_i h0
      subst h0
      cases ns with
      | nil => simp at hi
      | cons e ys =>
        exact (unlinkHead_repr h).mono fun o ho => ⟨by simp [ho.1], ⟨ys, by simp, ho.2.1⟩, ho.2.2⟩
    · rename_i h0
      have hsplit : ∃ xs p e ys, ns = xs ++ p :: e :: ys ∧ xs.length + 1 = i := by
        have hi1 : i - 1 < ns.length := by omega
        have hi2 : i < ns.length := by omega
        refine ⟨ns.take (i - 1), ns[i-1], ns[i], ns.drop (i + 1), ?_, by simp; omega⟩
        rw [← List.drop_eq_getElem_cons hi2]
        have : ns.drop i = ns.drop (i - 1 + 1) := by congr 1; omega
        rw [this, ← List.drop_eq_getElem_cons hi1, List.take_append_drop]
      obtain ⟨xs, p, e, ys, rfl, rfl⟩ := hsplit
      rw [Nat.add_sub_cancel, walk_seg h.seg]
      simp only [Res.ok_bind]
      refine (unlinkAfter_repr h).mono fun o ho => ⟨?_, ⟨xs ++ p :: ys, ?_, ho.2.1⟩, ho.2.2⟩
      · have e1 : xs ++ p :: e :: ys = (xs ++ [p]) ++ e :: ys := by simp
        rw [ho.1, e1]; simp
      · have e1 : xs ++ p :: e :: ys = (xs ++ [p]) ++ e :: ys := by simp
        have hl : xs.length + 1 = ((xs ++ [p]).map Prod.snd).length := by simp
        rw [e1, List.map_append (l₁ := xs ++ [p]), hl,
          List.eraseIdx_append_of_length_le (Nat.le_refl _)]
        simp

/-! ### Reading -/

theorem getNextValue_repr (h : Repr s tl ns pos) :
    (getNextValue s).Ok fun o => o.1 = ((ns.map Prod.snd)[pos]?).getD 0 ∧
      Repr o.2 tl ns (min (pos + 1) ns.length) ∧ o.2.capacity = s.capacity := by
  unfold getNextValue
  rw [h.next]
  have hp := h.pos_le
  split
  · rename_i h0
    have := (addrAt_eq_zero h.nz h.pos_le).mp h0
    refine ⟨_, rfl, by simp [this], ?_, rfl⟩
    rw [show min (pos + 1) ns.length = pos by omega]; exact h
  · rename_i h0
    have hlt : pos < ns.length := by
      rcases Nat.lt_or_ge pos ns.length with h' | h'
      · exact h'
      · exact absurd ((addrAt_eq_zero h.nz h.pos_le).mpr (by omega)) h0
    have hsplit : ns = ns.take pos ++ ns[pos] :: ns.drop (pos + 1) := by
      rw [← List.drop_eq_getElem_cons hlt, List.take_append_drop]
    have hlive : s.heap ns[pos].1 = some (ns[pos].2, addrAt (ns.drop (pos + 1)) 0) := by
      have := h.seg; rw [hsplit] at this; exact seg_live this
    have haddr : addrAt ns pos = ns[pos].1 := by simp [addrAt, hlt]
    rw [haddr]
    simp only [ldE, hlive, Res.ok_bind]
    refine ⟨_, rfl, by simp [hlt], ?_, rfl⟩
    rw [show min (pos + 1) ns.length = pos + 1 by omega]
    refine ⟨h.seg, h.nodup, h.dom, h.cnt, h.cap, h.tail, ?_, by omega⟩
    simp [addrAt]

theorem reset_repr (h : Repr s tl ns pos) : Repr (resetIterator s) tl ns 0 :=
  ⟨h.seg, h.nodup, h.dom, h.cnt, h.cap, h.tail, h.head_eq, Nat.zero_le _⟩

theorem tail_live (h : Repr s true ns pos) (hne : ns ≠ []) :
    ∃ xs e, ns = xs ++ [e] ∧ s.tail = e.1 ∧ s.heap e.1 = some (e.2, 0) := by
  refine ⟨ns.dropLast, ns.getLast hne, (List.dropLast_concat_getLast hne).symm, ?_, ?_⟩
  · rw [h.tail rfl hne]
    simp only [addrAt, List.getLast_eq_getElem]
    have : ns.length - 1 < ns.length := by have := List.length_pos_iff.mpr hne; omega
    simp [this]
  · have := h.seg
    rw [← List.dropLast_concat_getLast hne] at this
    simpa [addrAt] using seg_live this

theorem getLastValue_repr (h : Repr s true ns pos) :
    getLastValue s = .ok ((ns.map Prod.snd).getLast?.getD 0) := by
  unfold getLastValue
  rw [h.cnt]
  split
  · rename_i h0
    have : ns = [] := List.length_eq_zero_iff.mp h0
    subst this; rfl
  · rename_i h0
    have hne : ns ≠ [] := by rintro rfl; exact h0 rfl
    obtain ⟨xs, e, rfl, h1, h2⟩ := tail_live h hne
    simp [ldE, h1, h2]

theorem getValue_repr (h : Repr s true ns pos) (i : Nat) :
    getValue s i = .ok (((ns.map Prod.snd)[i]?).getD 0) := by
  unfold getValue
  rw [h.cnt]
  split
  · rename_i hi; simp [hi]
  · rename_i hi
    have hlt : i < ns.length := by omega
    have hsplit : ns = ns.take i ++ ns[i] :: ns.drop (i + 1) := by
      rw [← List.drop_eq_getElem_cons hlt, List.take_append_drop]
    have hseg := h.seg
    rw [hsplit] at hseg
    have hlive := seg_live hseg
    split
    · rename_i h0
      subst h0
      have : s.head = ns[0].1 := by rw [h.head_eq]; simp [addrAt, hlt]
      simp [this, ldE, hlive, hlt]
    · split
      · rename_i hl
        have hne : ns ≠ [] := by rintro rfl; simp at hlt
        have : s.tail = ns[i].1 := by rw [h.tail rfl hne, ← hl]; simp [addrAt, hlt]
        simp [this, ldE, hlive, hlt]
      · have := walk_seg hseg
        rw [List.length_take, Nat.min_eq_left (by omega)] at this
        simp [this, ldE, hlive, hlt]

theorem toArray_seg {h : LHeap} : ∀ {ns : List (Nat × Nat)} {a f : Nat}, ns.length < f →
    Seg h a ns 0 → toArrayLoop h f a = .ok (ns.map Prod.snd) := by
  intro ns
  induction ns with
  | nil => rintro a f _ rfl; cases f <;> rfl
  | cons x ns ih =>
    rintro a f hf ⟨h1, h2, n, h3, h4⟩
    cases f with
    | zero => omega
    | succ f =>
      cases a with
      | zero => exact absurd rfl h2
      | succ a =>
        simp only [toArrayLoop, ldE, h3, Res.ok_bind]
        rw [ih (by simp at hf; omega) h4]
        rfl

theorem toArray_repr (h : Repr s tl ns pos) : linkedListToArray s = .ok (ns.map Prod.snd) := by
  unfold linkedListToArray
  exact toArray_seg (by rw [h.cnt]; omega) h.seg

/-! ### Adding -/

theorem addrAt_append_left {xs ys : List (Nat × Nat)} {i : Nat} (h : i < xs.length) :
    addrAt (xs ++ ys) i = addrAt xs i := by
  simp [addrAt, List.getElem?_append_left h]

theorem dom_insert {h : LHeap} {ns : List (Nat × Nat)} {a : Nat} {c : Nat × Nat}
    (hd : ∀ b, h b ≠ none → b ∈ addrs ns) {ns' : List (Nat × Nat)} (ha : a ∈ addrs ns')
    (hs : ∀ b ∈ addrs ns, b ∈ addrs ns') : ∀ b, setE h a c b ≠ none → b ∈ addrs ns' := by
  intro b hb
  unfold setE at hb
  split at hb
  · rename_i h; rw [h]; exact ha
  · exact hs b (hd b hb)

/-- The common part of appending and inserting at the end. -/
theorem addLast_repr {a v : Nat} (h : Repr s true ns pos) (hfull : s.elements ≠ s.capacity)
    (ha : a ≠ 0) (hf : s.heap a = none) (hne : ns ≠ []) :
    ∃ hp, stNext (setE s.heap a (v, 0)) s.tail a = .ok hp ∧
      Repr { s with heap := hp, next := if s.next = 0 then a else s.next, tail := a,
                    elements := s.elements + 1 } true (ns ++ [(a, v)]) pos := by
  obtain ⟨xs, e, rfl, h1, h2⟩ := tail_live h hne
  have hfr := h.fresh hf
  have hea : e.1 ≠ a := by rintro rfl; rw [hf] at h2; cases h2
  have hnd := h.nodup
  have hxe : ∀ x ∈ addrs xs, x ≠ e.1 := by
    intro x hx
    simp only [addrs, List.map_append, List.map_cons, List.map_nil, List.nodup_append] at hnd
    exact hnd.2.2 x hx _ (by simp)
  refine ⟨setE (setE s.heap a (v, 0)) e.1 (e.2, a), ?_, ?_, ?_, ?_, ?_, ?_, ?_, ?_, ?_⟩
  · simp [stNext, setE, h1, hea, h2]
  · rw [List.append_assoc]
    obtain ⟨b, s1, s2, s3, n, s4, s5⟩ := seg_append.mp h.seg
    refine seg_append.mpr ⟨b, seg_congr (fun x hx => ?_) s1, s2, s3, a, ?_, rfl, ha, 0, ?_, rfl⟩
    · have : x ≠ a := by rintro rfl; exact hfr (by simp at hx ⊢; exact .inl hx)
      simp [setE, hxe x hx, this]
    · subst s2; simp [setE]
    · simp [setE, Ne.symm hea]
  · simp only [addrs, List.map_append] at hnd hfr ⊢
    rw [List.nodup_append]
    refine ⟨hnd, by simp, ?_⟩
    intro x hx y hy
    simp at hy
    subst hy
    rintro rfl
    exact hfr hx
  · refine dom_insert (ns := (xs ++ [e]) ++ [(a, v)]) (dom_insert h.dom (by simp) ?_) (by simp) ?_
    · intro b hb; simp at hb ⊢; grind
    · intro b hb; exact hb
  · have := h.cnt; simp at this ⊢; omega
  · have := h.cap; simp; omega
  · intro _ _
    simp only
    have := addrAt_mid (xs ++ [e]) [] (a, v)
    simp at this ⊢
    rw [this]
  · simp only [h.next]
    by_cases hpos : pos = (xs ++ [e]).length
    · subst hpos
      rw [addrAt_len, if_pos rfl]
      exact (addrAt_mid (xs ++ [e]) [] (a, v)).symm
    · rw [if_neg (fun hh => hpos ((addrAt_eq_zero h.nz h.pos_le).mp hh)),
        addrAt_append_left (xs := xs ++ [e]) (by have := h.pos_le; omega)]
  · have := h.pos_le; simp at this ⊢; omega

/-- The first element of an empty list. -/
theorem addOnly_repr {a v : Nat} (h : Repr s tl [] pos) (hfull : s.elements ≠ s.capacity)
    (ha : a ≠ 0) :
    Repr { s with heap := setE s.heap a (v, 0), next := if s.next = 0 then a else s.next, head := a,
                  tail := a, elements := s.elements + 1 } true [(a, v)] pos := by
  have hp : pos = 0 := by have := h.pos_le; simpa using this
  subst hp
  have hn : s.next = 0 := by rw [h.next]; rfl
  refine ⟨⟨rfl, ha, 0, by simp [setE], rfl⟩, by simp, ?_, ?_, ?_, ?_, ?_, by simp⟩
  · exact dom_insert h.dom (by simp) (by simp)
  · have := h.cnt; simp at this ⊢; omega
  · have := h.cap; simp; omega
  · intro _ _; rfl
  · simp [hn, addrAt]

theorem append_repr {a v : Nat} (h : Repr s true ns pos) (hf : a = 0 ∨ s.heap a = none) :
    (appendValue s a v).Ok <| IfPost (ns.length = s.capacity ∨ a = 0) (fun o => o = (false, s))
      (fun o => o.1 = true ∧ (∃ ns', ns'.map Prod.snd = ns.map Prod.snd ++ [v] ∧
        Repr o.2 true ns' pos) ∧ o.2.capacity = s.capacity) := by
  unfold appendValue
  have hc := h.cnt
  split
  · rename_i hh; exact ⟨_, rfl, .pos (.inl (by omega)) rfl⟩
  · rename_i hfull
    split
    · rename_i h0; exact ⟨_, rfl, .pos (.inr h0) rfl⟩
    · rename_i ha
      have hf : s.heap a = none := hf.resolve_left ha
      simp only
      split
      · rename_i h0
        have : ns = [] := List.length_eq_zero_iff.mp (by omega)
        subst this
        refine ⟨_, rfl, .neg (by omega) ?_⟩
        exact ⟨rfl, ⟨[(a, v)], rfl, addOnly_repr h hfull ha⟩, rfl⟩
      · rename_i h0
        have hne : ns ≠ [] := by rintro rfl; exact h0 hc
        obtain ⟨hp, h1, h2⟩ := addLast_repr (v := v) h hfull ha hf hne
        simp only [h1, Res.ok_bind]
        refine ⟨_, rfl, .neg (by omega) ?_⟩
        exact ⟨rfl, ⟨_, by simp, h2⟩, rfl⟩

/-- Position of the iterator after an insertion at the front: an iterator before the first element
stays there, any other keeps its element. -/
def posFront (pos : Nat) : Nat := if pos = 0 then 0 else pos + 1

theorem insertFront_repr {a v : Nat} (h : Repr s tl ns pos) (hf : a = 0 ∨ s.heap a = none) :
    (insertValue s a 0 v).Ok <| IfPost (v = 0 ∨ ns.length = s.capacity ∨ a = 0) (fun o => o = (false, s))
      (fun o => o.1 = true ∧ (∃ ns', ns'.map Prod.snd = v :: ns.map Prod.snd ∧
        Repr o.2 (tl || ns.isEmpty) ns' (posFront pos)) ∧ o.2.capacity = s.capacity) := by
  unfold insertValue
  have hc := h.cnt
  split
  · rename_i hh; exact ⟨_, rfl, .pos (.inl hh) rfl⟩
  · rename_i hv
    split
    · rename_i hh; exact ⟨_, rfl, .pos (by omega) rfl⟩
    · rename_i hfull
      split
      · rename_i h0; exact ⟨_, rfl, .pos (.inr (.inr h0)) rfl⟩
      · rename_i ha
        have hf : s.heap a = none := hf.resolve_left ha
        simp only
        split
        · rename_i h0
          have : ns = [] := List.length_eq_zero_iff.mp (by omega)
          subst this
          have hp : pos = 0 := by have := h.pos_le; simpa using this
          subst hp
          refine ⟨_, rfl, .neg (by omega) ?_⟩
          refine ⟨rfl, ⟨[(a, v)], rfl, ?_⟩, rfl⟩
          have := addOnly_repr (v := v) h (by omega) ha
          simpa [posFront] using this
        · rename_i h0
          rw [if_pos trivial]
          have hne : ns ≠ [] := by rintro rfl; exact h0 hc
          have hfr := h.fresh hf
          have hst : stNext (setE s.heap a (v, 0)) a s.head =
              .ok (setE (setE s.heap a (v, 0)) a (v, s.head)) := by simp [stNext, setE]
          simp only [hst, Res.ok_bind]
          refine ⟨_, rfl, .neg (by omega) ?_⟩
          refine ⟨rfl, ⟨(a, v) :: ns, rfl, ?_⟩, rfl⟩
          refine ⟨⟨rfl, ha, s.head, by simp [setE], seg_congr (fun x hx => ?_) h.seg⟩, ?_, ?_, ?_, ?_, ?_,
            ?_, ?_⟩
          · have : x ≠ a := by rintro rfl; exact hfr hx
            simp [setE, this]
          · simp only [List.map_cons, List.nodup_cons]; exact ⟨hfr, h.nodup⟩
          · intro b hb
            simp only [setE] at hb
            by_cases hba : b = a
            · simp [hba]
            · simp only [if_neg hba] at hb
              have := h.dom b hb
              simp at this ⊢; exact .inr this
          · simp; omega
          · have := h.cap; simp; omega
          · intro ht _
            have ht' : tl = true := by
              cases tl
              · cases ns with
                | nil => exact absurd rfl hne
                | cons => simp at ht
              · rfl
            have hl := List.length_pos_iff.mpr hne
            have e1 : (a, v) :: ns = [] ++ (a, v) :: ns := rfl
            simp only
            rw [h.tail ht' hne, e1, addrAt_erase_gt (by simp; omega)]
            simp
          · simp only
            rw [h.next, h.head_eq]
            have := addrAt_inj h.nodup h.nz h.pos_le (Nat.zero_le ns.length)
            unfold posFront
            by_cases hp : pos = 0
            · subst hp; simp [addrAt]
            · rw [if_neg (fun hh => hp (this.mp hh)), if_neg hp]
              simp [addrAt]
          · have := h.pos_le; unfold posFront; simp; split <;> omega

theorem insertBack_repr {a v : Nat} (h : Repr s true ns pos) (hf : a = 0 ∨ s.heap a = none) :
    (insertValue s a s.elements v).Ok <| IfPost (v = 0 ∨ ns.length = s.capacity ∨ a = 0) (fun o => o = (false, s))
      (fun o => o.1 = true ∧ (∃ ns', ns'.map Prod.snd = ns.map Prod.snd ++ [v] ∧
        Repr o.2 true ns' pos) ∧ o.2.capacity = s.capacity) := by
  have hc := h.cnt
  by_cases h0 : s.elements = 0
  · have hns : ns = [] := List.length_eq_zero_iff.mp (by omega)
    subst hns
    have hp : pos = 0 := by have := h.pos_le; simpa using this
    subst hp
    rw [h0]
    have := insertFront_repr (v := v) h hf
    simpa [posFront] using this
  · unfold insertValue
    split
    · rename_i hh; exact ⟨_, rfl, .pos (.inl hh) rfl⟩
    · rename_i hv
      split
      · rename_i hh; exact ⟨_, rfl, .pos (by omega) rfl⟩
      · rename_i hfull
        split
        · rename_i h0; exact ⟨_, rfl, .pos (.inr (.inr h0)) rfl⟩
        · rename_i ha
          have hf : s.heap a = none := hf.resolve_left ha
          have hne : ns ≠ [] := by rintro rfl; exact h0 hc
          obtain ⟨hp, h1, h2⟩ := addLast_repr (v := v) h (by omega) ha hf hne
          simp only [if_neg h0, if_true, h1, Res.ok_bind]
          refine ⟨_, rfl, .neg (by omega) ?_⟩
          exact ⟨rfl, ⟨_, by simp, h2⟩, rfl⟩

/-! ### Removing -/

theorem findBefore_seg {h : LHeap} {v : Nat} : ∀ {rest : List (Nat × Nat)} {p : Nat × Nat}
    {a f : Nat}, rest.length < f → Seg h a (p :: rest) 0 →
    (findBefore h v f a = .ok none ∧ v ∉ rest.map Prod.snd) ∨
    ∃ xs q e ys, p :: rest = xs ++ q :: e :: ys ∧ findBefore h v f a = .ok (some q.1) ∧ e.2 = v ∧
      v ∉ ((xs ++ [q]).map Prod.snd).tail := by
  intro rest
  induction rest with
  | nil =>
    rintro p a f hf ⟨h1, h2, n, h3, h4⟩
    cases f with
    | zero => omega
    | succ f =>
      simp only [Seg] at h4
      left
      simp [findBefore, ldE, h3, h4]
  | cons e rest ih =>
    rintro p a f hf ⟨h1, h2, n, h3, h4⟩
    cases f with
    | zero => omega
    | succ f =>
      obtain ⟨g1, g2, m, g3, g4⟩ := h4
      simp only [findBefore, ldE, h3, Res.ok_bind, if_neg g2, g3]
      by_cases hev : e.2 = v
      · right
        rw [if_pos hev]
        exact ⟨[], p, e, rest, rfl, by rw [h1], hev, by simp⟩
      · rw [if_neg hev]
        rcases ih (p := e) (a := n) (f := f) (by simp at hf; omega) ⟨g1, g2, m, g3, g4⟩ with
          ⟨k1, k2⟩ | ⟨xs, q, e', ys, k1, k2, k3, k4⟩
        · exact .inl ⟨k1, by simp; exact ⟨Ne.symm hev, by simpa using k2⟩⟩
        · right
          refine ⟨p :: xs, q, e', ys, by rw [k1]; rfl, k2, k3, ?_⟩
          cases xs with
          | nil =>
            simp only [List.nil_append, List.cons.injEq] at k1
            rw [← k1.1]
            simp
            exact Ne.symm hev
          | cons x xs =>
            simp only [List.cons_append, List.cons.injEq] at k1
            rw [← k1.1] at k4 ⊢
            simp at k4 ⊢
            exact ⟨Ne.symm hev, k4⟩

/-- What RemoveElementByValue returns. -/
def foundVal (v : Nat) (l : List Nat) : Nat := if v ∈ l then v else 0

theorem removeByValue_repr (h : Repr s tl ns pos) (v : Nat) (hv : v ≠ 0) :
    (removeByValue s v).Ok fun o =>
      o.1 = foundVal v (ns.map Prod.snd) ∧
      (∃ ns', ns'.map Prod.snd = (ns.map Prod.snd).erase v ∧
        Repr o.2 tl ns' (posRemove ns.length pos ((ns.map Prod.snd).idxOf v))) ∧
      o.2.capacity = s.capacity := by
  unfold removeByValue
  have hc := h.cnt
  cases ns with
  | nil =>
    rw [if_pos (.inl hc)]
    exact ⟨_, rfl, by simp [foundVal], ⟨[], by simp, by simpa [posRemove] using h⟩, rfl⟩
  | cons p rest =>
    rw [if_neg (by simp at hc; omega)]
    have hh : s.head = p.1 := h.head_eq
    have hp : s.heap p.1 = some (p.2, addrAt rest 0) := seg_live (xs := []) h.seg
    simp only [hh, ldE, hp, Res.ok_bind]
    by_cases hvp : v = p.2
    · rw [if_pos hvp]
      refine (unlinkHead_repr h).bind fun o ho => ⟨_, rfl, ?_, ⟨rest, ?_, ?_⟩, ho.2.2⟩
      · simp [hvp, foundVal]
      · simp [hvp]
      · simpa [posRemove, hvp] using ho.2.1
    · rw [if_neg hvp]
      have hseg := h.seg
      rw [hh] at hseg
      rcases findBefore_seg (v := v) (f := s.elements + 1) (by simp at hc; omega) hseg with
        ⟨k1, k2⟩ | ⟨xs, q, e, ys, k1, k2, k3, k4⟩
      · rw [k1]
        have hn : v ∉ (p :: rest).map Prod.snd := by
          simp at k2 ⊢; exact ⟨hvp, k2⟩
        refine ⟨_, rfl, by rw [foundVal, if_neg hn], ⟨p :: rest, ?_, ?_⟩, rfl⟩
        · rw [List.erase_of_not_mem hn]
        · rw [List.idxOf_eq_length hn]
          simpa [posRemove] using h
      · rw [k2]
        simp only [Res.ok_bind]
        have hn1 : v ∉ (xs ++ [q]).map Prod.snd := by
          cases xs with
          | nil =>
            simp only [List.nil_append, List.cons.injEq] at k1
            simpa [← k1.1] using hvp
          | cons x xs =>
            simp only [List.cons_append, List.cons.injEq] at k1
            rw [← k1.1] at k4 ⊢
            simp at k4 ⊢
            exact ⟨hvp, k4⟩
        rw [k1] at h ⊢
        have e1 : (xs ++ q :: e :: ys).map Prod.snd
            = (xs ++ [q]).map Prod.snd ++ e.2 :: ys.map Prod.snd := by simp
        refine (unlinkAfter_repr h).bind fun o ho =>
          ⟨_, rfl, ?_, ⟨xs ++ q :: ys, ?_, ?_⟩, ho.2.2⟩
        · rw [foundVal, if_pos (by simp [← k3])]
        · rw [e1, List.erase_append_right _ hn1, k3]
          simp
        · have hidx : ((xs ++ q :: e :: ys).map Prod.snd).idxOf v = xs.length + 1 := by
            rw [e1, List.idxOf_append, if_neg hn1, k3]
            simp [Nat.add_comm]
          rw [hidx]
          simpa [posRemove] using ho.2.1

theorem findPrev_seg {h : LHeap} {p e : Nat × Nat} : ∀ {xs : List (Nat × Nat)} {a f : Nat},
    xs.length < f → Seg h a (xs ++ [p, e]) 0 → (addrs (xs ++ [p, e])).Nodup →
    findPrev h e.1 f a = .ok p.1 := by
  intro xs
  induction xs with
  | nil =>
    rintro a f hf ⟨h1, h2, n, h3, h4⟩ _
    cases f with
    | zero => omega
    | succ f => simp only [findPrev, ldE, h3, Res.ok_bind, if_pos h4.1]; rw [h1]
  | cons x xs ih =>
    rintro a f hf ⟨h1, h2, n, h3, h4⟩ hnd
    cases f with
    | zero => omega
    | succ f =>
      have hne : n ≠ e.1 := by
        rw [seg_start h4]
        intro hh
        have hnd' : (addrs (xs ++ [p, e])).Nodup := by
          simp only [List.cons_append, addrs, List.map_cons, List.nodup_cons] at hnd
          exact hnd.2
        have e1 : addrAt (xs ++ [p, e]) (xs.length + 1) = e.1 := by
          have := addrAt_mid (xs ++ [p]) [] e
          simpa using this
        rw [← e1] at hh
        have := (addrAt_inj hnd' (seg_ne_zero h4) (Nat.zero_le _) (by simp)).mp hh
        omega
      simp only [findPrev, ldE, h3, Res.ok_bind, if_neg hne]
      refine ih (by simp at hf; omega) h4 ?_
      simp only [List.cons_append, addrs, List.map_cons, List.nodup_cons] at hnd
      exact hnd.2

theorem removeLast_repr (h : Repr s true ns pos) :
    (removeLast s).Ok fun o => o.1 = (ns.map Prod.snd).getLast?.getD 0 ∧
      (∃ ns', ns'.map Prod.snd = (ns.map Prod.snd).dropLast ∧
        Repr o.2 true ns' (min pos (ns.length - 1))) ∧ o.2.capacity = s.capacity := by
  unfold removeLast
  have hc := h.cnt
  split
  · rename_i h0
    have : ns = [] := List.length_eq_zero_iff.mp (by omega)
    subst this
    refine ⟨_, rfl, by simp, ⟨[], by simp, ?_⟩, rfl⟩
    have := h.pos_le
    simp at this
    subst this
    exact h
  · rename_i h0
    have hne : ns ≠ [] := by rintro rfl; exact h0 hc
    have hnd := h.nodup
    have hpl := h.pos_le
    obtain ⟨xs, e, rfl, ht, he⟩ := tail_live h hne
    have hnext : (if s.next = s.tail then 0 else s.next) = addrAt xs (min pos xs.length) := by
      rw [h.next, ht]
      have hiff : addrAt (xs ++ [e]) pos = e.1 ↔ pos = xs.length := by
        rw [← addrAt_mid xs [] e]
        exact addrAt_inj hnd h.nz hpl (by simp)
      simp only [hiff]
      split
      · rename_i hh; subst hh; simp [addrAt]
      · rename_i hh
        simp at hpl
        rcases Nat.lt_or_ge pos xs.length with hlt | hge
        · rw [addrAt_append_left hlt, Nat.min_eq_left (by omega)]
        · have : pos = (xs ++ [e]).length := by simp; omega
          rw [this, addrAt_len, ← this, Nat.min_eq_right (by omega), addrAt_len]
    have hxe : ∀ x ∈ addrs xs, x ≠ e.1 := by
      intro x hx
      simp only [addrs, List.map_append, List.map_cons, List.map_nil, List.nodup_append] at hnd
      exact hnd.2.2 x hx _ (by simp)
    have hndx : (addrs xs).Nodup := by
      simp only [addrs, List.map_append, List.nodup_append] at hnd; exact hnd.1
    have hdom : ∀ a, delE s.heap e.1 a ≠ none → a ∈ addrs xs := by
      intro a ha
      unfold delE at ha
      split at ha
      · exact absurd rfl ha
      · rename_i hae
        have := h.dom a ha
        simpa [hae] using this
    simp only
    rw [hnext]
    split
    · rename_i h1
      have : xs = [] := by
        apply List.length_eq_zero_iff.mp; simp at hc; omega
      subst this
      have hh : s.head = e.1 := h.head_eq
      simp only [hh, ldE, he, Res.ok_bind, ht, freeE]
      refine ⟨_, rfl, by simp, ⟨[], by simp, ?_⟩, rfl⟩
      refine ⟨rfl, by simp, hdom, ?_, ?_, by simp, by simp, by simp⟩
      · simp; omega
      · have := h.cap; simp; omega
    · rename_i h1
      have hxne : xs ≠ [] := by rintro rfl; simp at hc; omega
      obtain ⟨ys, p, rfl⟩ : ∃ ys p, xs = ys ++ [p] :=
        ⟨xs.dropLast, xs.getLast hxne, (List.dropLast_concat_getLast hxne).symm⟩
      have hseg : Seg s.heap s.head (ys ++ [p, e]) 0 := by have := h.seg; simpa using this
      have hfp := findPrev_seg (f := s.elements + 1) (by simp at hc; omega) hseg
        (by simpa using hnd)
      have hp : s.heap p.1 = some (p.2, e.1) := by
        have := seg_live (ys := [e]) hseg
        simpa [addrAt] using this
      have hpe : p.1 ≠ e.1 := hxe p.1 (by simp)
      have hyp : ∀ x ∈ addrs ys, x ≠ p.1 := by
        intro x hx
        simp only [addrs, List.map_append, List.map_cons, List.map_nil, List.nodup_append] at hndx
        exact hndx.2.2 x hx _ (by simp)
      simp only [ht, ldE, he, Res.ok_bind, hfp, freeE, stNext, if_neg hpe, hp]
      refine ⟨_, rfl, by simp, ⟨ys ++ [p], by simp, ?_⟩, rfl⟩
      refine ⟨?_, hndx, ?_, ?_, ?_, ?_, ?_, ?_⟩
      · obtain ⟨b, s1, s2, s3, n, s4, s5⟩ := seg_append.mp hseg
        refine seg_append.mpr ⟨b, seg_congr (fun x hx => ?_) s1, s2, s3, 0, ?_, rfl⟩
        · simp [setE, hyp x hx, hxe x (by simp at hx ⊢; exact .inl hx)]
        · subst s2; simp [setE]
      · intro a ha
        simp only [setE] at ha
        by_cases hap : a = p.1
        · simp [hap]
        · rw [if_neg hap] at ha
          exact hdom a ha
      · simp at hc ⊢; omega
      · have := h.cap; simp; omega
      · intro _ _
        have := addrAt_mid ys [] p
        simp at this ⊢
        rw [this]
      · simp
      · simp; omega

theorem freeChain_seg : ∀ {ns : List (Nat × Nat)} {h : LHeap} {a f : Nat}, ns.length < f →
    Seg h a ns 0 → (addrs ns).Nodup →
    ∃ h', freeChain h f a = .ok h' ∧ ∀ b, h' b = if b ∈ addrs ns then none else h b := by
  intro ns
  induction ns with
  | nil => rintro h a f _ rfl _; exact ⟨h, by cases f <;> rfl, by simp⟩
  | cons x ns ih =>
    rintro h a f hf ⟨h1, h2, n, h3, h4⟩ hnd
    cases f with
    | zero => omega
    | succ f =>
      cases a with
      | zero => exact absurd rfl h2
      | succ a =>
        simp only [addrs, List.map_cons, List.nodup_cons] at hnd
        simp only [freeChain, ldE, h3, Res.ok_bind, freeE]
        obtain ⟨h', k1, k2⟩ := ih (h := delE h (a + 1)) (a := n) (f := f) (by simp at hf; omega)
          (seg_congr (fun y hy => by
            unfold delE; rw [if_neg]; rintro rfl; exact hnd.1 (h1 ▸ hy)) h4) hnd.2
        refine ⟨h', k1, fun b => ?_⟩
        rw [k2 b]
        unfold delE
        by_cases hb : b ∈ addrs ns
        · simp only [hb, addrs, List.map_cons, List.mem_cons, or_true, if_true]
        · by_cases hx : b = x.1
          · subst hx; simp [h1]
          · rw [if_neg hb, if_neg (by omega), if_neg]
            simp only [addrs, List.map_cons, List.mem_cons, not_or]
            exact ⟨hx, hb⟩

theorem clear_repr (h : Repr s tl ns pos) :
    (clearLinkedList s).Ok fun o => Repr o true [] 0 ∧ o.capacity = s.capacity := by
  obtain ⟨h', k1, k2⟩ := freeChain_seg (f := s.elements + 1) (by rw [h.cnt]; omega) h.seg h.nodup
  unfold clearLinkedList
  simp only [k1, Res.ok_bind]
  refine ⟨_, rfl, ⟨rfl, by simp, ?_, by simp, by simp, by simp, by simp [addrAt], by simp⟩, rfl⟩
  intro a ha
  simp only at ha
  rw [k2 a] at ha
  split at ha
  · exact absurd rfl ha
  · rename_i hn; exact absurd (h.dom a ha) hn

/-! ### Sorted insertion -/

/-- The representation without the iterator and without the claim that nothing is leaked. -/
structure Core (s : LList) (ns : List (Nat × Nat)) : Prop where
  seg : Seg s.heap s.head ns 0
  nodup : (addrs ns).Nodup
  cnt : s.elements = ns.length
  cap : s.elements ≤ s.capacity
  tail : ns ≠ [] → s.tail = addrAt ns (ns.length - 1)

theorem Repr.core (h : Repr s true ns pos) : Core s ns :=
  ⟨h.seg, h.nodup, h.cnt, h.cap, h.tail rfl⟩

/-- Address of the last node, NULL for none. -/
def lastAddr (xs : List (Nat × Nat)) : Nat := (xs.getLast?.map Prod.fst).getD 0

/-- Heap and head after linking address `a` behind the nodes `xs`. -/
def linkAfter (h : LHeap) (head a : Nat) (xs : List (Nat × Nat)) : LHeap × Nat :=
  match xs.getLast? with
  | none => (h, a)
  | some e => (setE h e.1 (e.2, a), head)

/-- Where the loop of the sorted insertion stops in the remaining values. -/
def sortedStop (compare : Nat → Nat → Int) (replace : Bool) (v x : Nat) : Bool :=
  decide (compare v x < 0) || (replace && decide (compare v x = 0))

theorem seg_link {h : LHeap} {head a v : Nat} {xs ys : List (Nat × Nat)} (ha : a ≠ 0)
    (hxs : ∃ b, Seg h head xs b) (hys : ∃ b, Seg h b ys 0) (hnd : (addrs (xs ++ ys)).Nodup)
    (hf : a ∉ addrs (xs ++ ys)) :
    Seg (setE (linkAfter h head a xs).1 a (v, addrAt ys 0)) (linkAfter h head a xs).2
      (xs ++ (a, v) :: ys) 0 := by
  obtain ⟨b, hys⟩ := hys
  obtain ⟨b', hxs⟩ := hxs
  have hb := seg_start hys
  subst hb
  simp only [addrs, List.map_append, List.mem_append, not_or, List.nodup_append] at hf hnd
  cases hl : xs.getLast? with
  | none =>
    have : xs = [] := by simpa using hl
    subst this
    simp only [linkAfter, List.getLast?_nil, List.nil_append]
    refine ⟨rfl, ha, _, by simp [setE], seg_congr (fun x hx => ?_) hys⟩
    have : x ≠ a := by rintro rfl; exact hf.2 hx
    simp [setE, this]
  | some e =>
    obtain ⟨zs, rfl⟩ : ∃ zs, xs = zs ++ [e] := ⟨xs.dropLast, by
      have hne : xs ≠ [] := by rintro rfl; cases hl
      rw [List.getLast?_eq_some_getLast hne] at hl
      injection hl with hl
      rw [← hl, List.dropLast_concat_getLast hne]⟩
    simp only [linkAfter, hl]
    have hea : e.1 ≠ a := by rintro rfl; exact hf.1 (by simp)
    rw [List.append_assoc]
    obtain ⟨b, s1, s2, s3, n, s4, s5⟩ := seg_append.mp hxs
    refine seg_append.mpr ⟨b, seg_congr (fun x hx => ?_) s1, s2, s3, a, ?_, rfl, ha, addrAt ys 0,
      ?_, seg_congr (fun x hx => ?_) hys⟩
    · have h1 : x ≠ a := by rintro rfl; exact hf.1 (by simp at hx ⊢; exact .inl hx)
      have h2 : x ≠ e.1 := by
        have := hnd.1
        simp only [List.map_append, List.nodup_append] at this
        exact this.2.2 x hx _ (by simp)
      simp [setE, h1, h2]
    · subst s2; simp [setE, hea]
    · simp [setE]
    · have h1 : x ≠ a := by rintro rfl; exact hf.2 hx
      have h2 : x ≠ e.1 := fun hh => hnd.2.2 e.1 (by simp) x hx hh.symm
      simp [setE, h1, h2]

theorem lastAddr_concat (xs : List (Nat × Nat)) (e : Nat × Nat) : lastAddr (xs ++ [e]) = e.1 := by
  simp [lastAddr]

/-- What the loop of the sorted insertion computes. -/
theorem sortedLoop_seg (compare : Nat → Nat → Int) (replace : Bool) (a v head elements : Nat)
    {h : LHeap} : ∀ (rest done : List (Nat × Nat)) (f : Nat), rest.length < f →
    Seg h head (done ++ rest) 0 → (addrs (done ++ rest)).Nodup →
    (∀ x ∈ done, sortedStop compare replace v x.2 = false) →
    ∃ xs ys, done ++ rest = xs ++ ys ∧ (∀ x ∈ xs, sortedStop compare replace v x.2 = false) ∧
      match ys with
      | [] => sortedLoop compare replace a v f h head elements (lastAddr done) (addrAt rest 0) =
          .ok (h, head, elements, lastAddr xs, 0, none)
      | y :: zs => sortedStop compare replace v y.2 = true ∧
        if compare v y.2 = 0 then
          sortedLoop compare replace a v f h head elements (lastAddr done) (addrAt rest 0) =
            .ok ((linkAfter (if xs = [] then h else delE h y.1) head a xs).1,
              (linkAfter h head a xs).2, elements - 1, lastAddr xs, addrAt zs 0, some y.2)
        else
          sortedLoop compare replace a v f h head elements (lastAddr done) (addrAt rest 0) =
            .ok ((linkAfter h head a xs).1, (linkAfter h head a xs).2, elements, lastAddr xs, y.1,
              none) := by
  intro rest
  induction rest with
  | nil =>
    intro done f hf hseg hnd hdone
    refine ⟨done, [], rfl, hdone, ?_⟩
    cases f with
    | zero => omega
    | succ f => simp [sortedLoop, addrAt]
  | cons y rest ih =>
    intro done f hf hseg hnd hdone
    cases f with
    | zero => omega
    | succ f =>
      have hy := seg_live hseg
      have hz := seg_ne_zero hseg
      have hy0 : y.1 ≠ 0 := by intro hh; apply hz; simp [← hh]
      have hat : addrAt (y :: rest) 0 = y.1 := rfl
      by_cases hst : sortedStop compare replace v y.2 = true
      · refine ⟨done, y :: rest, rfl, hdone, hst, ?_⟩
        have hcond : compare v y.2 < 0 ∨ (replace = true ∧ compare v y.2 = 0) := by
          simpa [sortedStop] using hst
        rw [hat]
        cases hl : done.getLast? with
        | none =>
          have hd : done = [] := by simpa using hl
          subst hd
          split
          · rename_i h0
            simp only [sortedLoop, if_neg hy0, ldE, hy, Res.ok_bind, if_pos hcond, if_pos h0]
            simp [lastAddr, linkAfter]
          · rename_i h0
            simp only [sortedLoop, if_neg hy0, ldE, hy, Res.ok_bind, if_pos hcond, if_neg h0]
            simp [lastAddr, linkAfter]
        | some e =>
          obtain ⟨zs, rfl⟩ : ∃ zs, done = zs ++ [e] := ⟨done.dropLast, by
            have hne : done ≠ [] := by rintro rfl; cases hl
            rw [List.getLast?_eq_some_getLast hne] at hl
            injection hl with hl
            rw [← hl, List.dropLast_concat_getLast hne]⟩
          have he : h e.1 = some (e.2, y.1) := by
            have : Seg h head (zs ++ e :: (y :: rest)) 0 := by simpa using hseg
            exact seg_live this
          have he0 : e.1 ≠ 0 := by intro hh; apply hz; simp [← hh]
          have hey : e.1 ≠ y.1 := by
            intro hh
            simp [List.nodup_append, hh] at hnd
          rw [lastAddr_concat]
          split
          · rename_i h0
            simp only [sortedLoop, if_neg hy0, ldE, hy, Res.ok_bind, if_pos hcond, if_pos h0,
              ne_eq, he0, not_false_eq_true, if_true, freeE, stNext, if_neg hey, he]
            simp only [linkAfter, hl, List.append_eq_nil_iff, List.cons_ne_nil, and_false,
              if_false]
            rfl
          · rename_i h0
            simp only [sortedLoop, if_neg hy0, ldE, hy, Res.ok_bind, if_pos hcond, if_neg h0,
              ne_eq, he0, not_false_eq_true, if_true, stNext, he]
            simp only [linkAfter, hl]
      · have hst' : sortedStop compare replace v y.2 = false := by simpa using hst
        have hcond : ¬ (compare v y.2 < 0 ∨ (replace = true ∧ compare v y.2 = 0)) := by
          intro hh; apply hst; simpa [sortedStop] using hh
        obtain ⟨xs, ys, h1, h2, h3⟩ := ih (done ++ [y]) f (by simp at hf; omega)
          (by simpa using hseg) (by simpa using hnd) (by
            intro x hx
            simp only [List.mem_append, List.mem_singleton] at hx
            rcases hx with hx | rfl
            · exact hdone x hx
            · exact hst')
        refine ⟨xs, ys, by simpa using h1, h2, ?_⟩
        have hstep : sortedLoop compare replace a v (f + 1) h head elements (lastAddr done)
            (addrAt (y :: rest) 0) = sortedLoop compare replace a v f h head elements
              (lastAddr (done ++ [y])) (addrAt rest 0) := by
          rw [hat, lastAddr_concat]
          simp only [sortedLoop, if_neg hy0, ldE, hy, Res.ok_bind, if_neg hcond]
        rw [hstep]
        exact h3

theorem addrAt_insert_ge {xs ys : List (Nat × Nat)} {e : Nat × Nat} {i : Nat}
    (h : xs.length ≤ i) : addrAt (xs ++ e :: ys) (i + 1) = addrAt (xs ++ ys) i := by
  rw [addrAt_erase_gt (by omega)]; simp

/-- Position of the iterator after a sorted insertion at position `i`: it keeps its element. -/
def posInsert (pos i : Nat) : Nat := if i ≤ pos then pos + 1 else pos

theorem mem_ins {b : Nat} {xs ys : List (Nat × Nat)} {e : Nat × Nat} (h : b ∈ addrs (xs ++ ys)) :
    b ∈ addrs (xs ++ e :: ys) := by
  simp only [addrs, List.map_append, List.map_cons, List.mem_append, List.mem_cons] at h ⊢
  exact h.imp id .inr

theorem mem_repl {b : Nat} {xs ys : List (Nat × Nat)} {y e : Nat × Nat}
    (h : b ∈ addrs (xs ++ y :: ys)) (hb : b ≠ y.1) : b ∈ addrs (xs ++ e :: ys) := by
  simp only [addrs, List.map_append, List.map_cons, List.mem_append, List.mem_cons] at h ⊢
  rcases h with h | h | h
  · exact .inl h
  · exact absurd h hb
  · exact .inr (.inr h)

theorem setE_same (h : LHeap) (a : Nat) (c : Nat × Nat) : setE h a c a = some c := by simp [setE]
theorem setE_ne (h : LHeap) {a b : Nat} (c : Nat × Nat) (hab : b ≠ a) : setE h a c b = h b := by
  simp [setE, hab]
theorem setE_comm (h : LHeap) {a b : Nat} (c d : Nat × Nat) (hab : b ≠ a) :
    setE (setE h a c) b d = setE (setE h b d) a c := by
  funext x
  simp only [setE]
  by_cases h1 : x = a
  · subst h1; simp [Ne.symm hab]
  · simp [h1]
theorem setE_setE (h : LHeap) (a : Nat) (c d : Nat × Nat) :
    setE (setE h a c) a d = setE h a d := by
  funext x
  simp only [setE]
  split <;> simp_all

/-- The part of the sorted insertion after its loop. -/
def sortedFin (s : LList) (a : Nat) (h : LHeap) (head elements e nn : Nat) (rep : Option Nat) :
    Res (Bool × Option Nat × LList) := do
  let h ← stNext h a nn
  if nn = 0 then
    if e ≠ 0 then do
      let h ← stNext h e a
      .ok (true, rep, { s with heap := h, head := head, tail := a, elements := elements + 1 })
    else
      .ok (true, rep, { s with heap := h, head := a, tail := a, elements := elements + 1 })
  else .ok (true, rep, { s with heap := h, head := head, elements := elements + 1 })

theorem snoc_of_getLast? {xs : List (Nat × Nat)} {e : Nat × Nat} (hl : xs.getLast? = some e) :
    ∃ zs, xs = zs ++ [e] := ⟨xs.dropLast, by
  have hne : xs ≠ [] := by rintro rfl; cases hl
  rw [List.getLast?_eq_some_getLast hne] at hl
  injection hl with hl
  rw [← hl, List.dropLast_concat_getLast hne]⟩

theorem fin_linked {H : LHeap} {head a v nn elements : Nat} {rep : Option Nat}
    {xs : List (Nat × Nat)} (m : Nat) (hHa : H a = some (v, m))
    (ha : a ∉ addrs xs) (h0 : (0 : Nat) ∉ addrs xs) :
    sortedFin s a (linkAfter H head a xs).1 (linkAfter H head a xs).2 elements (lastAddr xs) nn rep
      = .ok (true, rep, { s with
          heap := setE (linkAfter H head a xs).1 a (v, nn), head := (linkAfter H head a xs).2,
          tail := if nn = 0 then a else s.tail, elements := elements + 1 }) := by
  cases hl : xs.getLast? with
  | none =>
    have : xs = [] := by simpa using hl
    subst this
    simp only [sortedFin, linkAfter, hl, stNext, hHa, Res.ok_bind, lastAddr, Option.map_none,
      Option.getD_none, ne_eq, not_true_eq_false, if_false]
    split <;> rfl
  | some e =>
    obtain ⟨zs, rfl⟩ := snoc_of_getLast? hl
    have hea : e.1 ≠ a := by rintro rfl; exact ha (by simp)
    have he0 : e.1 ≠ 0 := by intro hh; exact h0 (by simp [← hh])
    simp only [sortedFin, linkAfter, hl, stNext, setE_ne _ _ (Ne.symm hea), hHa, Res.ok_bind,
      lastAddr_concat, ne_eq, he0, not_false_eq_true, if_true, setE_ne _ _ hea, setE_same]
    rw [setE_comm _ _ _ (Ne.symm hea), setE_setE]
    split <;> rfl

theorem fin_unlinked {H : LHeap} {head a v elements : Nat} {rep : Option Nat}
    {xs : List (Nat × Nat)} (m : Nat) (hHa : H a = some (v, m)) (ha : a ∉ addrs xs)
    (h0 : (0 : Nat) ∉ addrs xs) (hlive : ∀ e ∈ xs, ∃ n, H e.1 = some (e.2, n)) :
    sortedFin s a H head elements (lastAddr xs) 0 rep
      = .ok (true, rep, { s with
          heap := setE (linkAfter H head a xs).1 a (v, 0), head := (linkAfter H head a xs).2,
          tail := a, elements := elements + 1 }) := by
  cases hl : xs.getLast? with
  | none =>
    have : xs = [] := by simpa using hl
    subst this
    simp only [sortedFin, linkAfter, hl, stNext, hHa, Res.ok_bind, lastAddr, Option.map_none,
      Option.getD_none, ne_eq, not_true_eq_false, if_false, if_true]
  | some e =>
    obtain ⟨zs, rfl⟩ := snoc_of_getLast? hl
    have hea : e.1 ≠ a := by rintro rfl; exact ha (by simp)
    have he0 : e.1 ≠ 0 := by intro hh; exact h0 (by simp [← hh])
    obtain ⟨n, hn⟩ := hlive e (by simp)
    simp only [sortedFin, linkAfter, hl, stNext, hHa, Res.ok_bind, lastAddr_concat, ne_eq, he0,
      not_false_eq_true, if_true, setE_ne _ _ hea, hn]
    rw [setE_comm _ _ _ hea]

theorem dom_link {H : LHeap} {head a : Nat} {xs ns : List (Nat × Nat)} {c : Nat × Nat}
    (hd : ∀ b, b ≠ a → H b ≠ none → b ∈ addrs ns) (hx : ∀ b ∈ addrs xs, b ∈ addrs ns)
    (ha : a ∈ addrs ns) : ∀ b, setE (linkAfter H head a xs).1 a c b ≠ none → b ∈ addrs ns := by
  intro b hb
  by_cases hba : b = a
  · rw [hba]; exact ha
  · simp only [setE, if_neg hba] at hb
    cases hl : xs.getLast? with
    | none => simp only [linkAfter, hl] at hb; exact hd b hba hb
    | some e =>
      obtain ⟨zs, rfl⟩ := snoc_of_getLast? hl
      simp only [linkAfter, hl, setE] at hb
      split at hb
      · rename_i hh; rw [hh]; exact hx _ (by simp)
      · exact hd b hba hb

theorem insertSorted_repr (compare : Nat → Nat → Int) (replace : Bool) {a v : Nat}
    (h : Repr s true ns pos) (hv : v ≠ 0) (hfull : s.elements ≠ s.capacity) (ha : a ≠ 0)
    (hf : s.heap a = none) :
    ∃ xs ys rep s', insertSorted compare replace s a v = .ok (true, rep, s') ∧
      s'.capacity = s.capacity ∧
      (∀ x ∈ xs, sortedStop compare replace v x.2 = false) ∧ Core s' (xs ++ (a, v) :: ys) ∧
      ((rep = none ∧ ns = xs ++ ys ∧ (∀ y ∈ ys.head?, compare v y.2 < 0) ∧
          Repr s' true (xs ++ (a, v) :: ys) (posInsert pos xs.length)) ∨
       (∃ y, rep = some y.2 ∧ ns = xs ++ y :: ys ∧ replace = true ∧ compare v y.2 = 0 ∧
          s'.next = s.next ∧
          (xs ≠ [] → s'.heap y.1 = none ∧ ∀ b, s'.heap b ≠ none → b ∈ addrs (xs ++ (a, v) :: ys)) ∧
          (xs = [] → s'.heap y.1 = s.heap y.1))) := by
  have hc := h.cnt
  have hcap := h.cap
  have hfr := h.fresh hf
  have hnz := h.nz
  have hseg : Seg (setE s.heap a (v, 0)) s.head ([] ++ ns) 0 :=
    seg_congr (fun x hx => by
      have : x ≠ a := by rintro rfl; exact hfr hx
      simp [setE, this]) h.seg
  have hHa : setE s.heap a (v, 0) a = some (v, 0) := by simp [setE]
  obtain ⟨xs, ys, h1, h2, h3⟩ := sortedLoop_seg compare replace a v s.head s.elements ns []
    (s.elements + 1) (by omega) hseg h.nodup (by simp)
  simp only [List.nil_append] at h1
  subst h1
  have hun : insertSorted compare replace s a v = (do
      let (h, head, elements, e, nn, rep) ←
        sortedLoop compare replace a v (s.elements + 1) (setE s.heap a (v, 0)) s.head s.elements
          (lastAddr []) (addrAt (xs ++ ys) 0)
      sortedFin s a h head elements e nn rep) := by
    rw [← h.head_eq]
    simp only [insertSorted, if_neg hv, if_neg hfull, if_neg ha]
    rfl
  have hfx : a ∉ addrs xs := fun hh => hfr (by simp at hh ⊢; exact .inl hh)
  have hzx : (0 : Nat) ∉ addrs xs := fun hh => hnz (by simp at hh ⊢; exact .inl hh)
  have hnd := h.nodup
  have hpl := h.pos_le
  have hnext : ∀ ys', xs ++ ys = xs ++ ys' → s.next =
      addrAt (xs ++ (a, v) :: ys') (posInsert pos xs.length) := by
    intro ys' hy
    rw [h.next, hy]
    unfold posInsert
    split
    · rw [addrAt_insert_ge (by omega)]
    · rw [addrAt_erase_lt (by omega)]
  have hnd' : ∀ ys', (addrs (xs ++ ys')).Nodup → a ∉ addrs (xs ++ ys') →
      (addrs (xs ++ (a, v) :: ys')).Nodup := by
    intro ys' h1 h2
    simp only [addrs, List.map_append, List.map_cons, List.nodup_append, List.nodup_cons,
      List.mem_append, not_or, List.mem_cons] at h1 h2 ⊢
    refine ⟨h1.1, ⟨h2.2, h1.2.1⟩, ?_⟩
    rintro x hx y (rfl | hy)
    · rintro rfl; exact h2.1 hx
    · exact h1.2.2 x hx y hy
  cases ys with
  | nil =>
    simp only [List.append_nil] at *
    rw [hun, h3]
    simp only [Res.ok_bind]
    have hlive : ∀ e ∈ xs, ∃ n, setE s.heap a (v, 0) e.1 = some (e.2, n) := by
      intro e he
      obtain ⟨p, q, rfl⟩ := List.append_of_mem he
      exact ⟨_, seg_live hseg⟩
    rw [fin_unlinked 0 hHa hfx hzx hlive]
    have hcore : Core { s with
          heap := setE (linkAfter (setE s.heap a (v, 0)) s.head a xs).1 a (v, 0)
          head := (linkAfter (setE s.heap a (v, 0)) s.head a xs).2
          tail := a, elements := s.elements + 1 } (xs ++ [(a, v)]) := by
      refine ⟨?_, hnd' [] (by simpa using hnd) (by simpa using hfr), by simp; omega, by simp; omega,
        ?_⟩
      · exact seg_link (ys := []) ha ⟨_, hseg⟩ ⟨0, rfl⟩ (by simpa using hnd) (by simpa using hfr)
      · intro _
        have := addrAt_mid xs [] (a, v)
        simp at this ⊢
        rw [this]
    refine ⟨xs, [], none, _, rfl, rfl, h2, hcore, .inl ⟨rfl, by simp, by simp, ?_⟩⟩
    refine ⟨hcore.seg, hcore.nodup, ?_, hcore.cnt, hcore.cap, fun _ => hcore.tail,
      hnext [] (by simp), ?_⟩
    · refine dom_link (fun b hb hb' => ?_) (by intro b hb; simp at hb ⊢; exact .inl hb) (by simp)
      simp only [setE, if_neg hb] at hb'
      have := h.dom b hb'
      simp at this ⊢; exact .inl this
    · unfold posInsert; simp; split <;> omega
  | cons y zs =>
    obtain ⟨hst, h3⟩ := h3
    have hy0 : y.1 ≠ 0 := by intro hh; apply hnz; simp [← hh]
    obtain ⟨b, sx, sy⟩ := seg_append.mp (by simpa using hseg : Seg _ _ (xs ++ y :: zs) 0)
    have hya : y.1 ≠ a := by intro hh; apply hfr; simp [← hh]
    split at h3
    · -- replacement
      rename_i h0
      have hrep : replace = true := by
        simp [sortedStop, h0] at hst; exact hst
      rw [hun, h3]
      simp only [Res.ok_bind]
      have hlink2 : (linkAfter (setE s.heap a (v, 0)) s.head a xs).2 =
          (linkAfter (if xs = [] then setE s.heap a (v, 0) else delE (setE s.heap a (v, 0)) y.1)
            s.head a xs).2 := by
        unfold linkAfter; split <;> rfl
      rw [hlink2]
      have hnd2 : (addrs (xs ++ zs)).Nodup := by
        have : List.Sublist (addrs (xs ++ zs)) (addrs (xs ++ y :: zs)) := by simp [addrs]
        exact this.nodup hnd
      have hfr2 : a ∉ addrs (xs ++ zs) := by
        intro hh; exact hfr (mem_ins hh)
      have hyx : y.1 ∉ addrs xs ∧ y.1 ∉ addrs zs := by
        simp only [addrs, List.map_append, List.map_cons, List.nodup_append, List.nodup_cons] at hnd
        exact ⟨fun hh => hnd.2.2 _ hh y.1 (by simp) rfl, hnd.2.1.1⟩
      generalize hH : (if xs = [] then setE s.heap a (v, 0)
        else delE (setE s.heap a (v, 0)) y.1) = H
      have hHa' : H a = some (v, 0) := by
        rw [← hH]; split
        · exact hHa
        · simp [delE, hya.symm, hHa]
      have hag : ∀ b, b ≠ y.1 → H b = setE s.heap a (v, 0) b := by
        intro b hb; rw [← hH]; split
        · rfl
        · simp [delE, hb]
      rw [fin_linked 0 hHa' hfx hzx]
      have hcore : Core { s with
            heap := setE (linkAfter H s.head a xs).1 a (v, addrAt zs 0)
            head := (linkAfter H s.head a xs).2
            tail := if addrAt zs 0 = 0 then a else s.tail
            elements := s.elements - 1 + 1 } (xs ++ (a, v) :: zs) := by
        refine ⟨?_, hnd' zs hnd2 hfr2, ?_, ?_, ?_⟩
        · refine seg_link ha ⟨b, seg_congr (fun x hx => hag x ?_) sx⟩ ?_ hnd2 hfr2
          · rintro rfl; exact hyx.1 hx
          · obtain ⟨_, _, n, _, sz⟩ := sy
            exact ⟨n, seg_congr (fun x hx => hag x (by rintro rfl; exact hyx.2 hx)) sz⟩
        · simp at hc ⊢; omega
        · simp at hc ⊢; omega
        · intro _
          simp only
          cases hz : zs with
          | nil =>
            have := addrAt_mid xs [] (a, v)
            simp at this ⊢
            rw [this]; simp [addrAt]
          | cons z zs' =>
            have hz0 : z.1 ≠ 0 := by intro hh; apply hnz; simp [hz, ← hh]
            rw [if_neg (by simpa [addrAt] using hz0), h.tail rfl (by simp), hz]
            have e1 : (xs ++ y :: z :: zs').length - 1 = xs.length + zs'.length + 1 := by
              simp; omega
            have e2 : (xs ++ (a, v) :: z :: zs').length - 1 = xs.length + zs'.length + 1 := by
              simp; omega
            rw [e1, e2, addrAt_insert_ge (by omega), addrAt_insert_ge (by omega)]
      refine ⟨xs, zs, some y.2, _, rfl, rfl, h2, hcore, .inr ⟨y, rfl, rfl, hrep, h0, rfl, ?_, ?_⟩⟩
      · intro hx
        rw [if_neg hx] at hH
        have hyn : H y.1 = none := by rw [← hH]; simp [delE]
        constructor
        · simp only [setE, if_neg hya]
          cases hl : xs.getLast? with
          | none => simp only [linkAfter, hl]; exact hyn
          | some e =>
            obtain ⟨ws, rfl⟩ := snoc_of_getLast? hl
            have : y.1 ≠ e.1 := by intro hh; apply hyx.1; simp [hh]
            simp only [linkAfter, hl, setE, if_neg this]; exact hyn
        · refine dom_link (fun b hb hb' => ?_) (by intro b hb; simp at hb ⊢; exact .inl hb)
            (by simp)
          have hby : b ≠ y.1 := by rintro rfl; exact hb' hyn
          rw [hag b hby] at hb'
          simp only [setE, if_neg hb] at hb'
          exact mem_repl (h.dom b hb') hby
      · rintro rfl
        rw [if_pos rfl] at hH
        simp only [linkAfter, List.getLast?_nil, setE, if_neg hya]
        rw [← hH]; simp [setE, hya]
    · -- insertion
      rename_i h0
      have hlt : compare v y.2 < 0 := by
        simp [sortedStop, h0] at hst; exact hst
      rw [hun, h3]
      simp only [Res.ok_bind]
      rw [fin_linked 0 hHa hfx hzx, if_neg hy0]
      have hcore : Core { s with
            heap := setE (linkAfter (setE s.heap a (v, 0)) s.head a xs).1 a (v, y.1)
            head := (linkAfter (setE s.heap a (v, 0)) s.head a xs).2
            tail := s.tail
            elements := s.elements + 1 } (xs ++ (a, v) :: y :: zs) := by
        refine ⟨?_, hnd' _ hnd hfr, ?_, ?_, ?_⟩
        · exact seg_link (ys := y :: zs) ha ⟨b, sx⟩ ⟨b, sy⟩ hnd hfr
        · simp at hc ⊢; omega
        · simp; omega
        · intro _
          simp only
          rw [h.tail rfl (by simp)]
          have e1 : (xs ++ (a, v) :: y :: zs).length - 1 = (xs ++ y :: zs).length - 1 + 1 := by
            simp; omega
          rw [e1, addrAt_insert_ge (by simp)]
      refine ⟨xs, y :: zs, none, _, rfl, rfl, h2, hcore, .inl ⟨rfl, rfl, by simpa using hlt, ?_⟩⟩
      refine ⟨hcore.seg, hcore.nodup, ?_, hcore.cnt, hcore.cap, fun _ => hcore.tail,
        hnext _ rfl, ?_⟩
      · refine dom_link (fun b hb hb' => ?_) (by intro b hb; simp at hb ⊢; exact .inl hb) (by simp)
        simp only [setE, if_neg hb] at hb'
        exact mem_ins (h.dom b hb')
      · unfold posInsert; simp at hpl ⊢; split <;> omega

end Wizard

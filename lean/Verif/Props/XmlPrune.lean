import Verif.Props.XmlTree
/-! C82 and C83: the chain of tags, and removing a child. -/
namespace Wizard.Props
open Wizard Wizard.XmlL Wizard.Spec.XmlTree

theorem beforeOrdered_spec (h : XmlHeap) (x : Nat) (r : List Nat) : ∀ (l : List Nat) (a fuel : Nat), Seg h.ordered (h.ordered a) (l ++ x :: r) none → x ∉ l →
    l.length < fuel → ∃ P y, a :: l = P ++ [y] ∧ beforeOrdered h x fuel a = .ok y := by
  intro l
  induction l with
  | nil =>
    intro a fuel hs _ hf
    obtain ⟨fuel, rfl⟩ : ∃ k, fuel = k + 1 := ⟨fuel - 1, by simp at hf; omega⟩
    refine ⟨[], a, rfl, ?_⟩
    rw [beforeOrdered, hs.1]
    simp
  | cons b l ih =>
    intro a fuel hs hx hf
    rw [List.length_cons] at hf
    obtain ⟨fuel, rfl⟩ : ∃ k, fuel = k + 1 := ⟨fuel - 1, by omega⟩
    obtain ⟨P, y, e1, e2⟩ := ih b fuel hs.2 (fun m => hx (List.mem_cons_of_mem _ m)) (by omega)
    refine ⟨a :: P, y, by rw [e1]; rfl, ?_⟩
    rw [beforeOrdered, hs.1]
    simp only []
    rw [if_neg (fun e => hx (by rw [e]; exact List.mem_cons_self ..)), e2]

theorem beforeNext_found (next : Nat → Option Nat) (x : Nat) (r : List Nat) : ∀ (l : List Nat) (a fuel : Nat), Seg next (next a) (l ++ x :: r) none → x ∉ l →
    l.length < fuel → ∃ P y, a :: l = P ++ [y] ∧ beforeNext next x fuel a = .ok y := by
  intro l
  induction l with
  | nil =>
    intro a fuel hs _ hf
    obtain ⟨fuel, rfl⟩ : ∃ k, fuel = k + 1 := ⟨fuel - 1, by simp at hf; omega⟩
    refine ⟨[], a, rfl, ?_⟩
    rw [beforeNext, hs.1]
    simp
  | cons b l ih =>
    intro a fuel hs hx hf
    rw [List.length_cons] at hf
    obtain ⟨fuel, rfl⟩ : ∃ k, fuel = k + 1 := ⟨fuel - 1, by omega⟩
    obtain ⟨P, y, e1, e2⟩ := ih b fuel hs.2 (fun m => hx (List.mem_cons_of_mem _ m)) (by omega)
    refine ⟨a :: P, y, by rw [e1]; rfl, ?_⟩
    rw [beforeNext, hs.1]
    simp only []
    rw [if_pos (fun e => hx (by rw [← e]; exact List.mem_cons_self ..)), e2]

theorem beforeNext_missing (next : Nat → Option Nat) (x : Nat) : ∀ (l : List Nat) (a fuel : Nat), Seg next (next a) l none → x ∉ l →
    l.length < fuel → ∃ y, beforeNext next x fuel a = .ok y ∧ next y = none := by
  intro l
  induction l with
  | nil =>
    intro a fuel hs _ hf
    obtain ⟨fuel, rfl⟩ : ∃ k, fuel = k + 1 := ⟨fuel - 1, by simp at hf; omega⟩
    refine ⟨a, ?_, hs⟩
    rw [beforeNext, (show next a = none from hs)]
  | cons b l ih =>
    intro a fuel hs hx hf
    rw [List.length_cons] at hf
    obtain ⟨fuel, rfl⟩ : ∃ k, fuel = k + 1 := ⟨fuel - 1, by omega⟩
    obtain ⟨y, e1, e2⟩ := ih b fuel hs.2 (fun m => hx (List.mem_cons_of_mem _ m)) (by omega)
    refine ⟨y, ?_, e2⟩
    rw [beforeNext, hs.1]
    simp only []
    rw [if_pos (fun e => hx (by rw [← e]; exact List.mem_cons_self ..)), e1]

theorem beforeTag_spec (sib : Nat → Option Nat) (tags : Nat → List Byte) (t : List Byte) (f : Nat) (hf : tags f = t) (e : Option Nat) : ∀ (l : List Nat) (a fuel : Nat),
    Seg sib (sib a) l (some f) → (∀ i ∈ l, tags i ≠ t) → l.length < fuel → ∃ P y, a :: l = P ++ [y] ∧ beforeTag sib tags t fuel a = .ok y ∧ sib y = some f := by
  intro l
  induction l with
  | nil =>
    intro a fuel hs _ hfu
    obtain ⟨fuel, rfl⟩ : ∃ k, fuel = k + 1 := ⟨fuel - 1, by simp at hfu; omega⟩
    have hs : sib a = some f := hs
    refine ⟨[], a, rfl, ?_, hs⟩
    rw [beforeTag, hs]
    simp [hf]
  | cons b l ih =>
    intro a fuel hs hx hfu
    rw [List.length_cons] at hfu
    obtain ⟨fuel, rfl⟩ : ∃ k, fuel = k + 1 := ⟨fuel - 1, by omega⟩
    obtain ⟨P, y, e1, e2, e3⟩ := ih b fuel hs.2 (fun i m => hx i (List.mem_cons_of_mem _ m)) (by omega)
    refine ⟨a :: P, y, by rw [e1]; rfl, ?_, e3⟩
    rw [beforeTag, hs.1]
    simp only []
    rw [if_pos (hx b (List.mem_cons_self ..)), e2]

/-- What a chain of tags has to be for `GetXMLTreeChild`. -/
def TagChain (h : XmlHeap) (p : Nat) (L S : List Nat) : Prop :=
  Seg h.sibling (h.child p) S none ∧ (∀ t, (byTag h t S).head? = (byTag h t L).head?) ∧ S.Nodup ∧ ∀ i ∈ S, i ∈ L

theorem byTag_append (h : XmlHeap) (t : List Byte) (a b : List Nat) : byTag h t (a ++ b) = byTag h t a ++ byTag h t b := List.filter_append ..

theorem byTag_cons (h : XmlHeap) (t : List Byte) (a : Nat) (b : List Nat) : byTag h t (a :: b) = if h.tag a = t then a :: byTag h t b else byTag h t b := by
  unfold byTag
  rw [List.filter_cons]
  by_cases e : h.tag a = t
  · rw [if_pos (by simpa using e), if_pos e]
  · rw [if_neg (by simpa using e), if_neg e]

theorem mem_byTag {h : XmlHeap} {t : List Byte} {l : List Nat} {i : Nat} : i ∈ byTag h t l ↔ i ∈ l ∧ h.tag i = t := by
  unfold byTag; rw [List.mem_filter]; simp

/-- Leaving the list of children with the same tag, from a node of that list before `x`. -/
theorem pruneNext_found {h : XmlHeap} {x f : Nat} {F1 F2 : List Nat} (hs : Seg h.next (some f) (f :: F1 ++ x :: F2) none) (hnd : (f :: F1 ++ x :: F2).Nodup)
    (hlen : F1.length < h.size + 1) : ∃ nxt, pruneNext h f x = .ok { h with next := nxt } ∧ Seg nxt (some f) (f :: F1 ++ F2) none ∧
      (∀ i, i ∉ f :: F1 → nxt i = h.next i) := by
  have hx : x ∉ f :: F1 := by
    rw [List.nodup_append] at hnd
    intro hm
    exact hnd.2.2 x hm x (List.mem_cons_self ..) rfl
  have hs' := hs
  rw [List.cons_append] at hs'
  obtain ⟨P, y, e1, e2⟩ := beforeNext_found h.next x F2 F1 f (h.size + 1) hs'.2 (fun m => hx (List.mem_cons_of_mem _ m)) hlen
  rw [e1, List.append_assoc, List.singleton_append] at hs hnd
  have hy : h.next y = some x := by
    obtain ⟨m, _, _, h3⟩ := (Seg_append h.next P (y :: x :: F2) _ _).1 hs
    exact h3.1
  refine ⟨upd h.next y (h.next x), ?_, ?_, ?_⟩
  · unfold pruneNext
    rw [e2, Res.ok_bind, hy]
  · rw [e1, List.append_assoc, List.singleton_append]
    exact Seg_remove hs hnd
  · intro i hi
    rw [upd_ne]
    intro e
    exact hi (by rw [e1, e]; simp)

/-- Leaving the list of children with the same tag: nothing to do. -/
theorem pruneNext_missing {h : XmlHeap} {x q : Nat} {G : List Nat} (hs : Seg h.next (h.next q) G none) (hx : x ∉ G) (hlen : G.length < h.size + 1) :
    pruneNext h q x = .ok h := by
  obtain ⟨y, e1, e2⟩ := beforeNext_missing h.next x G q (h.size + 1) hs hx hlen
  unfold pruneNext
  rw [e1, Res.ok_bind, e2]

/-- The list of tags and of children with the same tag, when a child that is not the first one leaves. -/
theorem pruneLists_spec {h : XmlHeap} {p x head : Nat} {L1 L2 S : List Nat} (hc : h.child p = some head) (hh : L1.head? = some head)
    (hsib0 : ∃ sib0, Seg sib0 (some head) S none ∧ h.sibling = patchNext sib0 (h.next x) (sib0 x))
    (nxt : ∀ t, Seg h.next (byTag h t (L1 ++ x :: L2)).head? (byTag h t (L1 ++ x :: L2)) none) (nd : (L1 ++ x :: L2).Nodup)
    (sl : S.Sublist (L1 ++ x :: L2)) (fst : ∀ t, (byTag h t S).head? = (byTag h t (L1 ++ x :: L2)).head?) (bd : ∀ i ∈ L1 ++ x :: L2, i < h.size) :
    ∃ sib' nxt', (do let r ← pruneSibling h head x; pruneNext r.1 r.2 x) = .ok { h with sibling := sib', next := nxt' } ∧
      (∀ t, Seg nxt' (byTag h t (L1 ++ L2)).head? (byTag h t (L1 ++ L2)) none) ∧
      (Firsts h (L1 ++ x :: L2) S → ∃ S', TagChain { h with sibling := sib', next := nxt' } p (L1 ++ L2) S' ∧ x ∉ S') ∧
      (∀ i, i ∉ L1 ++ x :: L2 → sib' i = h.sibling i ∧ nxt' i = h.next i) := by
  obtain ⟨sib0, hsib, hpatch⟩ := hsib0
  have hlen := nodup_length _ _ nd bd
  have snd : S.Nodup := nd.sublist sl
  have hxL : x ∉ L1 ∧ x ∉ L2 := by
    rw [List.nodup_append, List.nodup_cons] at nd
    exact ⟨fun m => nd.2.2 x m x (List.mem_cons_self ..) rfl, nd.2.1.1⟩
  obtain ⟨t, ht⟩ : ∃ t, t = h.tag x := ⟨_, rfl⟩
  have hF : byTag h t (L1 ++ x :: L2) = byTag h t L1 ++ x :: byTag h t L2 := by
    rw [byTag_append, byTag_cons, if_pos ht.symm]
  have hF' : ∀ t', t' ≠ t → byTag h t' (L1 ++ x :: L2) = byTag h t' (L1 ++ L2) := by
    intro t' ht'
    rw [byTag_append, byTag_append, byTag_cons, if_neg (by rw [← ht]; exact fun e => ht' e.symm)]
  have hFl : (byTag h t (L1 ++ x :: L2)).length ≤ h.size := Nat.le_trans (List.length_filter_le ..) hlen
  have hFnd : (byTag h t (L1 ++ x :: L2)).Nodup := nd.filter _
  have hFseg := nxt t
  rw [hF] at hFl hFnd hFseg
  have hxnext : h.next x = (byTag h t L2).head? := by
    obtain ⟨m, _, _, h3⟩ := (Seg_append h.next _ (x :: byTag h t L2) _ _).1 hFseg
    exact Seg_head h3
  have hheadL : head ∈ L1 := List.mem_of_mem_head? hh
  have hhx : head ≠ x := fun e => hxL.1 (e ▸ hheadL)
  -- the patch changes only the next child with the same tag
  have hp1 : ∀ i, (i ∈ byTag h t L2 → (byTag h t L2).head? ≠ some i) → h.sibling i = sib0 i := by
    intro i hi
    rw [hpatch, hxnext]
    cases hl : (byTag h t L2).head? with
    | none => rfl
    | some n =>
      show upd sib0 n _ i = _
      rw [upd_ne]
      intro e
      have : n ∈ byTag h t L2 := List.mem_of_mem_head? hl
      exact hi (e ▸ this) (by rw [e]; exact hl)
  have hp2 : ∀ i, i ∉ L1 ++ x :: L2 → h.sibling i = sib0 i := by
    intro i hi
    refine hp1 i (fun hm => absurd ?_ hi)
    simp [(mem_byTag.1 hm).1]
  have hp3 : ∀ i, h.tag i ≠ t → h.sibling i = sib0 i := fun i hi => hp1 i (fun hm => absurd (mem_byTag.1 hm).2 hi)
  -- after the walk has found a node of the list before `x`
  have found : ∀ f F1', byTag h t L1 = f :: F1' → ∃ nxt', pruneNext h f x = .ok { h with next := nxt' } ∧
      (∀ t', Seg nxt' (byTag h t' (L1 ++ L2)).head? (byTag h t' (L1 ++ L2)) none) ∧
      (Firsts h (L1 ++ x :: L2) S → ∃ S', TagChain { h with sibling := h.sibling, next := nxt' } p (L1 ++ L2) S' ∧ x ∉ S') ∧
      (∀ i, i ∉ L1 ++ x :: L2 → h.sibling i = h.sibling i ∧ nxt' i = h.next i) := by
    intro f F1' hf
    rw [hf] at hFseg hFnd hFl
    have hFseg : Seg h.next (some f) (f :: F1' ++ x :: byTag h t L2) none := by
      have := Seg_head hFseg
      rw [this] at hFseg; exact hFseg
    obtain ⟨nxt', n1, n2, n3⟩ := pruneNext_found hFseg hFnd (by simp at hFl; omega)
    refine ⟨nxt', n1, ?_, ?_, ?_⟩
    · intro t'
      by_cases e : t' = t
      · subst e
        rw [byTag_append, hf]
        exact n2
      · rw [← hF' t' e]
        refine Seg_congr ?_ (nxt t')
        intro i hi
        rw [n3]
        intro hm
        rw [← hf] at hm
        exact e ((mem_byTag.1 hi).2.symm.trans (mem_byTag.1 hm).2)
    · intro hFi
      have hhd : (byTag h t (L1 ++ x :: L2)).head? = some f := by rw [hF, hf]; rfl
      have only : ∀ i ∈ S, h.tag i = t → i = f := by
        intro i hi hti
        have := hFi i hi
        rw [hti, hhd] at this
        cases this; rfl
      have hfx : f ≠ x := by
        intro e
        have : f ∈ byTag h t L1 := by rw [hf]; exact List.mem_cons_self ..
        exact hxL.1 (e ▸ (mem_byTag.1 this).1)
      have hxS : x ∉ S := fun m => hfx (only x m ht.symm).symm
      refine ⟨S, ⟨?_, ?_, snd, ?_⟩, hxS⟩
      · show Seg h.sibling (h.child p) S none
        rw [hc]
        refine Seg_congr ?_ hsib
        intro i hi
        symm
        refine hp1 i (fun hm => ?_)
        have e : i = f := only i hi (mem_byTag.1 hm).2
        rw [List.nodup_append] at hFnd
        exact absurd rfl (hFnd.2.2 f (List.mem_cons_self ..) f (List.mem_cons_of_mem _ (e ▸ hm)))
      · intro t'
        show (byTag h t' S).head? = (byTag h t' (L1 ++ L2)).head?
        rw [fst]
        by_cases e : t' = t
        · subst e
          rw [hF, byTag_append, hf]; rfl
        · rw [hF' t' e]
      · intro i hi
        have := sl.subset hi
        rw [List.mem_append, List.mem_cons] at this
        rw [List.mem_append]
        rcases this with h1 | h1 | h1
        · exact Or.inl h1
        · exact absurd (h1 ▸ hi) hxS
        · exact Or.inr h1
    · intro i hi
      refine ⟨rfl, n3 i ?_⟩
      intro hm
      rw [← hf] at hm
      exact hi (by simp [(mem_byTag.1 hm).1])
  by_cases hht : h.tag head = t
  · -- the first child has the tag
    obtain ⟨l, hl⟩ : ∃ l, L1 = head :: l := by
      cases hl : L1 with
      | nil => rw [hl] at hh; cases hh
      | cons a l => rw [hl] at hh; cases hh; exact ⟨l, rfl⟩
    obtain ⟨nxt', a1, a2, a3, a4⟩ := found head (byTag h t l) (by rw [hl, byTag_cons, if_pos hht])
    refine ⟨h.sibling, nxt', ?_, a2, a3, a4⟩
    unfold pruneSibling
    rw [if_neg (by rw [hht, ht]; simp), Res.ok_bind]
    exact a1
  · -- the chain of tags up to the tag
    obtain ⟨f, hfhead⟩ : ∃ f, (byTag h t S).head? = some f := by
      rw [fst, hF]
      cases byTag h t L1 <;> exact ⟨_, rfl⟩
    obtain ⟨A, B, hS, hAt, hft⟩ : ∃ A B, S = A ++ f :: B ∧ (∀ i ∈ A, h.tag i ≠ t) ∧ h.tag f = t := by
      have : S.find? (fun i => h.tag i == t) = some f := by
        rw [← List.head?_filter]; exact hfhead
      rw [List.find?_eq_some_iff_append] at this
      obtain ⟨h1, A, B, h2, h3⟩ := this
      exact ⟨A, B, h2, fun i hi => by simpa using h3 i hi, by simpa using h1⟩
    obtain ⟨A', hA⟩ : ∃ A', A = head :: A' := by
      have hS' := Seg_head hsib
      rw [hS] at hS'
      cases A with
      | nil => simp at hS'; rw [hS'] at hht; exact absurd hft hht
      | cons a A' => simp at hS'; exact ⟨A', by rw [hS']⟩
    have hsibS := hsib
    rw [hS, Seg_append] at hsibS
    obtain ⟨m, m1, m2, m3⟩ := hsibS
    subst m2
    rw [hA] at m1
    have m1' : Seg h.sibling (h.sibling head) A' (some f) := by
      rw [hp3 head hht]
      refine Seg_congr ?_ m1.2
      intro i hi
      exact (hp3 i (hAt i (by rw [hA]; exact List.mem_cons_of_mem _ hi))).symm
    have hSlen : S.length ≤ h.size := Nat.le_trans sl.length_le hlen
    obtain ⟨P, q, q1, q2, q3⟩ := beforeTag_spec h.sibling h.tag t f hft none A' head (h.size + 1) m1' (fun i hi => hAt i (by rw [hA]; exact List.mem_cons_of_mem _ hi))
      (by rw [hS, hA] at hSlen; simp at hSlen; omega)
    have hqA : q ∈ A := by rw [hA, q1]; simp
    have hqt := hAt q hqA
    unfold pruneSibling
    rw [if_pos (by rw [← ht]; exact hht), ← ht, q2, Res.ok_bind, q3]
    simp only []
    by_cases hfx : f = x
    · -- `x` is the first child with its tag
      subst hfx
      have hF1 : byTag h t L1 = [] := by
        rw [fst, hF] at hfhead
        cases hl : byTag h t L1 with
        | nil => rfl
        | cons a r =>
          rw [hl] at hfhead
          simp at hfhead
          have : a ∈ byTag h t L1 := by rw [hl]; exact List.mem_cons_self ..
          exact absurd (hfhead ▸ (mem_byTag.1 this).1) hxL.1
      rw [if_neg (by simp), Res.ok_bind]
      simp only []
      have hqS : q ∈ S := by rw [hS]; exact List.mem_append_left _ hqA
      have hqL := sl.subset hqS
      obtain ⟨G1, G2, hG⟩ : ∃ G1 G2, byTag h (h.tag q) (L1 ++ f :: L2) = G1 ++ q :: G2 :=
        List.append_of_mem (mem_byTag.2 ⟨hqL, rfl⟩)
      have hG2 : Seg h.next (h.next q) G2 none := by
        have := nxt (h.tag q)
        rw [hG] at this
        obtain ⟨m, _, _, h3⟩ := (Seg_append h.next G1 (q :: G2) _ _).1 this
        exact h3
      have hGl : (byTag h (h.tag q) (L1 ++ f :: L2)).length ≤ h.size := Nat.le_trans (List.length_filter_le ..) hlen
      rw [hG, List.length_append, List.length_cons] at hGl
      have hfG : f ∉ G2 := by
        intro hm
        have : f ∈ byTag h (h.tag q) (L1 ++ f :: L2) := by rw [hG]; simp [hm]
        exact hqt ((mem_byTag.1 this).2.symm.trans hft)
      refine ⟨upd h.sibling q ((h.next f).or (h.sibling f)), h.next, ?_, ?_, ?_, ?_⟩
      · exact pruneNext_missing (h := { h with sibling := upd h.sibling q ((h.next f).or (h.sibling f)) }) hG2 hfG
          (by show G2.length < h.size + 1; omega)
      · intro t'
        by_cases e : t' = t
        · subst e
          rw [byTag_append, hF1, List.nil_append]
          rw [hF1, List.nil_append] at hFseg
          have := hFseg.2
          rw [hxnext] at this
          exact this
        · rw [← hF' t' e]; exact nxt t'
      · intro hFi
        have hBt : ∀ i ∈ B, h.tag i ≠ t := by
          intro i hi e
          have := hFi i (by rw [hS]; simp [hi])
          rw [e, ← fst, hfhead] at this
          cases this
          rw [hS, List.nodup_append, List.nodup_cons] at snd
          exact snd.2.1.1 hi
        have hSP : S = P ++ q :: f :: B := by rw [hS, hA, q1, List.append_assoc]; rfl
        rw [hSP] at hsib snd
        have hrem := Seg_remove hsib snd
        have hfS : f ∉ P ++ q :: B := by
          have s1 := (List.nodup_append.1 snd)
          rw [List.mem_append]
          rintro (hm | hm)
          · exact s1.2.2 f hm f (by simp) rfl
          · have s2 := s1.2.1
            rw [List.nodup_cons, List.nodup_cons] at s2
            rw [List.mem_cons] at hm
            rcases hm with e | hm
            · exact s2.1 (by rw [e]; simp)
            · exact s2.2.1 hm
        have hPBnd : (P ++ q :: B).Nodup := snd.sublist ((List.Sublist.refl _).append ((List.sublist_cons_self ..).cons_cons _))
        have hPBt : ∀ i ∈ P ++ q :: B, h.tag i ≠ t := by
          intro i hi
          rw [List.mem_append, List.mem_cons] at hi
          rcases hi with hi | hi | hi
          · exact hAt i (by rw [hA, q1]; simp [hi])
          · rw [hi]; exact hqt
          · exact hBt i hi
        have hPBL : ∀ i ∈ P ++ q :: B, i ∈ L1 ++ L2 := by
          intro i hi
          have hiS : i ∈ S := by
            rw [hSP]
            rw [List.mem_append, List.mem_cons] at hi ⊢
            rcases hi with hi | hi | hi
            · exact Or.inl hi
            · exact Or.inr (Or.inl hi)
            · exact Or.inr (Or.inr (List.mem_cons_of_mem _ hi))
          have := sl.subset hiS
          rw [List.mem_append, List.mem_cons] at this
          rw [List.mem_append]
          rcases this with h1 | h1 | h1
          · exact Or.inl h1
          · exact absurd (h1 ▸ hi) hfS
          · exact Or.inr h1
        have hfstPB : ∀ t', t' ≠ t → (byTag h t' (P ++ q :: B)).head? = (byTag h t' (L1 ++ L2)).head? := by
          intro t' e
          rw [← hF' t' e, ← fst, hSP]
          congr 1
          rw [byTag_append, byTag_append, byTag_cons, byTag_cons, byTag_cons, if_neg (show ¬ h.tag f = t' by rw [hft]; exact fun x => e x.symm)]
        have hPBnil : byTag h t (P ++ q :: B) = [] := by
          unfold byTag
          rw [List.filter_eq_nil_iff]
          intro i hi; simpa using hPBt i hi
        have hflt : byTag h t (L1 ++ L2) = byTag h t L2 := by rw [byTag_append, hF1, List.nil_append]
        cases hl : byTag h t L2 with
        | nil =>
          refine ⟨P ++ q :: B, ⟨?_, ?_, hPBnd, hPBL⟩, hfS⟩
          · show Seg (upd h.sibling q ((h.next f).or (h.sibling f))) (h.child p) (P ++ q :: B) none
            rw [hc, hxnext, hl]
            refine Seg_congr ?_ hrem
            intro i hi
            by_cases e : i = q
            · rw [e, upd_same, upd_same]
              exact (hp1 f (fun hm => by rw [hl] at hm; cases hm)).symm
            · rw [upd_ne _ _ e, upd_ne _ _ e]
              exact (hp3 i (hPBt i hi)).symm
          · intro t'
            show (byTag h t' (P ++ q :: B)).head? = (byTag h t' (L1 ++ L2)).head?
            by_cases e : t' = t
            · rw [e, hPBnil, hflt, hl]
            · exact hfstPB t' e
        | cons n r =>
          have hnm : n ∈ byTag h t L2 := by rw [hl]; exact List.mem_cons_self ..
          have hnt := (mem_byTag.1 hnm).2
          have hnPB : n ∉ P ++ q :: B := fun m => hPBt n m hnt
          have hnf : n ≠ f := fun e => hxL.2 (e ▸ (mem_byTag.1 hnm).1)
          have hins := Seg_insert hrem hPBnd hnPB
          refine ⟨P ++ q :: n :: B, ⟨?_, ?_, ?_, ?_⟩, ?_⟩
          · show Seg (upd h.sibling q ((h.next f).or (h.sibling f))) (h.child p) (P ++ q :: n :: B) none
            rw [hc, hxnext, hl]
            refine Seg_congr ?_ hins
            intro i hi
            by_cases e : i = q
            · rw [e, upd_same, upd_same]; rfl
            · rw [upd_ne _ _ e, upd_ne _ _ e]
              by_cases e2 : i = n
              · rw [e2, upd_same, upd_same, hpatch, hxnext, hl]
                show sib0 f = upd sib0 n (sib0 f) n
                rw [upd_same]
              · rw [upd_ne _ _ e2, upd_ne _ _ e]
                refine (hp1 i (fun _ hx => ?_)).symm
                rw [hl] at hx; cases hx; exact e2 rfl
          · intro t'
            show (byTag h t' (P ++ q :: n :: B)).head? = (byTag h t' (L1 ++ L2)).head?
            by_cases e : t' = t
            · rw [e, hflt, hl, byTag_append, byTag_cons, byTag_cons, if_pos hnt, if_neg hqt]
              have : byTag h t P = [] := by
                rw [byTag_append] at hPBnil
                exact (List.append_eq_nil_iff.1 hPBnil).1
              rw [this]; rfl
            · rw [← hfstPB t' e]
              congr 1
              rw [byTag_append, byTag_append, byTag_cons, byTag_cons, byTag_cons, if_neg (show ¬ h.tag n = t' by rw [hnt]; exact fun x => e x.symm)]
          · have hq : P ++ q :: n :: B = (P ++ [q]) ++ n :: B := by simp
            have hq2 : P ++ q :: B = (P ++ [q]) ++ B := by simp
            rw [hq, List.nodup_append, List.nodup_cons]
            rw [hq2, List.nodup_append] at hPBnd
            rw [hq2, List.mem_append] at hnPB
            refine ⟨hPBnd.1, ⟨fun m => hnPB (Or.inr m), hPBnd.2.1⟩, ?_⟩
            intro a ha b hb
            rw [List.mem_cons] at hb
            rcases hb with rfl | hb
            · intro e; exact hnPB (Or.inl (e ▸ ha))
            · exact hPBnd.2.2 a ha b hb
          · intro i hi
            have : i = n ∨ i ∈ P ++ q :: B := by
              rw [List.mem_append, List.mem_cons, List.mem_cons] at hi
              rw [List.mem_append, List.mem_cons]
              rcases hi with h1 | h1 | h1 | h1
              · exact Or.inr (Or.inl h1)
              · exact Or.inr (Or.inr (Or.inl h1))
              · exact Or.inl h1
              · exact Or.inr (Or.inr (Or.inr h1))
            rcases this with e | hm
            · rw [e, List.mem_append]; exact Or.inr (mem_byTag.1 hnm).1
            · exact hPBL i hm
          · intro hi
            have : f = n ∨ f ∈ P ++ q :: B := by
              rw [List.mem_append, List.mem_cons, List.mem_cons] at hi
              rw [List.mem_append, List.mem_cons]
              rcases hi with h1 | h1 | h1 | h1
              · exact Or.inr (Or.inl h1)
              · exact Or.inr (Or.inr (Or.inl h1))
              · exact Or.inl h1
              · exact Or.inr (Or.inr (Or.inr h1))
            rcases this with e | hm
            · exact hnf e.symm
            · exact hfS hm
      · intro i hi
        refine ⟨?_, rfl⟩
        rw [upd_ne]
        intro e; exact hi (e ▸ hqL)
    · -- another child with the tag is before `x`
      rw [if_pos hfx, Res.ok_bind]
      simp only []
      obtain ⟨F1', hF1⟩ : ∃ F1', byTag h t L1 = f :: F1' := by
        rw [fst, hF] at hfhead
        cases hl : byTag h t L1 with
        | nil => rw [hl] at hfhead; simp at hfhead; exact absurd hfhead.symm hfx
        | cons a r => rw [hl] at hfhead; simp at hfhead; exact ⟨r, by rw [hfhead]⟩
      obtain ⟨nxt', a1, a2, a3, a4⟩ := found f F1' hF1
      exact ⟨h.sibling, nxt', a1, a2, a3, a4⟩

theorem sublist_head {b : Nat} {B l : List Nat} (h : B.Sublist (b :: l)) (hb : b ∈ B) (hnd : (b :: l).Nodup) : B.head? = some b := by
  cases h with
  | cons _ h => exact absurd (h.subset hb) (List.nodup_cons.1 hnd).1
  | cons_cons _ h => rfl

/-- `PruneTagFromXMLTree` of a child. -/
theorem pruneTag_spec {h : XmlHeap} {p x : Nat} {L1 L2 S : List Nat} (k : Kids h p (L1 ++ x :: L2) S) (hpar : h.parent x = some p) :
    ∃ h', pruneTag h x = .ok h' ∧ h'.size = h.size ∧ h'.tag = h.tag ∧ Seg h'.ordered (h'.child p) (L1 ++ L2) none ∧
      (∀ t, Seg h'.next (byTag h t (L1 ++ L2)).head? (byTag h t (L1 ++ L2)) none) ∧
      (Firsts h (L1 ++ x :: L2) S → (L1 ≠ [] ∨ byTag h (h.tag x) L2 = []) → ∃ S', TagChain h' p (L1 ++ L2) S') ∧
      (∀ q, q ≠ p → h'.child q = h.child q) ∧
      (∀ i, i ∉ L1 ++ x :: L2 → h'.ordered i = h.ordered i ∧ h'.sibling i = h.sibling i ∧ h'.next i = h.next i) := by
  have nd := k.nd
  have hxL : x ∉ L1 ++ L2 := by
    rw [List.nodup_append, List.nodup_cons] at nd
    rw [List.mem_append]
    rintro (m | m)
    · exact nd.2.2 x m x (List.mem_cons_self ..) rfl
    · exact nd.2.1.1 m
  have hne : ∀ i ∈ L1 ++ L2, i ≠ x := fun i hi e => hxL (e ▸ hi)
  have hnx : ∀ i, i ∉ L1 ++ x :: L2 → i ≠ x := fun i hi e => hi (by rw [e]; simp)
  have hpn : ∀ i, i ∉ L1 ++ x :: L2 → patchNext h.sibling (h.next x) (h.sibling x) i = h.sibling i := by
    intro i hi
    have hF : byTag h (h.tag x) (L1 ++ x :: L2) = byTag h (h.tag x) L1 ++ x :: byTag h (h.tag x) L2 := by
      rw [byTag_append, byTag_cons, if_pos rfl]
    have hs := k.nxt (h.tag x)
    rw [hF] at hs
    have hxn : h.next x = (byTag h (h.tag x) L2).head? := by
      obtain ⟨m, _, _, h3⟩ := (Seg_append h.next _ (x :: byTag h (h.tag x) L2) _ _).1 hs
      exact Seg_head h3
    rw [hxn]
    cases hl : (byTag h (h.tag x) L2).head? with
    | none => rfl
    | some n =>
      show upd h.sibling n _ i = _
      rw [upd_ne]
      intro e
      have := List.mem_of_mem_head? hl
      exact hi (by rw [e]; simp [(mem_byTag.1 this).1])
  cases hL1 : L1 with
  | nil =>
    subst hL1
    rw [List.nil_append] at k hxL hne
    have hch : h.child p = some x := k.ord.1
    refine ⟨{ h with sibling := upd (patchNext h.sibling (h.next x) (h.sibling x)) x none, child := upd h.child p (h.ordered x), ordered := upd h.ordered x none, next := upd h.next x none },
      ?_, ?_, ?_, ?_, ?_, ?_, ?_, ?_⟩
    · unfold pruneTag pruneParent pruneFrom
      simp only [hpar, hch]
      rw [if_true, Res.ok_bind]
    · rfl
    · rfl
    · show Seg (upd h.ordered x none) (upd h.child p (h.ordered x) p) L2 none
      rw [upd_same]
      exact Seg_congr (fun i hi => (upd_ne _ _ (hne i hi)).symm) k.ord.2
    · intro t
      show Seg (upd h.next x none) (byTag h t L2).head? (byTag h t L2) none
      refine Seg_congr (f := h.next) (fun i hi => (upd_ne _ _ (hne i (mem_byTag.1 hi).1)).symm) ?_
      have := k.nxt t
      rw [byTag_cons] at this
      by_cases e : h.tag x = t
      · rw [if_pos e] at this
        have h2 := this.2
        rw [Seg_head h2] at h2
        exact h2
      · rw [if_neg e] at this; exact this
    · intro hFi hcond
      have hnil : byTag h (h.tag x) L2 = [] := by
        rcases hcond with e | e
        · exact absurd rfl e
        · exact e
      have hsib := k.sib
      rw [hch] at hsib
      obtain ⟨B, rfl⟩ : ∃ B, S = x :: B := by
        cases S with
        | nil => cases hsib
        | cons a B => have := hsib.1; simp at this; exact ⟨B, by rw [this]⟩
      have hxn : h.next x = none := by
        have := k.nxt (h.tag x)
        rw [byTag_cons, if_pos rfl, hnil] at this
        exact this.2
      have hBL : B.Sublist L2 := by
        have := k.sl
        exact List.cons_sublist_cons.1 this
      have hBx : x ∉ B := fun m => hxL (hBL.subset m)
      have hBt : ∀ i ∈ B, h.tag i ≠ h.tag x := by
        intro i hi e
        have : i ∈ byTag h (h.tag x) L2 := mem_byTag.2 ⟨hBL.subset hi, e⟩
        rw [hnil] at this; cases this
      have hfst : ∀ t, (byTag h t B).head? = (byTag h t L2).head? := by
        intro t
        have := k.fst t
        rw [byTag_cons, byTag_cons] at this
        by_cases e : h.tag x = t
        · subst e
          rw [hnil]
          have : byTag h (h.tag x) B = [] := by
            unfold byTag
            rw [List.filter_eq_nil_iff]
            intro i hi; simpa using hBt i hi
          rw [this]
        · rw [if_neg e, if_neg e] at this; exact this
      have hhead : h.ordered x = h.sibling x := by
        rw [Seg_head hsib.2, Seg_head k.ord.2]
        cases hl : L2 with
        | nil => rw [hl] at hBL; rw [List.sublist_nil.1 hBL]
        | cons b l =>
          have hb : b ∈ B := by
            have := hfst (h.tag b)
            rw [hl, byTag_cons, if_pos rfl] at this
            exact (mem_byTag.1 (List.mem_of_mem_head? this)).1
          rw [hl] at hBL
          have nd' := k.nd
          rw [hl, List.nodup_cons] at nd'
          rw [sublist_head hBL hb nd'.2]; rfl
      refine ⟨B, ?_, hfst, (k.nd.sublist k.sl).sublist (List.sublist_cons_self ..), fun i hi => hBL.subset hi⟩
      show Seg (upd (patchNext h.sibling (h.next x) (h.sibling x)) x none) (upd h.child p (h.ordered x) p) B none
      rw [upd_same, hhead, hxn]
      exact Seg_congr (fun i hi => (upd_ne _ _ (fun e => hBx (by rw [← e]; exact hi))).symm) hsib.2
    · intro q hq
      exact upd_ne _ _ hq
    · intro i hi
      exact ⟨upd_ne _ _ (hnx i hi), (upd_ne _ _ (hnx i hi)).trans (hpn i hi), upd_ne _ _ (hnx i hi)⟩
  | cons head l =>
    have hch : h.child p = some head := by
      have := Seg_head k.ord
      rw [this, hL1]; rfl
    have hhx : head ≠ x := hne head (by rw [hL1]; simp)
    have hord := k.ord
    rw [hch, hL1, List.cons_append] at hord
    have hlen := k.len
    rw [hL1] at hlen
    simp only [List.length_append, List.length_cons] at hlen
    obtain ⟨P, y, e1, e2⟩ := beforeOrdered_spec h x L2 l head (h.size + 1) hord.2 (fun m => hxL (by rw [hL1]; simp [m])) (by omega)
    have hord2 : Seg h.ordered (some head) (P ++ y :: x :: L2) none := by
      have : P ++ y :: x :: L2 = head :: (l ++ x :: L2) := by
        rw [← List.cons_append, e1]; simp
      rw [this]; exact hord
    have nd2 : (P ++ y :: x :: L2).Nodup := by
      have : P ++ y :: x :: L2 = L1 ++ x :: L2 := by rw [hL1, e1]; simp
      rw [this]; exact nd
    have hrem := Seg_remove hord2 nd2
    have hyL : y ∈ L1 := by rw [hL1, e1]; simp
    obtain ⟨h2, hh2⟩ : ∃ h2 : XmlHeap, h2 = { h with sibling := patchNext h.sibling (h.next x) (h.sibling x), ordered := upd h.ordered y (h.ordered x) } := ⟨_, rfl⟩
    have hsib := k.sib
    rw [hch] at hsib
    obtain ⟨sib', nxt', r1, r2, r3, r4⟩ := pruneLists_spec (h := h2) (p := p) (x := x) (head := head) (L1 := L1) (L2 := L2) (S := S) (by rw [hh2]; exact hch) (by rw [hL1]; rfl)
      ⟨h.sibling, hsib, by rw [hh2]⟩ (by rw [hh2]; exact k.nxt) nd k.sl (by rw [hh2]; exact k.fst) (by rw [hh2]; exact k.bd)
    rw [← hL1]
    refine ⟨{ h2 with sibling := upd sib' x none, next := upd nxt' x none, ordered := upd h2.ordered x none }, ?_, by rw [hh2], by rw [hh2], ?_, ?_, ?_, ?_, ?_⟩
    · unfold pruneTag pruneParent pruneFrom
      simp only [hpar, hch]
      rw [if_neg hhx]
      have eb : ∀ (sb : Nat → Option Nat) f a, beforeOrdered { h with sibling := sb } x f a = beforeOrdered h x f a := by
        intro sb f
        induction f with
        | zero => intro a; rfl
        | succ f ih =>
          intro a
          rw [beforeOrdered, beforeOrdered]
          simp only [ih]
      rw [eb, e2, Res.ok_bind]
      have : (do let r ← pruneSibling h2 head x; pruneNext r.1 r.2 x) = Res.ok { h2 with sibling := sib', next := nxt' } := r1
      rw [hh2] at this ⊢
      simp only [this, Res.ok_bind]
    · show Seg (upd h2.ordered x none) (h2.child p) (L1 ++ L2) none
      have e3 : L1 ++ L2 = P ++ y :: L2 := by rw [hL1, e1]; simp
      rw [hh2]
      show Seg (upd (upd h.ordered y (h.ordered x)) x none) (h.child p) (L1 ++ L2) none
      rw [hch]
      refine Seg_congr (f := upd h.ordered y (h.ordered x)) (fun i hi => (upd_ne _ _ (hne i hi)).symm) ?_
      rw [e3]; exact hrem
    · intro t
      have := r2 t
      have eb : byTag h2 t (L1 ++ L2) = byTag h t (L1 ++ L2) := by rw [hh2]; rfl
      rw [eb] at this
      show Seg (upd nxt' x none) _ _ none
      exact Seg_congr (fun i hi => (upd_ne _ _ (hne i (mem_byTag.1 hi).1)).symm) this
    · intro hFi _
      obtain ⟨S', ⟨t1, t2, t3, t4⟩, t5⟩ := r3 (by rw [hh2]; exact hFi)
      refine ⟨S', ?_, ?_, t3, t4⟩
      · show Seg (upd sib' x none) (h2.child p) S' none
        exact Seg_congr (fun i hi => (upd_ne _ _ (fun e => t5 (by rw [← e]; exact hi))).symm) t1
      · exact t2
    · intro q _
      rw [hh2]
    · intro i hi
      have hiy : i ≠ y := fun e => hi (by rw [e]; exact List.mem_append_left _ hyL)
      refine ⟨?_, ?_, ?_⟩
      · show upd h2.ordered x none i = h.ordered i
        rw [upd_ne _ _ (hnx i hi), hh2]
        exact upd_ne _ _ hiy
      · show upd sib' x none i = h.sibling i
        rw [upd_ne _ _ (hnx i hi), (r4 i hi).1, hh2]
        exact hpn i hi
      · show upd nxt' x none i = h.next i
        rw [upd_ne _ _ (hnx i hi), (r4 i hi).2, hh2]

theorem filter_first {L S : List Nat} (q : Nat → Bool) (hs : S.Sublist L) (hnd : L.Nodup) (hq : ∀ i ∈ L, q i = true ↔ i ∈ S) : S = L.filter q := by
  induction hs with
  | slnil => rfl
  | @cons S L a hs ih =>
    rw [List.nodup_cons] at hnd
    have ha : ¬ q a = true := by
      rw [hq a (List.mem_cons_self ..)]
      exact fun m => hnd.1 (hs.subset m)
    rw [List.filter_cons, if_neg ha]
    exact ih hnd.2 (fun i hi => hq i (List.mem_cons_of_mem _ hi))
  | @cons_cons S L a hs ih =>
    rw [List.nodup_cons] at hnd
    rw [List.filter_cons, if_pos ((hq a (List.mem_cons_self ..)).2 (List.mem_cons_self ..))]
    congr 1
    refine ih hnd.2 (fun i hi => ?_)
    rw [hq i (List.mem_cons_of_mem _ hi), List.mem_cons]
    constructor
    · rintro (e | m)
      · exact absurd (e ▸ hi) hnd.1
      · exact m
    · exact Or.inr

/-- The children of a node were attached in document order. -/
def InOrder (s : Past) (p : Nat) : Prop := (s.attached p).Pairwise (fun a b => a.2 ≤ b.2)

/-- **C82** for nodes whose children were attached in document order, as a parser attaches them: after every such history, following
`GetXMLTreeSibling` from the first child lists, for every tag that occurs among the children, exactly the first child with that tag, in
document order.  What is missing is any other order of attaching: `C82_siblings_violated`. -/
theorem C82_siblings_partial (ops : List XmlOp) (ha : Past.start.AllAllowed ops) (p : Nat) (ho : InOrder (Past.start.run ops) p) :
    ∃ h L, xmlRun XmlHeap.empty ops = .ok h ∧ listChildren h p = .ok L ∧
      listSiblings h p = .ok (L.filter (fun i => L.find? (fun j => (Past.start.run ops).tags[j]? == (Past.start.run ops).tags[i]?) == some i)) := by
  obtain ⟨h, e, f⟩ := forest_run ops _ _ forest_empty ha
  obtain ⟨L, S, k, d, F⟩ := f.kids p
  have hF := F ho
  refine ⟨h, L, e, kids_list k, ?_⟩
  have hS : listSiblings h p = .ok S := follow_spec _ _ _ _ k.sib (Nat.lt_succ_of_le k.slen)
  rw [hS]
  congr 1
  refine filter_first _ k.sl k.nd ?_
  intro i hi
  have hfind : L.find? (fun j => (Past.start.run ops).tags[j]? == (Past.start.run ops).tags[i]?) = (byTag h (h.tag i) L).head? := by
    unfold byTag
    rw [List.head?_filter]
    have e : ∀ l : List Nat, (∀ j ∈ l, j ∈ L) → l.find? (fun j => (Past.start.run ops).tags[j]? == (Past.start.run ops).tags[i]?) = l.find? (fun j => h.tag j == h.tag i) := by
      intro l
      induction l with
      | nil => intro _; rfl
      | cons a l ih =>
        intro hl
        rw [List.find?_cons, List.find?_cons, ih (fun j hj => hl j (List.mem_cons_of_mem _ hj)), f.tags a (k.bd a (hl a (List.mem_cons_self ..))), f.tags i (k.bd i hi)]
        have : (some (h.tag a) == some (h.tag i)) = (h.tag a == h.tag i) := by
          by_cases x : h.tag a = h.tag i
          · simp [x]
          · simp [x]
        rw [this]
    exact e L (fun _ hj => hj)
  rw [hfind, beq_iff_eq]
  constructor
  · intro hq
    have h1 := k.fst (h.tag i)
    rw [hq] at h1
    exact (mem_byTag.1 (List.mem_of_mem_head? h1)).1
  · exact fun hS => hF i hS

/-- **C82 is false** when a child is attached before the first child and has its tag: the old first child stays in the chain, so the
chain has two nodes with the same tag.  True for every tag. -/
theorem C82_siblings_violated (root t : List Byte) :
    let s := xmlRun XmlHeap.empty [.newTag root, .add 0 t 5, .add 0 t 0]
    (do listSiblings (← s) 0) = .ok [2, 1] ∧ (do let h ← s; .ok (h.tag 2, h.tag 1)) = .ok (t, t) := by
  intro s
  refine ⟨?_, ?_⟩ <;>
  simp [s, listSiblings, follow, xmlRun, xmlStep, newNode, addChild, insertTag, insertOrdered, insertSame, findTag, insertFirst, dropFirst, siblingSpot, upd, XmlHeap.empty, Res.ok_bind]

/-- The state after a history, seen from a child `x` of `p`. -/
theorem prune_state (ops : List XmlOp) (ha : Past.start.AllAllowed ops) (p x o : Nat) (hx : (p, x, o) ∈ (Past.start.run ops).log) :
    ∃ h L1 L2 S, xmlRun XmlHeap.empty ops = .ok h ∧ Forest h (Past.start.run ops) ∧ Kids h p (L1 ++ x :: L2) S ∧ h.parent x = some p ∧
      (InOrder (Past.start.run ops) p → Firsts h (L1 ++ x :: L2) S) ∧ DocumentOrder ((Past.start.run ops).attached p) ((L1 ++ x :: L2).map (fun i => (i, h.offset i))) := by
  obtain ⟨h, e, f⟩ := forest_run ops _ _ forest_empty ha
  obtain ⟨L, S, k, d, F⟩ := f.kids p
  have hxL : x ∈ L := by
    have h1 : (x, o) ∈ L.map (fun i => (i, h.offset i)) := (docOrder_mem d _).2 (mem_attached.2 hx)
    obtain ⟨i, hi, e⟩ := List.mem_map.1 h1
    cases e; exact hi
  obtain ⟨L1, L2, rfl⟩ := List.append_of_mem hxL
  exact ⟨h, L1, L2, S, e, f, k, f.up _ hx, F, d⟩

theorem erase_mid {L1 L2 : List Nat} {x : Nat} (hnd : (L1 ++ x :: L2).Nodup) : (L1 ++ x :: L2).erase x = L1 ++ L2 := by
  have hx : x ∉ L1 := by
    rw [List.nodup_append] at hnd
    exact fun m => hnd.2.2 x m x (List.mem_cons_self ..) rfl
  rw [List.erase_append_right _ hx, List.erase_cons_head]

/-- **C83** for traversals in document order: after every history, pruning any child of any node works, the children of that node in
document order are the others in the same order, and the children of every other node are what they were.  What is missing is the
traversal by tag: see `C83_tags_partial` and the counterexamples. -/
theorem C83_order_partial (ops : List XmlOp) (ha : Past.start.AllAllowed ops) (p x o : Nat) (hx : (p, x, o) ∈ (Past.start.run ops).log) :
    ∃ h L h', xmlRun XmlHeap.empty ops = .ok h ∧ listChildren h p = .ok L ∧ pruneTag h x = .ok h' ∧ listChildren h' p = .ok (L.erase x) ∧
      ∀ q, q ≠ p → listChildren h' q = listChildren h q := by
  obtain ⟨h, L1, L2, S, e, f, k, hpar, _, d⟩ := prune_state ops ha p x o hx
  obtain ⟨h', c1, c2, c3, c4, c5, c6, c7, c8⟩ := pruneTag_spec k hpar
  refine ⟨h, _, h', e, kids_list k, c1, ?_, ?_⟩
  · rw [erase_mid k.nd]
    have := k.len
    simp only [List.length_append, List.length_cons] at this
    exact follow_spec _ _ _ _ c4 (by rw [List.length_append, c2]; omega)
  · intro q hq
    obtain ⟨L', S', k', d', _⟩ := f.kids q
    rw [kids_list k']
    refine follow_spec _ _ _ _ ?_ (by rw [c2]; exact Nat.lt_succ_of_le k'.len)
    rw [c7 q hq]
    refine Seg_congr ?_ k'.ord
    intro i hi
    refine (c8 i (fun hm => ?_)).1.symm
    have a1 := kid_logged d' hi
    have a2 := kid_logged d hm
    have := nodup_map_inj f.once a1 a2 rfl
    exact hq (congrArg Prod.fst this)

/-- **C83** for traversals by tag, for nodes whose children were attached in document order: pruning a child that is not the first
child, or that is the only child with its tag, leaves for every tag exactly the other children with that tag, in the same order.
What is missing: `C83_lost_violated` (the first child, when others have its tag) and `C83_hidden_violated` (other orders of attaching). -/
theorem C83_tags_partial (ops : List XmlOp) (ha : Past.start.AllAllowed ops) (p x o : Nat) (hx : (p, x, o) ∈ (Past.start.run ops).log)
    (ho : InOrder (Past.start.run ops) p)
    (hcond : ∀ h L, xmlRun XmlHeap.empty ops = .ok h → listChildren h p = .ok L →
      L.head? ≠ some x ∨ ∀ i ∈ L, i ≠ x → (Past.start.run ops).tags[i]? ≠ (Past.start.run ops).tags[x]?) :
    ∃ h L h', xmlRun XmlHeap.empty ops = .ok h ∧ listChildren h p = .ok L ∧ pruneTag h x = .ok h' ∧
      ∀ tag, listTag h' p tag = .ok ((L.erase x).filter (fun i => (Past.start.run ops).tags[i]? == some tag)) := by
  obtain ⟨h, L1, L2, S, e, f, k, hpar, F, d⟩ := prune_state ops ha p x o hx
  obtain ⟨h', c1, c2, c3, c4, c5, c6, c7, c8⟩ := pruneTag_spec k hpar
  have hxs : x < h.size := k.bd x (by simp)
  have hnd := k.nd
  have hcond' : L1 ≠ [] ∨ byTag h (h.tag x) L2 = [] := by
    rcases hcond h _ e (kids_list k) with hc | hc
    · left
      intro hn; rw [hn] at hc; exact hc rfl
    · right
      unfold byTag
      rw [List.filter_eq_nil_iff]
      intro i hi
      have hix : i ≠ x := by
        intro ee
        rw [List.nodup_append, List.nodup_cons] at hnd
        exact hnd.2.1.1 (ee ▸ hi)
      have hiL : i ∈ L1 ++ x :: L2 := by simp [hi]
      have := hc i hiL hix
      rw [f.tags i (k.bd i hiL), f.tags x hxs] at this
      intro ee
      exact this (by simpa using ee)
  obtain ⟨S', t1, t2, t3, t4⟩ := c6 (F ho) hcond'
  refine ⟨h, _, h', e, kids_list k, c1, ?_⟩
  intro tag
  have hb : ∀ i ∈ L1 ++ L2, i < h.size := by
    intro i hi
    refine k.bd i ?_
    rw [List.mem_append] at hi
    rw [List.mem_append, List.mem_cons]
    rcases hi with hi | hi
    · exact Or.inl hi
    · exact Or.inr (Or.inr hi)
  have hS'len : S'.length < h'.size + 1 := by
    have := nodup_length _ _ t3 (fun i hi => hb i (t4 i hi))
    rw [c2]; omega
  have hlen := k.len
  simp only [List.length_append, List.length_cons] at hlen
  unfold listTag getChild
  rw [findTag_spec h'.sibling h'.tag tag S' _ none _ t1 hS'len, Res.ok_bind]
  simp only [Res.ok_bind]
  rw [head_filter_dropWhile]
  have e1 : (S'.filter (fun i => h'.tag i == tag)).head? = (byTag h' tag S').head? := rfl
  have e2 : byTag h' tag (L1 ++ L2) = byTag h tag (L1 ++ L2) := by unfold byTag; rw [c3]
  rw [e1, t2 tag, e2, erase_mid k.nd]
  rw [follow_spec _ _ _ _ (c5 tag) (by rw [c2]; exact Nat.lt_succ_of_le (Nat.le_trans (List.length_filter_le ..) (by rw [List.length_append]; omega)))]
  congr 1
  apply List.filter_congr
  intro i hi
  rw [f.tags i (hb i hi)]
  simp

/-- A history, then one prune. -/
def afterPrune (ops : List XmlOp) (x : Nat) : Res XmlHeap := do
  let h ← xmlRun XmlHeap.empty ops
  pruneTag h x

/-- **C83 is false** for the first child: with children `t`, `u`, `t` in document order, pruning the first leaves a child with tag `t`
that is still there in document order, but that `GetXMLTreeChild` no longer finds; pruning it too dereferences a NULL pointer.  True
for all tags `t` and `u` that differ. -/
theorem C83_lost_violated (root t u : List Byte) (htu : t ≠ u) :
    let s := afterPrune [.newTag root, .add 0 t 0, .add 0 u 1, .add 0 t 2] 1
    (do listChildren (← s) 0) = .ok [2, 3] ∧ (do let h ← s; .ok (h.tag 3)) = .ok t ∧ (do getChild (← s) 0 t) = .ok none ∧ (do pruneTag (← s) 3) = .ub := by
  have hut : u ≠ t := fun e => htu e.symm
  intro s
  refine ⟨?_, ?_, ?_, ?_⟩ <;>
  simp [s, afterPrune, listChildren, getChild, follow, xmlRun, xmlStep, newNode, addChild, insertTag, insertOrdered, insertSame, findTag, insertFirst, insertNext, lastLE, dropFirst, siblingSpot, upd,
    XmlHeap.empty, pruneTag, pruneParent, pruneFrom, patchNext, pruneSibling, beforeOrdered, beforeTag, htu, hut, Res.ok_bind] <;> rfl

/-- **C83 is false** when children are attached in another order: `t` at 5, `u` at 6, `t` at 0, `t` at 3; pruning the child at 3
hides the child with tag `u`, which is still there in document order, from `GetXMLTreeChild`.  True for all tags that differ. -/
theorem C83_hidden_violated (root t u : List Byte) (htu : t ≠ u) :
    let s := afterPrune [.newTag root, .add 0 t 5, .add 0 u 6, .add 0 t 0, .add 0 t 3] 4
    (do listChildren (← s) 0) = .ok [3, 1, 2] ∧ (do let h ← s; .ok (h.tag 2)) = .ok u ∧ (do getChild (← s) 0 u) = .ok none := by
  have hut : u ≠ t := fun e => htu e.symm
  intro s
  refine ⟨?_, ?_, ?_⟩ <;>
  simp [s, afterPrune, listChildren, getChild, follow, xmlRun, xmlStep, newNode, addChild, insertTag, insertOrdered, insertSame, findTag, insertFirst, insertNext, lastLE, dropFirst, siblingSpot, upd,
    XmlHeap.empty, pruneTag, pruneParent, pruneFrom, patchNext, pruneSibling, pruneNext, beforeOrdered, beforeTag, beforeNext, htu, hut, Res.ok_bind]

-- hypotheses met: children a@0 b@1 a@2 of the root, prune the second
def pruneOps : List XmlOp := [.newTag [114], .add 0 [97] 0, .add 0 [98] 1, .add 0 [97] 2]

example : Past.start.AllAllowed pruneOps ∧ (0, 2, 1) ∈ (Past.start.run pruneOps).log ∧ InOrder (Past.start.run pruneOps) 0 := by
  refine ⟨?_, by decide, ?_⟩
  · simp [pruneOps, Past.AllAllowed, Past.Allowed, Past.start, Past.step]
  · simp [InOrder, pruneOps, Past.run, Past.start, Past.step, Past.attached]

example : (xmlRun XmlHeap.empty pruneOps).bind (fun h => listChildren h 0) = .ok [1, 2, 3] ∧
    (afterPrune pruneOps 2).bind (fun h => listTag h 0 [97]) = .ok [1, 3] := by decide

end Wizard.Props

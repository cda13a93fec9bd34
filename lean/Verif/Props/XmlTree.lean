import Verif.Spec.XmlTree
import Verif.Lemmas.XmlTree
/-! C54: the children of a node. -/
namespace Wizard.Props
open Wizard Wizard.XmlL Wizard.Spec.XmlTree

/-- The nodes of a list with a tag. -/
def byTag (h : XmlHeap) (t : List Byte) (l : List Nat) : List Nat := l.filter (fun i => h.tag i == t)

/-- The children of `p` are `L`; the list of tags is `S`. -/
structure Kids (h : XmlHeap) (p : Nat) (L S : List Nat) : Prop where
  ord : Seg h.ordered (h.child p) L none
  sib : Seg h.sibling (h.child p) S none
  nxt : ∀ t, Seg h.next (byTag h t L).head? (byTag h t L) none
  nd : L.Nodup
  srt : Sorted h.offset L
  sl : S.Sublist L
  fst : ∀ t, (byTag h t S).head? = (byTag h t L).head?
  bd : ∀ i ∈ L, i < h.size

theorem Kids.sub {h : XmlHeap} {p : Nat} {L S : List Nat} (k : Kids h p L S) : ∀ i ∈ S, i ∈ L := fun _ hi => k.sl.subset hi

/-- Every node of the list of tags is the first child with its tag. -/
def Firsts (h : XmlHeap) (L S : List Nat) : Prop := ∀ i ∈ S, (byTag h (h.tag i) L).head? = some i

theorem sorted_congr {f g : Nat → Nat} {l : List Nat} (h : ∀ i ∈ l, f i = g i) (hs : Sorted f l) : Sorted g l :=
  List.Pairwise.imp_of_mem (fun {a b} ha hb hab => by rw [← h a ha, ← h b hb]; exact hab) hs

theorem byTag_congr {h h' : XmlHeap} {l : List Nat} (t : List Byte) (e : ∀ i ∈ l, h.tag i = h'.tag i) : byTag h t l = byTag h' t l :=
  List.filter_congr (fun i hi => by rw [e i hi])

theorem Kids.congr {h h' : XmlHeap} {p : Nat} {L S : List Nat} (k : Kids h p L S) (hc : h'.child p = h.child p) (ho : ∀ i ∈ L, h'.ordered i = h.ordered i)
    (hs : ∀ i ∈ L, h'.sibling i = h.sibling i) (hn : ∀ i ∈ L, h'.next i = h.next i) (hof : ∀ i ∈ L, h'.offset i = h.offset i)
    (ht : ∀ i ∈ L, h'.tag i = h.tag i) (hz : h.size ≤ h'.size) : Kids h' p L S where
  ord := by rw [hc]; exact Seg_congr (fun i hi => (ho i hi).symm) k.ord
  sib := by rw [hc]; exact Seg_congr (fun i hi => (hs i (k.sub i hi)).symm) k.sib
  nxt := by
    intro t
    rw [byTag_congr t ht]
    exact Seg_congr (fun i hi => (hn i (List.mem_filter.1 hi).1).symm) (k.nxt t)
  nd := k.nd
  srt := sorted_congr (fun i hi => (hof i hi).symm) k.srt
  sl := k.sl
  fst := by
    intro t
    rw [byTag_congr t ht, byTag_congr t (fun i hi => ht i (k.sub i hi))]
    exact k.fst t
  bd := fun i hi => Nat.lt_of_lt_of_le (k.bd i hi) hz

theorem Kids.len {h : XmlHeap} {p : Nat} {L S : List Nat} (k : Kids h p L S) : L.length ≤ h.size := nodup_length _ _ k.nd k.bd

theorem Kids.slen {h : XmlHeap} {p : Nat} {L S : List Nat} (k : Kids h p L S) : S.length ≤ h.size :=
  Nat.le_trans k.sl.length_le k.len

/-- Into the list of all children. -/
theorem insertOrdered_spec {h : XmlHeap} {p : Nat} {L S : List Nat} (k : Kids h p L S) {head c o : Nat} (hh : h.child p = some head) (hc : c ∉ L) :
    ∃ ord' child', insertOrdered h p head c o = .ok { h with ordered := ord', child := child' } ∧ Seg ord' (child' p) (ins h.offset o c L) none ∧
      child' p = some (if h.offset head > o then c else head) ∧ (∀ q, q ≠ p → child' q = h.child q) ∧ (∀ i, i ≠ c → i ∉ L → ord' i = h.ordered i) := by
  have hL : ∃ l, L = head :: l := by
    have := Seg_head k.ord
    rw [hh] at this
    cases hl : L with
    | nil => rw [hl] at this; cases this
    | cons a l => rw [hl] at this; cases this; exact ⟨l, rfl⟩
  obtain ⟨l, rfl⟩ := hL
  unfold insertOrdered
  have hord := k.ord
  rw [hh] at hord
  by_cases ho : h.offset head > o
  · refine ⟨upd h.ordered c (some head), upd h.child p (some c), by rw [if_pos ho], ?_, ?_, ?_, ?_⟩
    · rw [ins_front (by intro i hi; cases hi; omega), upd_same]
      exact Seg_front hord hc
    · rw [upd_same, if_pos ho]
    · intro q hq; rw [upd_ne _ _ hq]
    · intro i hi _; rw [upd_ne _ _ hi]
  · have hlen := k.len
    rw [List.length_cons] at hlen
    obtain ⟨y, y1, y2, y3⟩ := chain_ins (off := h.offset) (o := o) (fuel := h.size + 1) hord k.nd hc (by omega) (by omega)
    refine ⟨_, h.child, by rw [if_neg ho, y1, Res.ok_bind], ?_, ?_, fun _ _ => rfl, ?_⟩
    · rw [hh]; exact y3
    · rw [if_neg ho, hh]
    · intro i hi hiL
      rw [upd_ne, upd_ne _ _ hi]
      intro e; rw [e] at hiL; exact hiL y2

/-- What leaves the chain of tags before the child enters it. -/
theorem drop_first {h : XmlHeap} {head : Nat} {S : List Nat} (hsib : Seg h.sibling (some head) S none) (hnd : S.Nodup) (t : List Byte) :
    ∃ S1, Seg (dropFirst h.sibling ((S.takeWhile (fun i => !(h.tag i == t))).getLast?.or none) (S.dropWhile (fun i => !(h.tag i == t))).head?) (some head) S1 none ∧ S1.Sublist S ∧ (∀ t', t' ≠ t → byTag h t' S1 = byTag h t' S) ∧
      (∀ i, i ∉ S → (dropFirst h.sibling ((S.takeWhile (fun i => !(h.tag i == t))).getLast?.or none) (S.dropWhile (fun i => !(h.tag i == t))).head?) i = h.sibling i) := by
  obtain ⟨A, hA⟩ : ∃ A, A = S.takeWhile (fun i => !(h.tag i == t)) := ⟨_, rfl⟩
  obtain ⟨B, hB⟩ : ∃ B, B = S.dropWhile (fun i => !(h.tag i == t)) := ⟨_, rfl⟩
  have hS : S = A ++ B := by rw [hA, hB, List.takeWhile_append_dropWhile]
  rw [← hA, ← hB]
  have keep : ∃ S1, Seg h.sibling (some head) S1 none ∧ S1.Sublist S ∧ (∀ t', t' ≠ t → byTag h t' S1 = byTag h t' S) ∧ (∀ i, i ∉ S → h.sibling i = h.sibling i) :=
    ⟨S, hsib, List.Sublist.refl _, fun _ _ => rfl, fun _ _ => rfl⟩
  cases hal : A.getLast? with
  | none => exact keep
  | some q =>
    cases hb : B with
    | nil => exact keep
    | cons n R =>
      obtain ⟨P, rfl⟩ : ∃ P, A = P ++ [q] := by
        rcases List.eq_nil_or_concat A with rfl | ⟨P, x, rfl⟩
        · cases hal
        · refine ⟨P, ?_⟩
          simp at hal
          rw [hal]; simp
      have hn : h.tag n = t := by
        have := List.head?_dropWhile_not (fun i => !(h.tag i == t)) S
        rw [← hB, hb] at this
        simpa using this
      rw [hb] at hS
      rw [List.append_assoc, List.singleton_append] at hS
      refine ⟨P ++ q :: R, ?_, ?_, ?_, ?_⟩
      · show Seg (upd h.sibling q (h.sibling n)) (some head) _ none
        rw [hS] at hsib hnd
        exact Seg_remove hsib hnd
      · rw [hS]
        exact List.Sublist.append (List.Sublist.refl _) (List.Sublist.cons_cons _ (List.sublist_cons_self ..))
      · intro t' ht'
        rw [hS]
        unfold byTag
        simp only [List.filter_append, List.filter_cons]
        rw [if_neg (show ¬ (h.tag n == t') = true by rw [hn]; simp; exact fun e => ht' e.symm)]
      · intro i hi
        show upd h.sibling q (h.sibling n) i = h.sibling i
        rw [upd_ne]
        intro e
        exact hi (by rw [hS, e]; simp)

theorem head_filter_dropWhile (q : Nat → Bool) (l : List Nat) : (l.dropWhile (fun i => !q i)).head? = (l.filter q).head? := by
  induction l with
  | nil => rfl
  | cons a l ih =>
    rw [List.dropWhile_cons, List.filter_cons]
    cases q a <;> simp [ih]

/-- The child enters the chain of tags. -/
theorem insertFirst_spec {h : XmlHeap} {head c o : Nat} {S : List Nat} (hsib : Seg h.sibling (some head) S none) (hnd : S.Nodup) (hsrt : Sorted h.offset S)
    (hc : c ∉ S) (hlen : S.length ≤ h.size) (hfar : ∀ n ∈ (byTag h (h.tag c) S).head?, o < h.offset n) :
    ∃ sib' S', insertFirst h head c o (((S.takeWhile (fun i => !(h.tag i == h.tag c))).getLast?).or none) (byTag h (h.tag c) S).head? =
        .ok { h with next := upd h.next c (byTag h (h.tag c) S).head?, sibling := sib' } ∧
      Seg sib' (some (if h.offset head > o then c else head)) S' none ∧ (∃ S1 : List Nat, S1.Sublist S ∧ S' = ins h.offset o c S1) ∧ (∀ t, t ≠ h.tag c → (byTag h t S').head? = (byTag h t S).head?) ∧ (byTag h (h.tag c) S').head? = some c ∧
      (∀ i, i ≠ c → i ∉ S → sib' i = h.sibling i) := by
  obtain ⟨S1, s1, s2, s3, s4⟩ := drop_first hsib hnd (h.tag c)
  have hhd := head_filter_dropWhile (fun i => h.tag i == h.tag c) S
  unfold insertFirst
  unfold byTag at hfar ⊢
  rw [← hhd] at hfar ⊢
  obtain ⟨sib1, hs1⟩ : ∃ g, g = (dropFirst h.sibling ((S.takeWhile (fun i => !(h.tag i == h.tag c))).getLast?.or none) (S.dropWhile (fun i => !(h.tag i == h.tag c))).head?) := ⟨_, rfl⟩
  rw [← hs1] at s1 s4 ⊢
  simp only []
  have hS1len : S1.length ≤ h.size := Nat.le_trans s2.length_le hlen
  have hS1nd : S1.Nodup := hnd.sublist s2
  have hS1srt : Sorted h.offset S1 := hsrt.sublist s2
  have hcS1 : c ∉ S1 := fun x => hc (s2.subset x)
  rw [siblingSpot_spec sib1 h.offset o S1 (some head) none (h.size + 1) s1 (by omega), Res.ok_bind]
  simp only []
  have hhead : S1.head? = some head := (Seg_head s1).symm
  have htagS : ∀ i ∈ S, h.tag i = h.tag c → o < h.offset i := by
    intro i hi hti
    rw [hhd] at hfar
    have hmem : i ∈ S.filter (fun i => h.tag i == h.tag c) := List.mem_filter.2 ⟨hi, by simp [hti]⟩
    have hsf := sorted_filter (fun i => h.tag i == h.tag c) hsrt
    cases hl : S.filter (fun i => h.tag i == h.tag c) with
    | nil => rw [hl] at hmem; cases hmem
    | cons n r =>
      rw [hl] at hmem hsf hfar
      have h1 := hfar n rfl
      rw [List.mem_cons] at hmem
      rcases hmem with rfl | hm
      · exact h1
      · have := (List.pairwise_cons.1 hsf).1 i hm
        omega
  have hbt : (S1.filter (fun i => h.tag i == h.tag c)).head? = none ∨ ∀ n ∈ (S1.filter (fun i => h.tag i == h.tag c)).head?, o < h.offset n := by
    right
    intro n hn
    have hm := List.mem_of_mem_head? hn
    rw [List.mem_filter] at hm
    exact htagS n (s2.subset hm.1) (by simpa using hm.2)
  have hfar1 : ∀ n ∈ (S1.filter (fun i => h.tag i == h.tag c)).head?, o < h.offset n := by
    rcases hbt with e | e
    · rw [e]; intro n hn; cases hn
    · exact e
  refine ⟨_, ins h.offset o c S1, rfl, ?_, ⟨S1, s2, rfl⟩, ?_, ?_, ?_⟩
  · cases hS1 : S1 with
    | nil => rw [hS1] at hhead; cases hhead
    | cons a r =>
      rw [hS1] at hhead s1 hcS1 hS1nd
      simp at hhead; subst hhead
      by_cases ho : h.offset a > o
      · rw [if_pos ho, ins_front (by intro i hi; cases hi; omega), List.takeWhile_cons, List.dropWhile_cons, if_neg (by simp; omega), if_neg (by simp; omega)]
        exact Seg_front s1 hcS1
      · rw [if_neg ho]
        obtain ⟨P, y, R, e1, e2, e3, e4⟩ := lastLE_spec sib1 h.offset o r a (r.length + 1) s1.2 (by omega) (by omega)
        unfold ins
        rw [e3, e4]
        rw [e1] at s1 hcS1 hS1nd
        have hR : R.head? = sib1 y := by
          have := (Seg_append sib1 P (y :: R) (some a) none).1 s1
          obtain ⟨m, _, _, h3⟩ := this
          exact (Seg_head h3).symm
        rw [hR, List.append_assoc, List.singleton_append]
        have e5 : (P ++ [y]).getLast?.or none = some y := by simp
        rw [e5]
        exact Seg_insert s1 hS1nd hcS1
  · intro t ht
    rw [ins_filter hS1srt, if_neg (by simp; exact fun e => ht e.symm)]
    have := s3 t ht
    unfold byTag at this
    rw [this]
  · rw [ins_filter hS1srt, if_pos (by simp), ins_front hfar1]
    rfl
  · intro i hi hiS
    have hiS1 : i ∉ S1 := fun x => hiS (s2.subset x)
    rw [← s4 i hiS]
    cases hq : (List.takeWhile (fun i => decide (h.offset i ≤ o)) S1).getLast?.or none with
    | none => simp only []; rw [upd_ne _ _ hi]
    | some q =>
      simp only []
      rw [upd_ne, upd_ne _ _ hi]
      intro e
      rw [Option.or_none] at hq
      have := List.mem_of_getLast? hq
      exact hiS1 (by rw [e]; exact (List.takeWhile_sublist _).subset this)

/-- The whole of an insertion into a node that has children, once the fields of the child are set. -/
theorem insertSame_spec {h : XmlHeap} {p head c o : Nat} {L S : List Nat} (hsib : Seg h.sibling (some head) S none) (hcp : h.child p = some (if h.offset head > o then c else head))
    (hord : Seg h.ordered (h.child p) (ins h.offset o c L) none) (hnxt : ∀ t, Seg h.next (byTag h t L).head? (byTag h t L) none) (nd : L.Nodup)
    (srt : Sorted h.offset L) (sl : S.Sublist L) (fst : ∀ t, (byTag h t S).head? = (byTag h t L).head?)
    (bd : ∀ i ∈ L, i < h.size) (hc : c ∉ L) (hcs : c < h.size) (hoc : h.offset c = o) (hhead : L.head? = some head) :
    ∃ nxt' sib' S', insertSame h head c o = .ok { h with next := nxt', sibling := sib' } ∧ Kids { h with next := nxt', sibling := sib' } p (ins h.offset o c L) S' ∧
      (∀ i, i ≠ c → i ∉ L → nxt' i = h.next i ∧ sib' i = h.sibling i) ∧
      (Firsts h L S → (∀ i ∈ L, h.offset i ≤ o) → Firsts h (ins h.offset o c L) S') := by
  have sub : ∀ i ∈ S, i ∈ L := fun _ hi => sl.subset hi
  have snd : S.Nodup := nd.sublist sl
  have ssrt : Sorted h.offset S := List.Pairwise.sublist sl srt
  have hfil : ∀ t, byTag h t (ins h.offset o c L) = if (h.tag c == t) = true then ins h.offset o c (byTag h t L) else byTag h t L :=
    fun t => ins_filter srt (fun i => h.tag i == t)
  have hslen : S.length ≤ h.size := nodup_length _ _ snd (fun i hi => bd i (sub i hi))
  have hlen : L.length ≤ h.size := nodup_length _ _ nd bd
  have hcS : c ∉ S := fun x => hc (sub c x)
  have hfind := findTag_spec h.sibling h.tag (h.tag c) S (some head) none (h.size + 1) hsib (by omega)
  have hhd := head_filter_dropWhile (fun i => h.tag i == h.tag c) S
  have hfst := fst (h.tag c)
  unfold byTag at hfst
  have hbd' : ∀ i ∈ ins h.offset o c L, i < h.size := by
    intro i hi
    rcases mem_ins.1 hi with e | e
    · rw [e]; exact hcs
    · exact bd i e
  unfold insertSame
  rw [hfind, Res.ok_bind]
  simp only []
  rw [hhd]
  by_cases hfar : ∀ n ∈ (byTag h (h.tag c) S).head?, o < h.offset n
  · obtain ⟨sib', S', f1, f2, ⟨S1, f3, f4⟩, f6, f7, f8⟩ := insertFirst_spec (c := c) hsib snd ssrt hcS hslen hfar
    refine ⟨upd h.next c (byTag h (h.tag c) S).head?, sib', S', ?_, ?_, ?_, ?_⟩
    · rw [← f1]
      unfold byTag at hfar ⊢
      cases hn : (S.filter (fun i => h.tag i == h.tag c)).head? with
      | none => rfl
      | some n =>
        simp only []
        rw [if_neg (by have := hfar n hn; omega)]
    · have hfarL : ∀ n ∈ (byTag h (h.tag c) L).head?, o < h.offset n := by rw [← fst]; exact hfar
      exact {
        ord := hord
        sib := by show Seg sib' (h.child p) S' none; rw [hcp]; exact f2
        nxt := by
          intro t
          show Seg (upd h.next c (byTag h (h.tag c) S).head?) ((ins h.offset o c L).filter (fun i => h.tag i == t)).head? ((ins h.offset o c L).filter (fun i => h.tag i == t)) none
          rw [ins_filter srt]
          by_cases ht : h.tag c = t
          · subst ht
            rw [if_pos (by simp)]
            unfold byTag at hfarL
            rw [ins_front hfarL, fst]
            exact Seg_front (hnxt (h.tag c)) (fun x => hc (List.mem_filter.1 x).1)
          · rw [if_neg (by simpa using ht)]
            refine Seg_congr ?_ (hnxt t)
            intro i hi
            rw [upd_ne]
            intro e; rw [e] at hi; exact hc (List.mem_filter.1 hi).1
        nd := ins_nodup nd hc
        srt := ins_sorted srt hoc
        sl := by rw [f4]; exact ins_sublist (f3.trans sl) srt
        fst := by
          intro t
          show (byTag h t S').head? = (byTag h t (ins h.offset o c L)).head?
          have e : byTag h t (ins h.offset o c L) = _ := ins_filter srt (fun i => h.tag i == t)
          rw [e]
          by_cases ht : h.tag c = t
          · subst ht
            rw [f7, if_pos (by simp)]
            unfold byTag at hfarL
            rw [ins_front hfarL]; rfl
          · rw [f6 t (fun e => ht e.symm), if_neg (by simpa using ht)]
            exact fst t
        bd := hbd' }
    · intro i hi hiL
      refine ⟨upd_ne _ _ hi, f8 i hi (fun x => hiL (sub i x))⟩
    · intro hF hall i hi
      have hnil : byTag h (h.tag c) L = [] := by
        cases hl : byTag h (h.tag c) L with
        | nil => rfl
        | cons n r =>
          have h1 := fst (h.tag c)
          rw [hl] at h1
          have h2 := hfar n (by rw [h1]; rfl)
          have h3 : n ∈ byTag h (h.tag c) L := by rw [hl]; exact List.mem_cons_self ..
          have := hall n (List.mem_filter.1 h3).1
          omega
      rw [hfil]
      rw [f4] at hi
      rcases mem_ins.1 hi with rfl | hi
      · rw [if_pos (by simp), hnil]; rfl
      · have hiS := f3.subset hi
        rw [if_neg, hF i hiS]
        intro e
        have e : h.tag c = h.tag i := by simpa using e
        have : i ∈ byTag h (h.tag c) L := List.mem_filter.2 ⟨sub i hiS, by simp [e]⟩
        rw [hnil] at this; cases this
  · cases hn : (byTag h (h.tag c) S).head? with
    | none => exact absurd (by rw [hn]; intro n hn'; cases hn') hfar
    | some n =>
      have hle : h.offset n ≤ o := by
        rw [hn] at hfar
        refine Nat.le_of_not_lt (fun hlt => hfar ?_)
        intro m hm; cases hm; exact hlt
      have hnL : (byTag h (h.tag c) L).head? = some n := by rw [← fst, hn]
      obtain ⟨r, hr⟩ : ∃ r, byTag h (h.tag c) L = n :: r := by
        cases hl : byTag h (h.tag c) L with
        | nil => rw [hl] at hnL; cases hnL
        | cons a r => rw [hl] at hnL; cases hnL; exact ⟨r, rfl⟩
      have hseg := hnxt (h.tag c)
      rw [hnL, hr] at hseg
      have hrnd : (n :: r).Nodup := by rw [← hr]; exact nd.filter _
      have hrsub : ∀ i ∈ n :: r, i ∈ L ∧ h.tag i = h.tag c := by
        intro i hi
        rw [← hr] at hi
        have := List.mem_filter.1 hi
        exact ⟨this.1, by simpa using this.2⟩
      have hrlen : r.length < h.size + 1 := by
        have : (n :: r).length ≤ L.length := by rw [← hr]; exact List.length_filter_le ..
        rw [List.length_cons] at this
        omega
      obtain ⟨y, y1, y2, y3⟩ := chain_ins (off := h.offset) (o := o) (fuel := h.size + 1) hseg hrnd (fun x => hc (hrsub c x).1) hrlen hle
      refine ⟨upd (upd h.next c (h.next y)) y (some c), h.sibling, S, ?_, ?_, ?_, ?_⟩
      · unfold byTag at hn
        rw [hn]
        simp only []
        rw [if_pos hle]
        unfold insertNext
        rw [y1, Res.ok_bind]
      · have hnothead : ¬ h.offset head > o := by
          cases hl : L with
          | nil => rw [hl] at hhead; cases hhead
          | cons a l =>
            rw [hl] at hhead srt; cases hhead
            have := (hrsub n (List.mem_cons_self ..)).1
            rw [hl, List.mem_cons] at this
            rcases this with e | e
            · rw [← e]; omega
            · have := (List.pairwise_cons.1 srt).1 n e
              omega
        exact {
          ord := hord
          sib := by show Seg h.sibling (h.child p) S none; rw [hcp, if_neg hnothead]; exact hsib
          nxt := by
            intro t
            show Seg (upd (upd h.next c (h.next y)) y (some c)) ((ins h.offset o c L).filter (fun i => h.tag i == t)).head? ((ins h.offset o c L).filter (fun i => h.tag i == t)) none
            rw [ins_filter srt]
            by_cases ht : h.tag c = t
            · subst ht
              have hr' : L.filter (fun i => h.tag i == h.tag c) = n :: r := hr
              rw [if_pos (by simp), hr', ins_head (a := n) rfl hle]
              exact y3
            · rw [if_neg (by simpa using ht)]
              refine Seg_congr ?_ (hnxt t)
              intro i hi
              have him := List.mem_filter.1 hi
              have hti : h.tag i = t := by simpa using him.2
              rw [upd_ne, upd_ne]
              · intro e; rw [e] at him; exact hc him.1
              · intro e
                have := (hrsub y y2).2
                rw [← e, hti] at this
                exact ht this.symm
          nd := ins_nodup nd hc
          srt := ins_sorted srt hoc
          sl := by
            have : (L.takeWhile (fun i => decide (h.offset i ≤ o)) ++ L.dropWhile (fun i => decide (h.offset i ≤ o))).Sublist (ins h.offset o c L) :=
              (List.Sublist.refl _).append (List.sublist_cons_self ..)
            rw [List.takeWhile_append_dropWhile] at this
            exact sl.trans this
          fst := by
            intro t
            show (byTag h t S).head? = (byTag h t (ins h.offset o c L)).head?
            have e : byTag h t (ins h.offset o c L) = _ := ins_filter srt (fun i => h.tag i == t)
            rw [e]
            by_cases ht : h.tag c = t
            · subst ht
              have hr' : L.filter (fun i => h.tag i == h.tag c) = n :: r := hr
              rw [if_pos (by simp), hr', ins_head (a := n) rfl hle, hn]
            · rw [if_neg (by simpa using ht)]
              exact fst t
          bd := hbd' }
      · intro i hi hiL
        refine ⟨?_, rfl⟩
        rw [upd_ne, upd_ne _ _ hi]
        intro e; rw [e] at hiL; exact hiL (hrsub y y2).1
      · intro hF _ i hi
        rw [hfil]
        by_cases ht : h.tag c = h.tag i
        · have h1 := hF i hi
          rw [← ht, hnL] at h1
          cases h1
          rw [if_pos (by simp [ht]), ← ht, hr]
          exact ins_head rfl hle
        · rw [if_neg (by simpa using ht)]
          exact hF i hi

/-- `InsertTagIntoXMLTree`. -/
theorem insertTag_spec {h : XmlHeap} {p c o : Nat} {L S : List Nat} (k : Kids h p L S) (hc : c ∉ L) (hcs : c < h.size) :
    ∃ h' S', insertTag h p c o = .ok h' ∧ Kids h' p (ins h'.offset o c L) S' ∧ h'.size = h.size ∧ h'.tag = h.tag ∧ h'.offset = upd h.offset c o ∧
      (∀ q, q ≠ p → h'.child q = h.child q) ∧ (∀ i, i ≠ c → i ∉ L → h'.ordered i = h.ordered i ∧ h'.sibling i = h.sibling i ∧ h'.next i = h.next i) ∧
      h'.parent = upd h.parent c (some p) ∧ (Firsts h L S → (∀ i ∈ L, h.offset i ≤ o) → Firsts h' (ins h'.offset o c L) S') := by
  have hne : ∀ i ∈ L, i ≠ c := fun i hi e => hc (e ▸ hi)
  have k0 : Kids { h with ordered := upd h.ordered c none, sibling := upd h.sibling c none, next := upd h.next c none, offset := upd h.offset c o, parent := upd h.parent c (some p) } p L S :=
    k.congr rfl (fun i hi => upd_ne _ _ (hne i hi)) (fun i hi => upd_ne _ _ (hne i hi)) (fun i hi => upd_ne _ _ (hne i hi)) (fun i hi => upd_ne _ _ (hne i hi))
      (fun _ _ => rfl) (Nat.le_refl _)
  have f0 : ∀ i, i ≠ c → upd h.ordered c none i = h.ordered i ∧ upd h.sibling c none i = h.sibling i ∧ upd h.next c none i = h.next i :=
    fun i hi => ⟨upd_ne _ _ hi, upd_ne _ _ hi, upd_ne _ _ hi⟩
  unfold insertTag
  obtain ⟨h0, hh0⟩ : ∃ h0 : XmlHeap, h0 = { h with ordered := upd h.ordered c none, sibling := upd h.sibling c none, next := upd h.next c none, offset := upd h.offset c o, parent := upd h.parent c (some p) } := ⟨_, rfl⟩
  rw [← hh0] at k0 ⊢
  simp only []
  have g0 : h0.size = h.size ∧ h0.tag = h.tag ∧ h0.offset = upd h.offset c o ∧ h0.child = h.child ∧
      (∀ i, i ≠ c → h0.ordered i = h.ordered i ∧ h0.sibling i = h.sibling i ∧ h0.next i = h.next i) ∧ h0.ordered c = none ∧ h0.sibling c = none ∧ h0.next c = none ∧
      h0.parent = upd h.parent c (some p) := by
    rw [hh0]; exact ⟨rfl, rfl, rfl, rfl, f0, upd_same .., upd_same .., upd_same .., rfl⟩
  obtain ⟨g1, g2, g3, g4, g5, g6, g7, g8, g9⟩ := g0
  have hoc : h0.offset c = o := by rw [g3, upd_same]
  cases hch : h0.child p with
  | none =>
    have hL : L = [] := by
      have := Seg_head k0.ord
      rw [hch] at this
      cases L with
      | nil => rfl
      | cons a l => cases this
    have hS : S = [] := by
      cases S with
      | nil => rfl
      | cons a l => have := k0.sub a (List.mem_cons_self ..); rw [hL] at this; cases this
    subst hL hS
    refine ⟨_, [c], rfl, ?_, g1, g2, g3, ?_, ?_, g9, ?_⟩
    · have hins : ∀ off, ins off o c [] = [c] := fun _ => rfl
      rw [hins]
      exact {
        ord := ⟨upd_same .., g6⟩
        sib := ⟨upd_same .., g7⟩
        nxt := by
          intro t
          show Seg h0.next ([c].filter (fun i => h0.tag i == t)).head? ([c].filter (fun i => h0.tag i == t)) none
          rw [List.filter_cons]
          split
          · exact ⟨rfl, g8⟩
          · rfl
        nd := by simp
        srt := List.pairwise_singleton ..
        sl := List.Sublist.refl _
        fst := fun t => rfl
        bd := by intro i hi; rw [List.mem_singleton] at hi; rw [hi]; show c < h0.size; rw [g1]; exact hcs }
    · intro q hq
      show upd h0.child p (some c) q = h.child q
      rw [upd_ne _ _ hq, g4]
    · intro i hi _
      exact g5 i hi
    · intro _ _ i hi
      rw [List.mem_singleton] at hi
      subst hi
      show ([i].filter _).head? = some i
      simp
  | some head =>
    simp only []
    obtain ⟨ord', child', o1, o2, o3, o4, o5⟩ := insertOrdered_spec (o := o) k0 hch hc
    have hsib := k0.sib
    rw [hch] at hsib
    have hhead : L.head? = some head := by rw [← Seg_head k0.ord, hch]
    obtain ⟨nxt', sib', S', i1, i2, i3, i4⟩ := insertSame_spec (h := { h0 with ordered := ord', child := child' }) (p := p) (c := c) (o := o) (L := L) (S := S) hsib o3 o2 k0.nxt
      k0.nd k0.srt k0.sl k0.fst k0.bd hc (by show c < h0.size; rw [g1]; exact hcs) hoc hhead
    refine ⟨_, S', by rw [o1, Res.ok_bind, i1], i2, g1, g2, g3, ?_, ?_, g9, ?_⟩
    · intro q hq
      show child' q = h.child q
      rw [o4 q hq, g4]
    · intro i hi hiL
      have := i3 i hi hiL
      refine ⟨(o5 i hi hiL).trans (g5 i hi).1, this.2.trans (g5 i hi).2.1, this.1.trans (g5 i hi).2.2⟩
    · intro hF hall
      refine i4 ?_ ?_
      · intro i hi
        have e : ∀ t l, byTag { h0 with ordered := ord', child := child' } t l = byTag h t l := by
          intro t l
          unfold byTag
          show List.filter (fun i => h0.tag i == t) l = _
          rw [g2]
        rw [e]
        show (byTag h (h0.tag i) L).head? = some i
        rw [g2]
        exact hF i hi
      · intro i hi
        show h0.offset i ≤ o
        rw [g3, upd_ne _ _ (hne i hi)]
        exact hall i hi

/-- The trees and what has happened. -/
structure Forest (h : XmlHeap) (s : Past) : Prop where
  size : h.size = s.tags.length
  tags : ∀ i, i < h.size → s.tags[i]? = some (h.tag i)
  once : (s.log.map (·.2.1)).Nodup
  par : ∀ e ∈ s.log, e.1 < h.size
  bound : ∀ e ∈ s.log, e.2.1 < h.size
  offs : ∀ e ∈ s.log, h.offset e.2.1 = e.2.2
  up : ∀ e ∈ s.log, h.parent e.2.1 = some e.1
  lone : ∀ i, (∀ e ∈ s.log, e.2.1 ≠ i) → h.parent i = none ∧ h.ordered i = none
  kids : ∀ p, ∃ L S, Kids h p L S ∧ DocumentOrder (s.attached p) (L.map (fun i => (i, h.offset i))) ∧
    ((s.attached p).Pairwise (fun a b => a.2 ≤ b.2) → Firsts h L S)

theorem docOrder_mem {A M : List (Nat × Nat)} (h : DocumentOrder A M) (e : Nat × Nat) : e ∈ M ↔ e ∈ A := by
  have := h.2 e.2
  constructor
  · intro he
    have h1 : e ∈ M.filter (·.2 == e.2) := List.mem_filter.2 ⟨he, by simp⟩
    rw [this] at h1
    exact (List.mem_filter.1 h1).1
  · intro he
    have h1 : e ∈ A.filter (·.2 == e.2) := List.mem_filter.2 ⟨he, by simp⟩
    rw [← this] at h1
    exact (List.mem_filter.1 h1).1

theorem mem_attached {s : Past} {p : Nat} {e : Nat × Nat} : e ∈ s.attached p ↔ (p, e) ∈ s.log := by
  unfold Past.attached
  rw [List.mem_map]
  constructor
  · rintro ⟨x, hx, rfl⟩
    rw [List.mem_filter] at hx
    have : x.1 = p := by simpa using hx.2
    rw [← this]; exact hx.1
  · intro h
    exact ⟨(p, e), List.mem_filter.2 ⟨h, by simp⟩, rfl⟩

theorem kid_logged {h : XmlHeap} {s : Past} {p : Nat} {L : List Nat} (hd : DocumentOrder (s.attached p) (L.map (fun i => (i, h.offset i)))) {i : Nat} (hi : i ∈ L) :
    (p, i, h.offset i) ∈ s.log := by
  have h1 : (i, h.offset i) ∈ L.map (fun i => (i, h.offset i)) := List.mem_map.2 ⟨i, hi, rfl⟩
  exact mem_attached.1 ((docOrder_mem hd _).1 h1)

theorem nodup_map_inj {f : α → β} : ∀ {l : List α}, (l.map f).Nodup → ∀ {a b : α}, a ∈ l → b ∈ l → f a = f b → a = b := by
  intro l
  induction l with
  | nil => intro _ a b ha; cases ha
  | cons x l ih =>
    intro hnd a b ha hb e
    rw [List.map_cons, List.nodup_cons] at hnd
    rw [List.mem_cons] at ha hb
    rcases ha with rfl | ha <;> rcases hb with rfl | hb
    · rfl
    · exact absurd (List.mem_map.2 ⟨b, hb, e.symm⟩) hnd.1
    · exact absurd (List.mem_map.2 ⟨a, ha, e⟩) hnd.1
    · exact ih hnd.2 ha hb e

/-- The document order after one more insertion. -/
theorem docOrder_ins {off : Nat → Nat} {A : List (Nat × Nat)} {L : List Nat} {c o : Nat} (h : DocumentOrder A (L.map (fun i => (i, off i)))) (hoc : off c = o)
    (hs : Sorted off L) : DocumentOrder (A ++ [(c, o)]) ((ins off o c L).map (fun i => (i, off i))) := by
  constructor
  · rw [List.pairwise_map]
    exact ins_sorted hs hoc
  · intro x
    have h1 := h.2 x
    have e1 : ∀ l : List Nat, (l.map (fun i => (i, off i))).filter (·.2 == x) = (l.filter (fun i => off i == x)).map (fun i => (i, off i)) := by
      intro l
      rw [List.filter_map]; rfl
    rw [e1] at h1 ⊢
    rw [ins_filter hs, List.filter_append, ← h1]
    by_cases hx : o = x
    · subst hx
      rw [if_pos (by simp [hoc])]
      have : ins off o c (L.filter (fun i => off i == o)) = L.filter (fun i => off i == o) ++ [c] := by
        unfold ins
        have hall : ∀ i ∈ L.filter (fun i => off i == o), decide (off i ≤ o) = true := by
          intro i hi
          have := (List.mem_filter.1 hi).2
          simp at this
          simp [this]
        have t1 : (L.filter (fun i => off i == o)).takeWhile (fun i => decide (off i ≤ o)) = L.filter (fun i => off i == o) := by
          rw [(sorted_split off o _ (sorted_filter _ hs)).1, List.filter_eq_self]; exact hall
        have t2 : (L.filter (fun i => off i == o)).dropWhile (fun i => decide (off i ≤ o)) = [] := by
          rw [(sorted_split off o _ (sorted_filter _ hs)).2, List.filter_eq_nil_iff]
          intro i hi; simp [hall i hi]
        rw [t1, t2]
      rw [this, List.map_append]
      simp [hoc]
    · rw [if_neg (by simp [hoc]; exact hx)]
      simp [hx]

theorem attached_snoc (s : Past) (tags : List (List Byte)) (p c o q : Nat) :
    Past.attached ⟨tags, s.log ++ [(p, c, o)]⟩ q = if p = q then s.attached q ++ [(c, o)] else s.attached q := by
  unfold Past.attached
  simp only [List.filter_append, List.map_append, List.filter_cons, List.filter_nil]
  by_cases h : p = q
  · simp [h]
  · simp [h]

theorem attached_none {h : XmlHeap} {s : Past} (f : ∀ e ∈ s.log, e.1 < h.size) {p : Nat} (hp : h.size ≤ p) : s.attached p = [] := by
  unfold Past.attached
  rw [List.map_eq_nil_iff, List.filter_eq_nil_iff]
  intro e he
  have := f e he
  simp
  omega

theorem kids_nil {h : XmlHeap} {p : Nat} (hc : h.child p = none) : Kids h p [] [] :=
  ⟨hc, hc, fun _ => rfl, by simp, List.Pairwise.nil, List.Sublist.refl _, fun _ => rfl, fun _ h => absurd h (by simp)⟩

/-- A new node changes nothing. -/
theorem forest_new {h : XmlHeap} {s : Past} (f : Forest h s) (tag : List Byte) : Forest (newNode h tag).1 { s with tags := s.tags ++ [tag] } where
  size := by show h.size + 1 = (s.tags ++ [tag]).length; rw [f.size, List.length_append]; rfl
  tags := by
    intro i hi
    show (s.tags ++ [tag])[i]? = some (upd h.tag h.size tag i)
    have hi' : i < h.size + 1 := hi
    by_cases e : i = h.size
    · rw [e, upd_same, f.size]; simp
    · rw [upd_ne _ _ e, List.getElem?_append_left (by rw [← f.size]; omega)]
      exact f.tags i (by omega)
  once := f.once
  par := fun e he => Nat.lt_succ_of_lt (f.par e he)
  bound := fun e he => Nat.lt_succ_of_lt (f.bound e he)
  offs := by
    intro e he
    show upd h.offset h.size 0 e.2.1 = e.2.2
    rw [upd_ne _ _ (by have := f.bound e he; omega)]
    exact f.offs e he
  up := by
    intro e he
    show upd h.parent h.size none e.2.1 = some e.1
    rw [upd_ne _ _ (by have := f.bound e he; omega)]
    exact f.up e he
  lone := by
    intro i hi
    show upd h.parent h.size none i = none ∧ upd h.ordered h.size none i = none
    by_cases e : i = h.size
    · subst e; exact ⟨upd_same .., upd_same ..⟩
    · rw [upd_ne _ _ e, upd_ne _ _ e]; exact f.lone i hi
  kids := by
    intro p
    by_cases hp : p = h.size
    · refine ⟨[], [], kids_nil ?_, ?_, fun _ i hi => absurd hi (by simp)⟩
      · rw [hp]; exact upd_same ..
      · have : Past.attached { s with tags := s.tags ++ [tag] } p = s.attached p := rfl
        rw [this, attached_none f.par (by omega)]
        exact ⟨List.Pairwise.nil, fun _ => rfl⟩
    · obtain ⟨L, S, k, d, F⟩ := f.kids p
      have hne : ∀ i ∈ L, i ≠ h.size := fun i hi => by have := k.bd i hi; omega
      refine ⟨L, S, k.congr (upd_ne _ _ hp) (fun i hi => upd_ne _ _ (hne i hi)) (fun i hi => upd_ne _ _ (hne i hi)) (fun i hi => upd_ne _ _ (hne i hi))
        (fun i hi => upd_ne _ _ (hne i hi)) (fun i hi => upd_ne _ _ (hne i hi)) (Nat.le_succ _), ?_, ?_⟩
      have e : L.map (fun i => (i, (newNode h tag).1.offset i)) = L.map (fun i => (i, h.offset i)) := by
        apply List.map_congr_left
        intro i hi
        show (i, upd h.offset h.size 0 i) = _
        rw [upd_ne _ _ (hne i hi)]
      · rw [e]
        exact d
      · intro hp' i hi
        have h1 := F hp' i hi
        have hti : (newNode h tag).1.tag i = h.tag i := upd_ne _ _ (hne i (k.sub i hi))
        rw [hti, byTag_congr (h := (newNode h tag).1) (h' := h) _ (fun j hj => upd_ne _ _ (hne j hj))]
        exact h1

/-- One more child. -/
theorem forest_insert {h : XmlHeap} {s : Past} (f : Forest h s) {p c o : Nat} (hp : p < h.size) (hc : c < h.size) (hnew : ∀ e ∈ s.log, e.2.1 ≠ c) :
    ∃ h', insertTag h p c o = .ok h' ∧ Forest h' { s with log := s.log ++ [(p, c, o)] } := by
  obtain ⟨L, S, k, d, F⟩ := f.kids p
  have hcL : ∀ (q : Nat) (L' : List Nat), DocumentOrder (s.attached q) (L'.map (fun i => (i, h.offset i))) → c ∉ L' := by
    intro q L' d' hm
    exact hnew _ (kid_logged d' hm) rfl
  obtain ⟨h', S', e1, e2, e3, e4, e5, e6, e7, e8, e9⟩ := insertTag_spec (o := o) k (hcL p L d) hc
  refine ⟨h', e1, ?_⟩
  have hoffL : ∀ (L' : List Nat), c ∉ L' → ∀ i ∈ L', h'.offset i = h.offset i := by
    intro L' hL' i hi
    rw [e5, upd_ne]
    intro e; rw [e] at hi; exact hL' hi
  exact {
    size := by rw [e3]; exact f.size
    tags := by intro i hi; rw [e4]; rw [e3] at hi; exact f.tags i hi
    once := by
      show ((s.log ++ [(p, c, o)]).map (·.2.1)).Nodup
      rw [List.map_append, List.nodup_append]
      refine ⟨f.once, by simp, ?_⟩
      intro a ha b hb
      rw [List.mem_map] at ha
      obtain ⟨x, hx, rfl⟩ := ha
      simp at hb
      rw [hb]
      exact hnew x hx
    par := by
      intro e he
      have he : e ∈ s.log ++ [(p, c, o)] := he
      rw [e3]
      rw [List.mem_append, List.mem_singleton] at he
      rcases he with he | rfl
      · exact f.par e he
      · exact hp
    bound := by
      intro e he
      have he : e ∈ s.log ++ [(p, c, o)] := he
      rw [e3]
      rw [List.mem_append, List.mem_singleton] at he
      rcases he with he | rfl
      · exact f.bound e he
      · exact hc
    offs := by
      intro e he
      have he : e ∈ s.log ++ [(p, c, o)] := he
      rw [e5]
      rw [List.mem_append, List.mem_singleton] at he
      rcases he with he | rfl
      · rw [upd_ne _ _ (hnew e he)]; exact f.offs e he
      · exact upd_same ..
    up := by
      intro e he
      have he : e ∈ s.log ++ [(p, c, o)] := he
      rw [e8]
      rw [List.mem_append, List.mem_singleton] at he
      rcases he with he | rfl
      · rw [upd_ne _ _ (hnew e he)]; exact f.up e he
      · exact upd_same ..
    lone := by
      intro i hi
      have hi : ∀ e ∈ s.log ++ [(p, c, o)], e.2.1 ≠ i := hi
      have hic : i ≠ c := fun e => hi (p, c, o) (by simp) e.symm
      have hil : ∀ e ∈ s.log, e.2.1 ≠ i := fun e he => hi e (by simp [he])
      have hiL : i ∉ L := fun hm => hil _ (kid_logged d hm) rfl
      rw [e8, upd_ne _ _ hic, (e7 i hic hiL).1]
      exact f.lone i hil
    kids := by
      intro q
      have hatt : Past.attached { s with log := s.log ++ [(p, c, o)] } q = if p = q then s.attached q ++ [(c, o)] else s.attached q :=
        attached_snoc s s.tags p c o q
      rw [hatt]
      by_cases hq : p = q
      · subst hq
        rw [if_pos rfl]
        refine ⟨_, S', e2, ?_, ?_⟩
        · refine docOrder_ins ?_ (by rw [e5, upd_same]) (sorted_congr (fun i hi => (hoffL L (hcL p L d) i hi).symm) k.srt)
          have e : L.map (fun i => (i, h'.offset i)) = L.map (fun i => (i, h.offset i)) :=
            List.map_congr_left (fun i hi => by rw [hoffL L (hcL p L d) i hi])
          rw [e]; exact d
        · intro hpw
          rw [List.pairwise_append] at hpw
          refine e9 (F hpw.1) ?_
          intro i hi
          have h1 : (i, h.offset i) ∈ s.attached p := (docOrder_mem d _).1 (List.mem_map.2 ⟨i, hi, rfl⟩)
          exact hpw.2.2 _ h1 (c, o) (by simp)
      · rw [if_neg hq]
        obtain ⟨L', S'', k', d', F'⟩ := f.kids q
        have hdis : ∀ i ∈ L', i ≠ c ∧ i ∉ L := by
          intro i hi
          refine ⟨fun e => hcL q L' d' (e ▸ hi), fun hiL => ?_⟩
          have a1 := kid_logged d' hi
          have a2 := kid_logged d hiL
          have := nodup_map_inj f.once a1 a2 rfl
          exact hq (congrArg Prod.fst this).symm
        refine ⟨L', S'', k'.congr (e6 q (Ne.symm hq)) (fun i hi => (e7 i (hdis i hi).1 (hdis i hi).2).1) (fun i hi => (e7 i (hdis i hi).1 (hdis i hi).2).2.1)
          (fun i hi => (e7 i (hdis i hi).1 (hdis i hi).2).2.2) (hoffL L' (hcL q L' d')) (fun i _ => by rw [e4]) (by rw [e3]; exact Nat.le_refl _), ?_, ?_⟩
        have e : L'.map (fun i => (i, h'.offset i)) = L'.map (fun i => (i, h.offset i)) :=
          List.map_congr_left (fun i hi => by rw [hoffL L' (hcL q L' d') i hi])
        · rw [e]; exact d'
        · intro hpw i hi
          rw [e4, byTag_congr (h := h') (h' := h) _ (fun j _ => by rw [e4])]
          exact F' hpw i hi }

theorem forest_step {h : XmlHeap} {s : Past} (f : Forest h s) (op : XmlOp) (ha : s.Allowed op) : ∃ h', xmlStep h op = .ok h' ∧ Forest h' (s.step op) := by
  cases op with
  | newTag tag => exact ⟨_, rfl, forest_new f tag⟩
  | add parent tag offset =>
    have f1 := forest_new f tag
    have hp : parent < h.size := by rw [f.size]; exact ha
    have := forest_insert (o := offset) f1 (p := parent) (c := h.size) (Nat.lt_succ_of_lt hp) (Nat.lt_succ_self _) (fun e he => by
      have := f.bound e he
      omega)
    rw [f.size] at this
    obtain ⟨h', e1, e2⟩ := this
    refine ⟨h', ?_, e2⟩
    rw [← e1, ← f.size]
    rfl
  | insert parent child offset =>
    obtain ⟨h1, h2, h3⟩ := ha
    exact forest_insert f (by rw [f.size]; exact h1) (by rw [f.size]; exact h2) h3

theorem forest_run : ∀ (ops : List XmlOp) (h : XmlHeap) (s : Past), Forest h s → s.AllAllowed ops → ∃ h', xmlRun h ops = .ok h' ∧ Forest h' (s.run ops) := by
  intro ops
  induction ops with
  | nil => intro h s f _; exact ⟨h, rfl, f⟩
  | cons op ops ih =>
    intro h s f ha
    obtain ⟨h1, e1, f1⟩ := forest_step f op ha.1
    obtain ⟨h2, e2, f2⟩ := ih h1 (s.step op) f1 ha.2
    exact ⟨h2, by rw [xmlRun, e1, Res.ok_bind, e2], f2⟩

theorem forest_empty : Forest XmlHeap.empty Past.start where
  size := rfl
  tags := fun i hi => absurd hi (Nat.not_lt_zero _)
  once := List.nodup_nil
  par := fun e he => absurd he (by simp [Past.start])
  bound := fun e he => absurd he (by simp [Past.start])
  offs := fun e he => absurd he (by simp [Past.start])
  up := fun e he => absurd he (by simp [Past.start])
  lone := fun _ _ => ⟨rfl, rfl⟩
  kids := fun p => ⟨[], [], kids_nil rfl, ⟨List.Pairwise.nil, fun _ => rfl⟩, fun _ i hi => absurd hi (by simp)⟩

/-- What the traversals meet. -/
theorem kids_list {h : XmlHeap} {p : Nat} {L S : List Nat} (k : Kids h p L S) : listChildren h p = .ok L :=
  follow_spec _ _ _ _ k.ord (Nat.lt_succ_of_le k.len)

theorem kids_getChild {h : XmlHeap} {p : Nat} {L S : List Nat} (k : Kids h p L S) (t : List Byte) : getChild h p t = .ok (byTag h t L).head? := by
  unfold getChild
  rw [findTag_spec h.sibling h.tag t S _ none _ k.sib (Nat.lt_succ_of_le k.slen), Res.ok_bind]
  simp only []
  rw [head_filter_dropWhile, ← k.fst t]
  rfl

theorem kids_listTag {h : XmlHeap} {p : Nat} {L S : List Nat} (k : Kids h p L S) (t : List Byte) : listTag h p t = .ok (byTag h t L) := by
  unfold listTag
  rw [kids_getChild k, Res.ok_bind]
  exact follow_spec _ _ _ _ (k.nxt t) (Nat.lt_succ_of_le (Nat.le_trans (List.length_filter_le ..) k.len))

/-- **C54.**  After every history of making nodes, adding children and inserting nodes that are in no tree yet, for every node `p`:
the traversal of its children in document order lists what was attached to it by offset, in the order of attaching for equal
offsets, each exactly once; and for every tag, the traversal of the children with that tag lists exactly those of them that have the
tag, in the same order.  No call meets a NULL pointer or an endless chain. -/
theorem C54_children (ops : List XmlOp) (ha : Past.start.AllAllowed ops) :
    ∃ h, xmlRun XmlHeap.empty ops = .ok h ∧ ∀ p, ∃ M, DocumentOrder ((Past.start.run ops).attached p) M ∧ listChildren h p = .ok (M.map (·.1)) ∧
      ∀ tag, listTag h p tag = .ok ((M.map (·.1)).filter (fun i => (Past.start.run ops).tags[i]? == some tag)) := by
  obtain ⟨h, e, f⟩ := forest_run ops _ _ forest_empty ha
  refine ⟨h, e, fun p => ?_⟩
  obtain ⟨L, S, k, d, _⟩ := f.kids p
  have hM : (L.map (fun i => (i, h.offset i))).map (·.1) = L := by rw [List.map_map]; simp [Function.comp_def]
  refine ⟨_, d, ?_, ?_⟩
  · rw [hM]; exact kids_list k
  · intro tag
    rw [hM, kids_listTag k]
    congr 1
    apply List.filter_congr
    intro i hi
    rw [f.tags i (k.bd i hi)]
    simp

-- a root "r", children a@5, b@2, a@2, a@7, and the tag "c" inserted at 2
def sampleOps : List XmlOp := [.newTag [114], .add 0 [97] 5, .add 0 [98] 2, .add 0 [97] 2, .add 0 [97] 7, .newTag [99], .insert 0 5 2]

example : Past.start.AllAllowed sampleOps := by
  simp [sampleOps, Past.AllAllowed, Past.Allowed, Past.start, Past.step]

example : (xmlRun XmlHeap.empty sampleOps).bind (fun h => listChildren h 0) = .ok [2, 3, 5, 1, 4] ∧
    (xmlRun XmlHeap.empty sampleOps).bind (fun h => listTag h 0 [97]) = .ok [3, 1, 4] := by decide

end Wizard.Props

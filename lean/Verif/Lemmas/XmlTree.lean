import Verif.Model.XmlTree
/-! Linked lists of nodes, and insertion into a list ordered by offset. -/
namespace Wizard.XmlL
open Wizard

/-- Following `f` from `s` meets `l` and then `e`. -/
def Seg (f : Nat → Option Nat) : Option Nat → List Nat → Option Nat → Prop
  | s, [], e => s = e
  | s, i :: l, e => s = some i ∧ Seg f (f i) l e

theorem Seg_append (f : Nat → Option Nat) : ∀ (a b : List Nat) (s e : Option Nat), Seg f s (a ++ b) e ↔ ∃ m, Seg f s a m ∧ Seg f m b e := by
  intro a
  induction a with
  | nil => intro b s e; simp [Seg]
  | cons i a ih =>
    intro b s e
    simp only [List.cons_append, Seg, ih]
    constructor
    · rintro ⟨h, m, h1, h2⟩; exact ⟨m, ⟨h, h1⟩, h2⟩
    · rintro ⟨m, ⟨h, h1⟩, h2⟩; exact ⟨h, m, h1, h2⟩

theorem Seg_congr {f g : Nat → Option Nat} : ∀ {l : List Nat} {s e : Option Nat}, (∀ i ∈ l, f i = g i) → Seg f s l e → Seg g s l e := by
  intro l
  induction l with
  | nil => intro s e _ h; exact h
  | cons i l ih =>
    intro s e hfg h
    refine ⟨h.1, ?_⟩
    rw [← hfg i (List.mem_cons_self ..)]
    exact ih (fun j hj => hfg j (List.mem_cons_of_mem _ hj)) h.2

theorem Seg_head {f : Nat → Option Nat} {s : Option Nat} {l : List Nat} (h : Seg f s l none) : s = l.head? := by
  cases l with
  | nil => exact h
  | cons i l => exact h.1

theorem upd_same (f : Nat → α) (i : Nat) (v : α) : upd f i v i = v := by simp [upd]
theorem upd_ne (f : Nat → α) {i j : Nat} (v : α) (h : j ≠ i) : upd f i v j = f j := by simp [upd, h]

/-- Put `c` behind the last node of a prefix. -/
theorem Seg_insert {f : Nat → Option Nat} {s : Option Nat} {P R : List Nat} {y c : Nat} (h : Seg f s (P ++ y :: R) none)
    (hnd : (P ++ y :: R).Nodup) (hc : c ∉ P ++ y :: R) : Seg (upd (upd f c (f y)) y (some c)) s (P ++ y :: c :: R) none := by
  rw [Seg_append] at h ⊢
  obtain ⟨m, h1, h2, h3⟩ := h
  rw [List.nodup_append] at hnd
  obtain ⟨n1, n2, n3⟩ := hnd
  rw [List.nodup_cons] at n2
  have hcy : c ≠ y := fun e => hc (by rw [e]; simp)
  refine ⟨m, Seg_congr ?_ h1, h2, ?_, ?_⟩
  · intro i hi
    rw [upd_ne _ _ (n3 i hi y (List.mem_cons_self ..)), upd_ne]
    intro e; exact hc (by rw [← e]; exact List.mem_append_left _ hi)
  · rw [upd_same]
  · rw [upd_ne _ _ hcy, upd_same]
    refine Seg_congr ?_ h3
    intro i hi
    rw [upd_ne, upd_ne]
    · intro e; exact hc (by rw [← e]; exact List.mem_append_right _ (List.mem_cons_of_mem _ hi))
    · intro e; rw [e] at hi; exact n2.1 hi

/-- Put `c` before everything. -/
theorem Seg_front {f : Nat → Option Nat} {s : Option Nat} {l : List Nat} {c : Nat} (h : Seg f s l none) (hc : c ∉ l) :
    Seg (upd f c s) (some c) (c :: l) none := by
  refine ⟨rfl, ?_⟩
  rw [upd_same]
  refine Seg_congr ?_ h
  intro i hi
  rw [upd_ne]
  intro e; rw [e] at hi; exact hc hi

/-- Take out the node behind `y`. -/
theorem Seg_remove {f : Nat → Option Nat} {s : Option Nat} {P R : List Nat} {y n : Nat} (h : Seg f s (P ++ y :: n :: R) none)
    (hnd : (P ++ y :: n :: R).Nodup) : Seg (upd f y (f n)) s (P ++ y :: R) none := by
  rw [Seg_append] at h ⊢
  obtain ⟨m, h1, h2, h3, h4⟩ := h
  rw [List.nodup_append] at hnd
  obtain ⟨n1, n2, n3⟩ := hnd
  rw [List.nodup_cons] at n2
  refine ⟨m, Seg_congr ?_ h1, h2, ?_⟩
  · intro i hi
    rw [upd_ne _ _ (n3 i hi y (List.mem_cons_self ..))]
  · rw [upd_same]
    refine Seg_congr ?_ h4
    intro i hi
    rw [upd_ne]
    intro e; rw [e] at hi; exact n2.1 (List.mem_cons_of_mem _ hi)

/-- Insertion behind everything with at most this offset. -/
def ins (off : Nat → Nat) (o c : Nat) (l : List Nat) : List Nat :=
  l.takeWhile (fun i => decide (off i ≤ o)) ++ c :: l.dropWhile (fun i => decide (off i ≤ o))

def Sorted (off : Nat → Nat) (l : List Nat) : Prop := l.Pairwise (fun a b => off a ≤ off b)

theorem sorted_split (off : Nat → Nat) (o : Nat) : ∀ l, Sorted off l →
    l.takeWhile (fun i => decide (off i ≤ o)) = l.filter (fun i => decide (off i ≤ o)) ∧
    l.dropWhile (fun i => decide (off i ≤ o)) = l.filter (fun i => !decide (off i ≤ o)) := by
  intro l
  induction l with
  | nil => intro _; exact ⟨rfl, rfl⟩
  | cons a l ih =>
    intro h
    rw [Sorted, List.pairwise_cons] at h
    by_cases ha : off a ≤ o
    · have := ih h.2
      simp [List.takeWhile_cons, List.dropWhile_cons, ha, this.1, this.2]
    · have h1 : ∀ b ∈ l, ¬ off b ≤ o := fun b hb => by have := h.1 b hb; omega
      constructor
      · simp only [List.takeWhile_cons, List.filter_cons, ha, decide_false, Bool.false_eq_true, if_false]
        symm
        rw [List.filter_eq_nil_iff]
        intro b hb; simpa using h1 b hb
      · simp only [List.dropWhile_cons, List.filter_cons, ha, decide_false, Bool.false_eq_true, if_false, Bool.not_false, if_true]
        congr 1
        symm
        rw [List.filter_eq_self]
        intro b hb; simpa using h1 b hb

theorem sorted_filter {off : Nat → Nat} {l : List Nat} (q : Nat → Bool) (h : Sorted off l) : Sorted off (l.filter q) := List.Pairwise.filter q h

theorem ins_filter {off : Nat → Nat} {o c : Nat} {l : List Nat} (h : Sorted off l) (q : Nat → Bool) :
    (ins off o c l).filter q = if q c then ins off o c (l.filter q) else l.filter q := by
  have hs := sorted_split off o l h
  have hf := sorted_split off o (l.filter q) (sorted_filter q h)
  unfold ins
  rw [List.filter_append, List.filter_cons]
  have e1 : (l.takeWhile (fun i => decide (off i ≤ o))).filter q = (l.filter q).takeWhile (fun i => decide (off i ≤ o)) := by
    rw [hs.1, hf.1, List.filter_filter, List.filter_filter]
    congr 1; funext i; exact Bool.and_comm _ _
  have e2 : (l.dropWhile (fun i => decide (off i ≤ o))).filter q = (l.filter q).dropWhile (fun i => decide (off i ≤ o)) := by
    rw [hs.2, hf.2, List.filter_filter, List.filter_filter]
    congr 1; funext i; exact Bool.and_comm _ _
  rw [e1, e2]
  split
  · rfl
  · exact List.takeWhile_append_dropWhile

theorem mem_ins {off : Nat → Nat} {o c i : Nat} {l : List Nat} : i ∈ ins off o c l ↔ i = c ∨ i ∈ l := by
  unfold ins
  have : i ∈ l ↔ i ∈ l.takeWhile (fun i => decide (off i ≤ o)) ∨ i ∈ l.dropWhile (fun i => decide (off i ≤ o)) := by
    rw [← List.mem_append, List.takeWhile_append_dropWhile]
  rw [List.mem_append, List.mem_cons, this]
  constructor
  · rintro (h | h | h)
    · exact Or.inr (Or.inl h)
    · exact Or.inl h
    · exact Or.inr (Or.inr h)
  · rintro (h | h | h)
    · exact Or.inr (Or.inl h)
    · exact Or.inl h
    · exact Or.inr (Or.inr h)

theorem ins_nodup {off : Nat → Nat} {o c : Nat} {l : List Nat} (h : l.Nodup) (hc : c ∉ l) : (ins off o c l).Nodup := by
  unfold ins
  have hl := List.takeWhile_append_dropWhile (p := fun i => decide (off i ≤ o)) (l := l)
  rw [← hl, List.nodup_append] at h
  rw [← hl, List.mem_append] at hc
  rw [List.nodup_append, List.nodup_cons]
  refine ⟨h.1, ⟨fun x => hc (Or.inr x), h.2.1⟩, ?_⟩
  intro a ha b hb
  rw [List.mem_cons] at hb
  rcases hb with rfl | hb
  · intro e; exact hc (Or.inl (e ▸ ha))
  · exact h.2.2 a ha b hb

theorem ins_sorted {off : Nat → Nat} {o c : Nat} {l : List Nat} (h : Sorted off l) (hc : off c = o) : Sorted off (ins off o c l) := by
  have hs := sorted_split off o l h
  unfold ins
  rw [hs.1, hs.2, Sorted, List.pairwise_append, List.pairwise_cons]
  refine ⟨sorted_filter _ h, ⟨?_, sorted_filter _ h⟩, ?_⟩
  · intro a ha
    have := (List.mem_filter.1 ha).2
    simp at this
    omega
  · intro a ha b hb
    have h1 := (List.mem_filter.1 ha).2
    simp at h1
    rw [List.mem_cons] at hb
    rcases hb with rfl | hb
    · omega
    · have h2 := (List.mem_filter.1 hb).2
      simp at h2
      omega

theorem ins_sublist {off : Nat → Nat} {o c : Nat} {l l' : List Nat} (h : l'.Sublist l) (hs : Sorted off l) : (ins off o c l').Sublist (ins off o c l) := by
  have hs' : Sorted off l' := List.Pairwise.sublist h hs
  unfold ins
  rw [(sorted_split off o l hs).1, (sorted_split off o l hs).2, (sorted_split off o l' hs').1, (sorted_split off o l' hs').2]
  exact (h.filter _).append ((h.filter _).cons_cons _)

/-- Insertion before everything. -/
theorem ins_front {off : Nat → Nat} {o c : Nat} {l : List Nat} (h : ∀ i ∈ l.head?, o < off i) : ins off o c l = c :: l := by
  unfold ins
  cases l with
  | nil => rfl
  | cons a l =>
    have := h a rfl
    have h1 : decide (off a ≤ o) = false := by simp; omega
    rw [List.takeWhile_cons, List.dropWhile_cons, h1]
    rfl

theorem ins_head {off : Nat → Nat} {o c a : Nat} {l : List Nat} (h : l.head? = some a) (ha : off a ≤ o) : (ins off o c l).head? = some a := by
  cases l with
  | nil => cases h
  | cons b l =>
    simp at h; subst h
    unfold ins
    simp [List.takeWhile_cons, ha]

/-- The loop that looks for the place. -/
theorem lastLE_spec (f : Nat → Option Nat) (off : Nat → Nat) (o : Nat) : ∀ (l : List Nat) (x fuel : Nat), Seg f (f x) l none → l.length < fuel → off x ≤ o →
    ∃ P y R, x :: l = P ++ y :: R ∧ lastLE f off o fuel x = .ok y ∧ (x :: l).takeWhile (fun i => decide (off i ≤ o)) = P ++ [y] ∧
      (x :: l).dropWhile (fun i => decide (off i ≤ o)) = R := by
  intro l
  induction l with
  | nil =>
    intro x fuel h hf hx
    obtain ⟨fuel, rfl⟩ : ∃ k, fuel = k + 1 := ⟨fuel - 1, by simp at hf; omega⟩
    refine ⟨[], x, [], rfl, ?_, ?_, ?_⟩
    · rw [lastLE, (show f x = none from h)]
    · simp [hx]
    · simp [hx]
  | cons a l ih =>
    intro x fuel h hf hx
    rw [List.length_cons] at hf
    obtain ⟨fuel, rfl⟩ : ∃ k, fuel = k + 1 := ⟨fuel - 1, by omega⟩
    by_cases ha : off a ≤ o
    · obtain ⟨P, y, R, h1, h2, h3, h4⟩ := ih a fuel h.2 (by omega) ha
      refine ⟨x :: P, y, R, by rw [h1]; rfl, ?_, ?_, ?_⟩
      · rw [lastLE, h.1]; simp only []; rw [if_pos ha, h2]
      · rw [List.takeWhile_cons, if_pos (by simpa using hx), h3]; rfl
      · rw [List.dropWhile_cons, if_pos (by simpa using hx), h4]
    · refine ⟨[], x, a :: l, rfl, ?_, ?_, ?_⟩
      · rw [lastLE, h.1]; simp only []; rw [if_neg ha]
      · simp [List.takeWhile_cons, hx, ha]
      · simp [List.dropWhile_cons, hx, ha]

/-- Insertion behind the first node. -/
theorem chain_ins {f : Nat → Option Nat} {off : Nat → Nat} {o c x fuel : Nat} {l : List Nat} (h : Seg f (some x) (x :: l) none) (hnd : (x :: l).Nodup)
    (hc : c ∉ x :: l) (hf : l.length < fuel) (hx : off x ≤ o) :
    ∃ y, lastLE f off o fuel x = .ok y ∧ y ∈ x :: l ∧ Seg (upd (upd f c (f y)) y (some c)) (some x) (ins off o c (x :: l)) none := by
  obtain ⟨P, y, R, h1, h2, h3, h4⟩ := lastLE_spec f off o l x fuel h.2 hf hx
  refine ⟨y, h2, by rw [h1]; simp, ?_⟩
  unfold ins
  rw [h3, h4, List.append_assoc, List.singleton_append]
  rw [h1] at h hnd hc
  exact Seg_insert h hnd hc

theorem findTag_spec (sib : Nat → Option Nat) (tags : Nat → List Byte) (t : List Byte) : ∀ (l : List Nat) (s prev : Option Nat) (fuel : Nat), Seg sib s l none → l.length < fuel →
    findTag sib tags t fuel prev s = .ok ((l.takeWhile (fun i => !(tags i == t))).getLast?.or prev, (l.dropWhile (fun i => !(tags i == t))).head?) := by
  intro l
  induction l with
  | nil =>
    intro s prev fuel h hf
    obtain ⟨fuel, rfl⟩ : ∃ k, fuel = k + 1 := ⟨fuel - 1, by simp at hf; omega⟩
    rw [show s = none from h, findTag]; rfl
  | cons a l ih =>
    intro s prev fuel h hf
    rw [List.length_cons] at hf
    obtain ⟨fuel, rfl⟩ : ∃ k, fuel = k + 1 := ⟨fuel - 1, by omega⟩
    rw [h.1, findTag]
    by_cases ha : tags a = t
    · rw [if_neg (by simpa using ha), List.takeWhile_cons, List.dropWhile_cons, if_neg (by simp [ha]), if_neg (by simp [ha])]; rfl
    · rw [if_pos (by simpa using ha), ih _ _ _ h.2 (by omega), List.takeWhile_cons, List.dropWhile_cons, if_pos (by simp [ha]), if_pos (by simp [ha])]
      congr 2
      rw [List.getLast?_cons]
      cases (List.takeWhile (fun i => !(tags i == t)) l).getLast? <;> rfl

theorem siblingSpot_spec (sib : Nat → Option Nat) (off : Nat → Nat) (o : Nat) : ∀ (l : List Nat) (s prev : Option Nat) (fuel : Nat), Seg sib s l none → l.length < fuel →
    siblingSpot sib off o fuel prev s = .ok ((l.takeWhile (fun i => decide (off i ≤ o))).getLast?.or prev, (l.dropWhile (fun i => decide (off i ≤ o))).head?) := by
  intro l
  induction l with
  | nil =>
    intro s prev fuel h hf
    obtain ⟨fuel, rfl⟩ : ∃ k, fuel = k + 1 := ⟨fuel - 1, by simp at hf; omega⟩
    rw [show s = none from h, siblingSpot]; rfl
  | cons a l ih =>
    intro s prev fuel h hf
    rw [List.length_cons] at hf
    obtain ⟨fuel, rfl⟩ : ∃ k, fuel = k + 1 := ⟨fuel - 1, by omega⟩
    rw [h.1, siblingSpot]
    by_cases ha : off a ≤ o
    · rw [if_pos ha, ih _ _ _ h.2 (by omega), List.takeWhile_cons, List.dropWhile_cons, if_pos (by simpa using ha), if_pos (by simpa using ha)]
      congr 2
      rw [List.getLast?_cons]
      cases (List.takeWhile (fun i => decide (off i ≤ o)) l).getLast? <;> rfl
    · rw [if_neg ha, List.takeWhile_cons, List.dropWhile_cons, if_neg (by simpa using ha), if_neg (by simpa using ha)]; rfl

theorem follow_spec (f : Nat → Option Nat) : ∀ (l : List Nat) (s : Option Nat) (fuel : Nat), Seg f s l none → l.length < fuel → follow f fuel s = .ok l := by
  intro l
  induction l with
  | nil =>
    intro s fuel h hf
    obtain ⟨fuel, rfl⟩ : ∃ k, fuel = k + 1 := ⟨fuel - 1, by simp at hf; omega⟩
    rw [show s = none from h, follow]
  | cons a l ih =>
    intro s fuel h hf
    rw [List.length_cons] at hf
    obtain ⟨fuel, rfl⟩ : ∃ k, fuel = k + 1 := ⟨fuel - 1, by omega⟩
    rw [h.1, follow, ih _ _ h.2 (by omega), Res.ok_bind]

/-- Distinct numbers below a bound are few. -/
theorem nodup_length : ∀ (n : Nat) (l : List Nat), l.Nodup → (∀ i ∈ l, i < n) → l.length ≤ n := by
  intro n
  induction n with
  | zero =>
    intro l _ h
    cases l with
    | nil => simp
    | cons a l => exact absurd (h a (List.mem_cons_self ..)) (by omega)
  | succ n ih =>
    intro l hnd h
    have h1 := ih (l.erase n) (hnd.erase n) (by
      intro i hi
      have h2 := h i (List.mem_of_mem_erase hi)
      have h3 : i ≠ n := by
        intro e; subst e
        exact (List.Nodup.not_mem_erase hnd) hi
      omega)
    have h2 := List.length_erase (a := n) (l := l)
    split at h2 <;> omega

end Wizard.XmlL

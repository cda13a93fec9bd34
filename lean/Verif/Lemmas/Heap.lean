import Verif.Model.Heap
/-! Words, size classes and lists of the memory pool. -/
namespace Wizard.Pool
open Wizard

theorem sizeMax_eq : sizeMax = 18446744073709551616 := by unfold sizeMax; rfl

theorem setWord_out (m : Nat → Nat) (a w x : Nat) (h : x < a ∨ a + 8 ≤ x) : setWord m a w x = m x := by
  unfold setWord
  rw [if_neg (by omega), if_neg (by omega), if_neg (by omega), if_neg (by omega), if_neg (by omega), if_neg (by omega), if_neg (by omega), if_neg (by omega)]

theorem word_congr {m m' : Nat → Nat} {a : Nat} (h : ∀ x, a ≤ x → x < a + 8 → m' x = m x) : word m' a = word m a := by
  unfold word
  rw [h a (by omega) (by omega), h (a + 1) (by omega) (by omega), h (a + 2) (by omega) (by omega), h (a + 3) (by omega) (by omega),
    h (a + 4) (by omega) (by omega), h (a + 5) (by omega) (by omega), h (a + 6) (by omega) (by omega), h (a + 7) (by omega) (by omega)]

theorem word_other (m : Nat → Nat) (a w b : Nat) (h : b + 8 ≤ a ∨ a + 8 ≤ b) : word (setWord m a w) b = word m b :=
  word_congr (fun x _ _ => setWord_out m a w x (by omega))

theorem word_same (m : Nat → Nat) (a w : Nat) (h : w < sizeMax) : word (setWord m a w) a = w := by
  rw [sizeMax_eq] at h
  unfold word setWord
  simp only [if_true, Nat.add_right_cancel_iff, Nat.add_eq_left, Nat.add_left_cancel_iff, Nat.succ_ne_zero, if_false, Nat.reduceEqDiff]
  omega

theorem word_lt (m : Nat → Nat) (a : Nat) : word m a < sizeMax := by
  rw [sizeMax_eq]
  unfold word
  omega

/-- Words at aligned addresses: a store changes one of them. -/
theorem word_set (m : Nat → Nat) {a w b : Nat} (hw : w < sizeMax) (ha : a % 8 = 0) (hb : b % 8 = 0) :
    word (setWord m a w) b = if b = a then w else word m b := by
  split
  · rename_i h; subst h; exact word_same m b w hw
  · exact word_other m a w b (by omega)

theorem given_iff (h : Heap) (a : Nat) : given h a = true ↔ a % 8 = 0 ∧ ∃ s ∈ h.mapped, s.1 ≤ a ∧ a + 8 ≤ s.1 + s.2 := by
  unfold given
  simp

theorem load_ok {h : Heap} {a : Nat} (hg : given h a = true) : load h a = .ok (word h.mem a) := by
  unfold load; rw [if_pos hg]

theorem store_ok {h : Heap} {a : Nat} (w : Nat) (hg : given h a = true) : store h a w = .ok { h with mem := setWord h.mem a w } := by
  unfold store; rw [if_pos hg]

/-! ### Size classes -/

theorem halvings_mono : ∀ (t s : Nat), s ≤ t → halvings s ≤ halvings t := by
  intro t
  induction t using Nat.strongRecOn with
  | ind t ih =>
    intro s hs
    rw [halvings.eq_def s, halvings.eq_def t]
    by_cases h1 : s > 1024
    · rw [if_pos h1, if_pos (by omega)]
      have := ih (t / 2) (by omega) (s / 2) (by omega)
      omega
    · rw [if_neg h1]
      exact Nat.zero_le _

theorem halvings_pos {s : Nat} (h : s > 1024) : 0 < halvings s := by
  rw [halvings.eq_def, if_pos h]; omega

theorem halvings_top : halvings 33554432 = 15 := by
  simp [halvings]

theorem policy_ok {s : Nat} (h0 : 0 < s) (h32 : s % 32 = 0) : ∃ i, policy s = .ok i ∧ i < maxBlocks ∧ 0 < i := by
  unfold policy maxBlocks
  rw [if_neg (by omega), if_neg (by omega)]
  by_cases h1 : s ≤ 1024
  · rw [if_pos h1]; exact ⟨_, rfl, by omega, by omega⟩
  · rw [if_neg h1]
    by_cases h2 : s > 33554432
    · rw [if_pos h2]; exact ⟨_, rfl, by omega, by omega⟩
    · rw [if_neg h2]
      have a := halvings_pos (s := s) (by omega)
      have b := halvings_mono 33554432 s (by omega)
      rw [halvings_top] at b
      simp only []
      rw [if_pos (by omega)]
      exact ⟨_, rfl, by omega, by omega⟩

theorem policy_lt {s i : Nat} (h : policy s = .ok i) : i < maxBlocks := by
  by_cases h0 : s = 0
  · subst h0; simp [policy] at h
  · by_cases h1 : s % 32 = 0
    · obtain ⟨j, hj, hl, _⟩ := policy_ok (s := s) (by omega) h1
      rw [h] at hj
      cases hj
      exact hl
    · unfold policy at h
      rw [if_neg h0, if_pos h1] at h
      cases h

theorem policy_mono {s t i j : Nat} (hs : policy s = .ok i) (ht : policy t = .ok j) (h : s ≤ t) : i ≤ j := by
  have hj := policy_lt ht
  have hi := policy_lt hs
  unfold policy at hs ht
  unfold maxBlocks at *
  by_cases s0 : s = 0
  · rw [if_pos s0] at hs; cases hs
  by_cases s1 : s % 32 ≠ 0
  · rw [if_neg s0, if_pos s1] at hs; cases hs
  by_cases t0 : t = 0
  · rw [if_pos t0] at ht; cases ht
  by_cases t1 : t % 32 ≠ 0
  · rw [if_neg t0, if_pos t1] at ht; cases ht
  rw [if_neg s0, if_neg s1] at hs
  rw [if_neg t0, if_neg t1] at ht
  simp only [] at hs ht
  by_cases t2 : t ≤ 1024
  · rw [if_pos t2] at ht
    rw [if_pos (by omega)] at hs
    cases hs; cases ht
    omega
  · rw [if_neg t2] at ht
    by_cases t3 : t > 33554432
    · rw [if_pos t3] at ht
      cases ht
      omega
    · rw [if_neg t3] at ht
      by_cases s2 : s ≤ 1024
      · rw [if_pos s2] at hs
        split at ht
        · cases hs; cases ht
          omega
        · cases ht
      · rw [if_neg s2, if_neg (by omega)] at hs
        split at ht
        · split at hs
          · cases hs; cases ht
            have := halvings_mono t s h
            omega
          · cases hs
        · cases ht

/-- Blocks of a higher class are larger. -/
theorem policy_strict {s t i j : Nat} (hs : policy s = .ok i) (ht : policy t = .ok j) (h : i < j) : s < t := by
  by_cases h1 : s < t
  · exact h1
  · have := policy_mono ht hs (by omega)
    omega

/-! ### Lists -/

/-- The elements are linked in both directions; `p` is before the first, `e` after the last. -/
def chainTo (W : Nat → Nat) : Nat → List Nat → Nat → Prop
  | _, [], _ => True
  | p, a :: t, e => W (a + 8) = p ∧ W a = t.headD e ∧ chainTo W a t e

theorem chainTo_append (W : Nat → Nat) : ∀ (l₁ l₂ : List Nat) (p e : Nat), chainTo W p (l₁ ++ l₂) e ↔ chainTo W p l₁ (l₂.headD e) ∧ chainTo W (l₁.getLastD p) l₂ e := by
  intro l₁
  induction l₁ with
  | nil => intro l₂ p e; simp [chainTo]
  | cons a t ih =>
    intro l₂ p e
    have h1 : (t ++ l₂).headD e = t.headD (l₂.headD e) := by cases t <;> rfl
    have h2 : (a :: t).getLastD p = t.getLastD a := by cases t <;> rfl
    rw [List.cons_append, chainTo, chainTo, ih, h1, h2]
    constructor
    · rintro ⟨x, y, z, w⟩; exact ⟨⟨x, y, z⟩, w⟩
    · rintro ⟨⟨x, y, z⟩, w⟩; exact ⟨x, y, z, w⟩

theorem chainTo_congr {W W' : Nat → Nat} : ∀ {l : List Nat} {p e : Nat}, chainTo W p l e → (∀ x ∈ l, W' x = W x ∧ W' (x + 8) = W (x + 8)) → chainTo W' p l e := by
  intro l
  induction l with
  | nil => intro p e _ _; trivial
  | cons a t ih =>
    intro p e h hw
    refine ⟨?_, ?_, ih h.2.2 (fun x hx => hw x (List.mem_cons_of_mem _ hx))⟩
    · rw [(hw a List.mem_cons_self).2]; exact h.1
    · rw [(hw a List.mem_cons_self).1]; exact h.2.1

/-- Another successor for the last element. -/
theorem chainTo_last {W W' : Nat → Nat} {l : List Nat} {p e e' : Nat} (h : chainTo W p l e)
    (hw : ∀ x ∈ l, (x ≠ l.getLastD 0 → W' x = W x) ∧ W' (x + 8) = W (x + 8)) (hl : l ≠ [] → W' (l.getLastD 0) = e') (hn : l.Nodup) : chainTo W' p l e' := by
  rcases List.eq_nil_or_concat l with rfl | ⟨t, z, rfl⟩
  · trivial
  · have hz : (t.concat z).getLastD 0 = z := by simp
    rw [List.concat_eq_append] at *
    rw [hz] at hw hl
    rw [chainTo_append] at h ⊢
    refine ⟨?_, ?_, ?_, trivial⟩
    · refine chainTo_congr h.1 (fun x hx => ⟨(hw x (List.mem_append_left _ hx)).1 ?_, (hw x (List.mem_append_left _ hx)).2⟩)
      rintro rfl
      rw [List.nodup_append] at hn
      exact hn.2.2 x hx x (by simp) rfl
    · rw [(hw z (by simp)).2]; exact h.2.1
    · exact hl (by simp)

/-- Another predecessor for the first element. -/
theorem chainTo_first {W W' : Nat → Nat} {l : List Nat} {p p' e : Nat} (h : chainTo W p l e)
    (hw : ∀ x ∈ l, W' x = W x ∧ (x ≠ l.headD 0 → W' (x + 8) = W (x + 8))) (hl : l ≠ [] → W' (l.headD 0 + 8) = p') (hn : l.Nodup) : chainTo W' p' l e := by
  cases l with
  | nil => trivial
  | cons a t =>
    refine ⟨hl (by simp), ?_, ?_⟩
    · rw [(hw a (by simp)).1]; exact h.2.1
    · refine chainTo_congr h.2.2 (fun x hx => ⟨(hw x (by simp [hx])).1, (hw x (by simp [hx])).2 ?_⟩)
      rintro rfl
      simp at hn
      exact hn.1 hx

/-- Whether a block is too small. -/
def smaller (sz : Nat → Nat) (size : Nat) : Nat → Bool := fun x => decide (sz x < size)

/-- The walk of `InsertFreeBlock`. -/
theorem insertWalk_spec {h : Heap} {sz : Nat → Nat} (size : Nat) : ∀ (l : List Nat) (p fuel : Nat), chainTo (word h.mem) p l 0 → l.length < fuel →
    (∀ x ∈ l, x ≠ 0 ∧ sizeOf h x = .ok (sz x) ∧ given h x = true) →
    insertWalk h size fuel p (l.headD 0) = .ok ((l.takeWhile (smaller sz size)).getLastD p, (l.dropWhile (smaller sz size)).headD 0) := by
  intro l
  induction l with
  | nil =>
    intro p fuel _ hf _
    obtain ⟨fuel, rfl⟩ : ∃ k, fuel = k + 1 := ⟨fuel - 1, by omega⟩
    rw [insertWalk]
    simp
  | cons a t ih =>
    intro p fuel hc hf hx
    obtain ⟨fuel, rfl⟩ : ∃ k, fuel = k + 1 := ⟨fuel - 1, by omega⟩
    obtain ⟨a0, a1, a2⟩ := hx a (by simp)
    rw [insertWalk, List.headD_cons, if_neg a0, a1, Res.ok_bind]
    by_cases hs : sz a < size
    · have hd : smaller sz size a = true := decide_eq_true hs
      rw [if_pos hs, load_ok a2, Res.ok_bind, hc.2.1, ih a fuel hc.2.2 (by simp at hf; omega) (fun x hx' => hx x (by simp [hx'])),
        List.takeWhile_cons_of_pos hd, List.dropWhile_cons_of_pos hd]
      congr 2
      cases t.takeWhile (smaller sz size) <;> rfl
    · have hd : ¬ smaller sz size a = true := by simpa [smaller] using hs
      rw [if_neg hs, List.takeWhile_cons_of_neg hd, List.dropWhile_cons_of_neg hd]
      simp

/-- The walk of `AcquireBlock`. -/
theorem fitWalk_spec {h : Heap} {sz : Nat → Nat} (size : Nat) : ∀ (l : List Nat) (p fuel : Nat), chainTo (word h.mem) p l 0 → l.length < fuel →
    (∀ x ∈ l, x ≠ 0 ∧ sizeOf h x = .ok (sz x) ∧ given h x = true) →
    fitWalk h size fuel (l.headD 0) = .ok ((l.dropWhile (smaller sz size)).headD 0) := by
  intro l
  induction l with
  | nil =>
    intro p fuel _ hf _
    obtain ⟨fuel, rfl⟩ : ∃ k, fuel = k + 1 := ⟨fuel - 1, by omega⟩
    rw [fitWalk]
    simp
  | cons a t ih =>
    intro p fuel hc hf hx
    obtain ⟨fuel, rfl⟩ : ∃ k, fuel = k + 1 := ⟨fuel - 1, by omega⟩
    obtain ⟨a0, a1, a2⟩ := hx a (by simp)
    rw [fitWalk, List.headD_cons, if_neg a0, a1, Res.ok_bind]
    by_cases hs : sz a < size
    · have hd : smaller sz size a = true := decide_eq_true hs
      rw [if_pos hs, load_ok a2, Res.ok_bind, hc.2.1, ih a fuel hc.2.2 (by simp at hf; omega) (fun x hx' => hx x (by simp [hx'])), List.dropWhile_cons_of_pos hd]
    · have hd : ¬ smaller sz size a = true := by simpa [smaller] using hs
      rw [if_neg hs, List.dropWhile_cons_of_neg hd]
      simp

end Wizard.Pool

import Verif.Lemmas.Heap
/-! The invariant of the memory pool and the steps that keep it. -/
namespace Wizard.Pool
open Wizard

/-- What a block is: allocated, free and in its list, or neither: about to become one of the two. -/
inductive Kind where
  | live
  | free
  | held
  deriving DecidableEq

/-- The blocks: for the address of a block its size and kind. -/
abbrev Blocks := Nat → Option (Nat × Kind)

/-- One block changed. -/
def upd (B : Blocks) (a : Nat) (v : Option (Nat × Kind)) : Blocks := fun x => if x = a then v else B x

theorem upd_same (B : Blocks) (a : Nat) (v : Option (Nat × Kind)) : upd B a v a = v := by simp [upd]
theorem upd_other (B : Blocks) {a x : Nat} (v : Option (Nat × Kind)) (h : x ≠ a) : upd B a v x = B x := by simp [upd, h]

/-- The address after the last block of a segment. -/
def IsEnd (M : List (Nat × Nat)) (x : Nat) : Prop := ∃ g ∈ M, x + 64 = g.1 + g.2

/-- A block that is not allocated ends here. -/
def OpenEnd (B : Blocks) (x : Nat) : Prop := ∃ p s k, B p = some (s, k) ∧ k ≠ .live ∧ p + s = x

/-- The size of a block. -/
def szB (B : Blocks) (a : Nat) : Nat := match B a with
  | some (s, _) => s
  | none => 0

theorem szB_of {B : Blocks} {a s : Nat} {k : Kind} (h : B a = some (s, k)) : szB B a = s := by simp [szB, h]

/-- The blocks tile the segments. -/
structure Shape (M : List (Nat × Nat)) (B : Blocks) : Prop where
  seg : ∀ g ∈ M, 0 < g.1 ∧ g.1 % 16 = 0 ∧ g.2 % 32 = 0 ∧ 128 ≤ g.2 ∧ g.1 + g.2 < sizeMax
  segs : ∀ g ∈ M, ∀ g' ∈ M, g = g' ∨ g.1 + g.2 ≤ g'.1 ∨ g'.1 + g'.2 ≤ g.1
  blk : ∀ a s k, B a = some (s, k) → a % 16 = 0 ∧ s % 32 = 0 ∧ 0 < s ∧ ∃ g ∈ M, g.1 + 32 ≤ a ∧ a + s + 64 ≤ g.1 + g.2
  disj : ∀ a s k b t j, B a = some (s, k) → B b = some (t, j) → a < b → a + s ≤ b
  next : ∀ a s k, B a = some (s, k) → (∃ v, B (a + s) = some v) ∨ IsEnd M (a + s)
  first : ∀ g ∈ M, ∃ v, B (g.1 + 32) = some v
  apart : ∀ a s t, B a = some (s, .free) → B (a + s) ≠ some (t, .free)

/-- The boundary tags. -/
structure Tags (W : Nat → Nat) (M : List (Nat × Nat)) (B : Blocks) : Prop where
  size : ∀ a s k, B a = some (s, k) → k ≠ .held → W (a - 8) / 2 * 2 = s
  bit : ∀ a s k, B a = some (s, k) → (W (a - 8) % 2 = 0 ↔ OpenEnd B a)
  mark : ∀ x, IsEnd M x → W (x - 8) / 2 * 2 = 16 ∧ (W (x - 8) % 2 = 0 ↔ OpenEnd B x) ∧ W (x + 8) = 1
  foot : ∀ a s, B a = some (s, .free) → W (a + s - 16) = s

/-- The lists of free blocks. -/
structure Lists (W : Nat → Nat) (bl : Nat → Nat) (B : Blocks) (L : Nat → List Nat) : Prop where
  mem : ∀ i a, a ∈ L i ↔ ∃ s, B a = some (s, .free) ∧ policy s = .ok i
  nodup : ∀ i, (L i).Nodup
  sorted : ∀ i, (L i).Pairwise (fun a b => szB B a ≤ szB B b)
  head : ∀ i, i < maxBlocks → bl i = (L i).headD 0
  chain : ∀ i, chainTo W 0 (L i) 0
  top : bl maxBlocks ≠ 0

/-- The invariant. -/
structure Inv (h : Heap) (B : Blocks) (L : Nat → List Nat) : Prop where
  shape : Shape h.mapped B
  tags : Tags (word h.mem) h.mapped B
  lists : Lists (word h.mem) h.blocks B L

/-- What no step changes. -/
def Same (h h' : Heap) : Prop := h'.mapped = h.mapped ∧ h'.segments = h.segments ∧ h'.unused = h.unused

theorem Same.refl (h : Heap) : Same h h := ⟨rfl, rfl, rfl⟩
theorem Same.trans {a b c : Heap} (h : Same a b) (h' : Same b c) : Same a c := ⟨h'.1.trans h.1, h'.2.1.trans h.2.1, h'.2.2.trans h.2.2⟩

/-- Only the links of free blocks change. -/
def Frame (B : Blocks) (h h' : Heap) : Prop := ∀ x, (∀ f s, B f = some (s, .free) → x < f ∨ f + 16 ≤ x) → h'.mem x = h.mem x

/-! ### Where things are -/

theorem Shape.sep {M B} (S : Shape M B) {a s k b t j} (ha : B a = some (s, k)) (hb : B b = some (t, j)) (h : a ≠ b) : a + s ≤ b ∨ b + t ≤ a := by
  rcases Nat.lt_or_gt_of_ne h with h | h
  · exact .inl (S.disj _ _ _ _ _ _ ha hb h)
  · exact .inr (S.disj _ _ _ _ _ _ hb ha h)

theorem Shape.size_pos {M B} (S : Shape M B) {a s k} (ha : B a = some (s, k)) : 32 ≤ s ∧ s % 32 = 0 ∧ a % 16 = 0 ∧ 33 ≤ a ∧ a + s < sizeMax := by
  obtain ⟨h1, h2, h3, g, hg, h4, h5⟩ := S.blk _ _ _ ha
  have := S.seg g hg
  omega

theorem Shape.endSep {M B} (S : Shape M B) {a s k x} (ha : B a = some (s, k)) (hx : IsEnd M x) : a + s ≤ x ∨ x + 64 ≤ a := by
  obtain ⟨h1, h2, h3, g, hg, h4, h5⟩ := S.blk _ _ _ ha
  obtain ⟨g', hg', hx⟩ := hx
  rcases S.segs g hg g' hg' with rfl | h | h
  · omega
  · have := S.seg g' hg'
    omega
  · omega

theorem Shape.endAl {M B} (S : Shape M B) {x} (hx : IsEnd M x) : x % 16 = 0 ∧ 65 ≤ x ∧ x < sizeMax := by
  obtain ⟨g, hg, hx⟩ := hx
  have := S.seg g hg
  omega

theorem Shape.endEnd {M B} (S : Shape M B) {x y} (hx : IsEnd M x) (hy : IsEnd M y) : x = y ∨ x + 128 ≤ y ∨ y + 128 ≤ x := by
  obtain ⟨g, hg, hx⟩ := hx
  obtain ⟨g', hg', hy⟩ := hy
  have := S.seg g hg
  have := S.seg g' hg'
  rcases S.segs g hg g' hg' with rfl | h | h <;> omega

/-- The words of a block and around it can be accessed. -/
theorem Shape.given {h : Heap} {B} (S : Shape h.mapped B) {a s k} (ha : B a = some (s, k)) {x : Nat} (hx : x % 8 = 0) (h1 : a ≤ x + 32) (h2 : x ≤ a + s + 56) :
    given h x = true := by
  rw [given_iff]
  obtain ⟨_, _, h3, g, hg, h4, h5⟩ := S.blk _ _ _ ha
  exact ⟨hx, g, hg, by omega, by omega⟩

theorem Tags.sizeOf {h : Heap} {B} (S : Shape h.mapped B) (T : Tags (word h.mem) h.mapped B) {a s k} (ha : B a = some (s, k)) (hk : k ≠ .held) :
    Pool.sizeOf h a = .ok s := by
  unfold Pool.sizeOf
  have := S.size_pos ha
  rw [load_ok (S.given ha (by omega) (by omega) (by omega)), Res.ok_bind, T.size _ _ _ ha hk]

/-- The lists do not depend on other words. -/
theorem Lists.congr {W W' bl B L} (Q : Lists W bl B L) (h : ∀ a s, B a = some (s, .free) → W' a = W a ∧ W' (a + 8) = W (a + 8)) : Lists W' bl B L :=
  ⟨Q.mem, Q.nodup, Q.sorted, Q.head, fun i => chainTo_congr (Q.chain i) (fun x hx => by
    obtain ⟨s, hs, _⟩ := (Q.mem i x).1 hx
    exact h x s hs), Q.top⟩

theorem Tags.congr {W W' M B} (T : Tags W M B) (h1 : ∀ a s k, B a = some (s, k) → W' (a - 8) = W (a - 8))
    (h2 : ∀ x, IsEnd M x → W' (x - 8) = W (x - 8) ∧ W' (x + 8) = W (x + 8)) (h3 : ∀ a s, B a = some (s, .free) → W' (a + s - 16) = W (a + s - 16)) : Tags W' M B where
  size := fun a s k ha hk => by rw [h1 a s k ha]; exact T.size a s k ha hk
  bit := fun a s k ha => by rw [h1 a s k ha]; exact T.bit a s k ha
  mark := fun x hx => by rw [(h2 x hx).1, (h2 x hx).2]; exact T.mark x hx
  foot := fun a s ha => by rw [h3 a s ha]; exact T.foot a s ha

/-- Memory inside a block that is not free does not matter. -/
theorem Inv.inside {h h' : Heap} {B L} (I : Inv h B L) (hm : h'.mapped = h.mapped) (hb : h'.blocks = h.blocks) {a s k} (ha : B a = some (s, k)) (hk : k ≠ .free)
    (hx : ∀ x, x < a ∨ a + s ≤ x + 8 → h'.mem x = h.mem x) : Inv h' B L := by
  have S := I.shape
  have pa := S.size_pos ha
  have key : ∀ y, y + 8 ≤ a ∨ a + s ≤ y + 8 → word h'.mem y = word h.mem y := fun y hy => word_congr (fun x _ _ => hx x (by omega))
  refine ⟨hm ▸ S, hm ▸ I.tags.congr (fun b t j hb => ?_) (fun x hx => ?_) (fun b t hb => ?_), hb ▸ I.lists.congr (fun b t hb => ?_)⟩
  · have pb := S.size_pos hb
    apply key
    by_cases e : a = b
    · subst e; omega
    · rcases S.sep ha hb e with h | h <;> omega
  · have := S.endSep ha hx
    have := S.endAl hx
    exact ⟨key _ (by omega), key _ (by omega)⟩
  · have pb := S.size_pos hb
    apply key
    by_cases e : a = b
    · subst e; rw [ha] at hb; cases hb; exact absurd rfl hk
    · rcases S.sep ha hb e with h | h <;> omega
  · have pb := S.size_pos hb
    by_cases e : a = b
    · subst e; rw [ha] at hb; cases hb; exact absurd rfl hk
    · rcases S.sep ha hb e with h | h <;> exact ⟨key _ (by omega), key _ (by omega)⟩

/-- Kinds change, sizes do not. -/
theorem Shape.kind {M B} (S : Shape M B) {a s k} (ha : B a = some (s, k)) (k' : Kind)
    (hk : k' = .free → (∀ t, B (a + s) ≠ some (t, .free)) ∧ ∀ p t, B p = some (t, .free) → p + t ≠ a) : Shape M (upd B a (some (s, k'))) := by
  have key : ∀ b t j, upd B a (some (s, k')) b = some (t, j) → ∃ j', B b = some (t, j') := by
    intro b t j h
    by_cases e : b = a
    · subst e; rw [upd_same] at h; cases h; exact ⟨k, ha⟩
    · rw [upd_other _ _ e] at h; exact ⟨j, h⟩
  have key2 : ∀ b v, B b = some v → ∃ v', upd B a (some (s, k')) b = some v' := by
    intro b v h
    by_cases e : b = a
    · subst e; rw [upd_same]; exact ⟨_, rfl⟩
    · rw [upd_other _ _ e]; exact ⟨v, h⟩
  refine ⟨S.seg, S.segs, fun b t j h => ?_, fun b t j c u m h h' => ?_, fun b t j h => ?_, fun g hg => ?_, fun b t u h h' => ?_⟩
  · obtain ⟨j', h'⟩ := key b t j h
    exact S.blk b t j' h'
  · obtain ⟨j', h1⟩ := key _ _ _ h
    obtain ⟨m', h2⟩ := key _ _ _ h'
    exact S.disj _ _ _ _ _ _ h1 h2
  · obtain ⟨j', h1⟩ := key _ _ _ h
    rcases S.next _ _ _ h1 with ⟨v, hv⟩ | h2
    · exact .inl (key2 _ _ hv)
    · exact .inr h2
  · obtain ⟨v, hv⟩ := S.first g hg
    exact key2 _ _ hv
  · by_cases e : b = a
    · subst e
      rw [upd_same] at h
      cases h
      have pb := S.size_pos ha
      rw [upd_other _ _ (by omega)] at h'
      exact (hk rfl).1 u h'
    · rw [upd_other _ _ e] at h
      by_cases e' : b + t = a
      · rw [e', upd_same] at h'
        cases h'
        exact (hk rfl).2 b t h e'
      · rw [upd_other _ _ e'] at h'
        exact S.apart b t u h h'

end Wizard.Pool

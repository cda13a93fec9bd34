import Verif.Lemmas.HeapFree
import Verif.Spec.Heap
/-! The calls of the memory pool keep its invariant. -/
namespace Wizard.Pool
open Wizard

/-- The state between calls. -/
structure Good (h : Heap) (B : Blocks) (L : Nat → List Nat) : Prop where
  inv : Inv h B L
  held : NoHeld B
  segs : h.segments.Perm h.mapped
  count : h.unused + h.segments.length = maxSegments

/-- A block of `m` bytes became allocated: the smallest free one that is large enough gave it. -/
structure Took (h : Heap) (B : Blocks) (h' : Heap) (B' : Blocks) (r m : Nat) : Prop where
  pos : r ≠ 0
  live : B' r = some (m, .live)
  was : ∃ s, B r = some (s, .free) ∧ m ≤ s ∧ ∀ b t, B b = some (t, .free) → m ≤ t → s ≤ t
  others : ∀ a t, a ≠ r → (B' a = some (t, .live) ↔ B a = some (t, .live))
  keep : Keep B h h'

theorem Took.old {h h' : Heap} {B B' : Blocks} {r m : Nat} (T : Took h B h' B' r m) {a t : Nat} (ha : B a = some (t, .live)) : a ≠ r ∧ B' a = some (t, .live) := by
  have hne : a ≠ r := by
    rintro rfl
    obtain ⟨s, hs, _⟩ := T.was
    rw [hs] at ha; cases ha
  exact ⟨hne, (T.others a t hne).2 ha⟩

theorem round_eq {n : Nat} (hn : n + 55 < sizeMax) : roundSize n = (n + 55) / 32 * 32 := by
  unfold roundSize
  rw [Nat.mod_eq_of_lt hn]

theorem round_pos {n : Nat} (hn : n + 55 < sizeMax) : 0 < roundSize n := by
  rw [round_eq hn]; omega

theorem acquireBlock_ok {h : Heap} {B L} (G : Good h B L) {n : Nat} (h0 : 0 < roundSize n) :
    ∃ N r h', (∀ fuel, N ≤ fuel → acquireBlock fuel h n = .ok (r, h')) ∧
      ((r = 0 ∧ h' = h ∧ ∀ b s, B b = some (s, .free) → s < roundSize n) ∨ ∃ B' L', Good h' B' L' ∧ Same h h' ∧ Took h B h' B' r (roundSize n)) := by
  have h32 : roundSize n % 32 = 0 := by unfold roundSize; omega
  obtain ⟨N, r, hr, hc⟩ := findFree_ok G.inv h0 h32
  rcases hc with ⟨rfl, hs⟩ | ⟨hr0, s, hs, hle, hbest⟩
  · refine ⟨N, 0, h, fun fuel hf => ?_, .inl ⟨rfl, rfl, hs⟩⟩
    unfold acquireBlock
    rw [hr fuel hf, Res.ok_bind, if_pos rfl]
  · obtain ⟨N', h', B', L', q1, q2, I', nh', hl, ho, hk⟩ := take_ok G.inv G.held hs h0 h32 hle
    refine ⟨max N N', r, h', fun fuel hf => ?_, .inr ⟨B', L', ⟨I', nh', ?_, ?_⟩, q2, ⟨hr0, hl, ⟨s, hs, hle, hbest⟩, ho, hk⟩⟩⟩
    · unfold acquireBlock
      rw [hr fuel (by omega), Res.ok_bind, if_neg hr0, q1 fuel (by omega)]
    · rw [q2.1, q2.2.1]; exact G.segs
    · rw [q2.2.2, q2.2.1]; exact G.count

theorem perm_insertSegment (s : Nat × Nat) : ∀ (l : List (Nat × Nat)), (insertSegment l s).Perm (s :: l) := by
  intro l
  induction l with
  | nil => exact List.Perm.refl _
  | cons t l ih =>
    unfold insertSegment
    split
    · exact List.Perm.refl _
    · exact (List.Perm.cons t ih).trans (List.Perm.swap s t l)

theorem length_insertSegment (s : Nat × Nat) : ∀ (l : List (Nat × Nat)), (insertSegment l s).length = l.length + 1 := by
  intro l
  induction l with
  | nil => rfl
  | cons t l ih =>
    unfold insertSegment
    split
    · simp
    · simp [ih]

theorem segment_facts {n : Nat} (hn : n + 96 + segmentSize < sizeMax) : segmentFor n % 32 = 0 ∧ 128 ≤ segmentFor n ∧ n + 96 ≤ segmentFor n ∧ segmentFor n < sizeMax := by
  unfold segmentFor
  have hk : segmentSize = 2097152 := rfl
  rw [hk] at hn ⊢
  rw [Nat.mod_eq_of_lt (a := n + 96) (by omega), Nat.mod_eq_of_lt (a := n + 96 + (2097152 - 1)) (by omega)]
  omega

theorem expand_ok {h : Heap} {B L} (G : Good h B L) {n base : Nat} (f2 : 128 ≤ segmentFor n) (hu : 0 < h.unused) (g : Spec.Pool.Grant h.mapped base (segmentFor n)) :
    ∃ N h' L', (∀ fuel, N ≤ fuel → expand fuel h n (some base) = .ok (true, h')) ∧ Good h' (upd B (base + 32) (some (segmentFor n - 96, .free))) L' ∧
      h'.mapped = (base, segmentFor n) :: h.mapped ∧ B (base + 32) = none ∧ h'.unused + 1 = h.unused ∧ Keep B h h' := by
  have f1 : segmentFor n % 32 = 0 := by
    unfold segmentFor
    have : segmentSize = 2097152 := rfl
    rw [this]; omega
  have hc := G.count
  obtain ⟨N, h', L', r1, r2, I', hk⟩ := layOut_ok G.inv g.pos g.aligned f1 f2 g.fits g.apart
    (h0 := { h with mapped := (base, segmentFor n) :: h.mapped, segments := insertSegment h.segments (base, segmentFor n), unused := h.unused - 1 }) rfl rfl rfl
  have hnone : B (base + 32) = none := by
    cases hb : B (base + 32) with
    | none => rfl
    | some v =>
      exfalso
      obtain ⟨t, k⟩ := v
      obtain ⟨_, _, _, g', hg', h4, h5⟩ := G.inv.shape.blk _ _ _ hb
      have := g.apart g' hg'
      omega
  refine ⟨N, h', L', fun fuel hf => ?_, ⟨I', ?_, ?_, ?_⟩, r2.1, hnone, ?_, hk⟩
  · unfold expand
    rw [if_neg (by omega)]
    simp only []
    rw [if_neg (by omega), r1 fuel hf, Res.ok_bind]
  · intro a s ha
    by_cases e : a = base + 32
    · subst e; rw [upd_same] at ha; cases ha
    · rw [upd_other _ _ e] at ha; exact G.held a s ha
  · rw [r2.1, r2.2.1]
    exact (perm_insertSegment _ _).trans (List.Perm.cons _ G.segs)
  · rw [r2.2.2, r2.2.1]
    simp only []
    rw [length_insertSegment]
    omega
  · rw [r2.2.2]
    simp only []
    omega

theorem setUp_id {h : Heap} (hu : 0 < h.unused) : setUp h = h := by
  unfold setUp
  rw [if_neg (by omega)]

/-- The pool with nothing in it. -/
theorem setUp_start {h : Heap} (hu : h.unused = 0) (hm : h.mapped = []) : Good (setUp h) (fun _ => none) (fun _ => []) := by
  have e : setUp h = { h with blocks := fun i => if i = maxBlocks then sizeMax - 1 else 0, segments := [], unused := maxSegments } := by
    unfold setUp; rw [if_pos hu]
  rw [e]
  refine ⟨⟨⟨?_, ?_, ?_, ?_, ?_, ?_, ?_⟩, ⟨?_, ?_, ?_, ?_⟩, ⟨?_, ?_, ?_, ?_, ?_, ?_⟩⟩, ?_, ?_, ?_⟩ <;> (try simp only [hm])
  · intro g hg; cases hg
  · intro g hg; cases hg
  · intro a s k ha; cases ha
  · intro a s k b t j ha; cases ha
  · intro a s k ha; cases ha
  · intro g hg; cases hg
  · intro a s t ha; cases ha
  · intro a s k ha; cases ha
  · intro a s k ha; cases ha
  · rintro x ⟨g, hg, _⟩; cases hg
  · intro a s ha; cases ha
  · intro i a
    constructor
    · intro h; cases h
    · rintro ⟨s, h, _⟩; cases h
  · intro i; exact List.nodup_nil
  · intro i; exact List.Pairwise.nil
  · intro i hi
    rw [if_neg (by omega)]
    rfl
  · intro i
    simp [chainTo]
  · rw [if_pos trivial, sizeMax_eq]; decide
  · intro a s ha; cases ha
  · exact List.Perm.refl _
  · simp

/-- `AcquireWizardMemory` when the pool is set up. -/
theorem acquire_ok {h : Heap} {B L} (G : Good (setUp h) B L) {n : Nat} (h55 : 0 < roundSize (atLeastOne n)) (hn : 128 ≤ segmentFor (atLeastOne n)) (hu : 0 < (setUp h).unused) {grant : Option Nat}
    (hg : ∀ base, grant = some base → Spec.Pool.Grant (setUp h).mapped base (segmentFor (atLeastOne n))) :
    ∃ N r h', (∀ fuel, N ≤ fuel → acquire fuel h n grant = .ok (r, h')) ∧
      ((r = 0 ∧ grant = none ∧ h' = setUp h ∧ ∀ b s, B b = some (s, .free) → s < roundSize (atLeastOne n)) ∨
       (r = 0 ∧ ∃ base L', grant = some base ∧ segmentFor (atLeastOne n) - 96 < roundSize (atLeastOne n) ∧ Good h' (upd B (base + 32) (some (segmentFor (atLeastOne n) - 96, .free))) L' ∧
          (setUp h).unused ≤ h'.unused + 1 ∧ h'.mapped = (base, segmentFor (atLeastOne n)) :: (setUp h).mapped ∧ B (base + 32) = none ∧ Keep B (setUp h) h') ∨
       ∃ B' L', Good h' B' L' ∧ (setUp h).unused ≤ h'.unused + 1 ∧ (h'.mapped = (setUp h).mapped ∨ ∃ base, grant = some base ∧ h'.mapped = (base, segmentFor (atLeastOne n)) :: (setUp h).mapped) ∧ r ≠ 0 ∧ B' r = some (roundSize (atLeastOne n), .live) ∧
          (∀ a t, B a = some (t, .live) → a ≠ r) ∧ (∀ a t, a ≠ r → (B' a = some (t, .live) ↔ B a = some (t, .live))) ∧ Keep B (setUp h) h') := by
  obtain ⟨N1, r1, h1, e1, c1⟩ := acquireBlock_ok G h55
  rcases c1 with ⟨hr, hh, hs⟩ | ⟨B', L', G', sm, T⟩
  · subst hr hh
    cases grant with
    | none =>
      refine ⟨N1, 0, setUp h, fun fuel hf => ?_, .inl ⟨rfl, rfl, rfl, hs⟩⟩
      unfold acquire
      rw [e1 fuel hf, Res.ok_bind]
      simp only [if_true]
      unfold expand
      have := G.count
      rw [if_neg (by omega), Res.ok_bind]
      simp
    | some base =>
      obtain ⟨N2, h2, L2, e2, G2, m2, hnone, hu2, k2⟩ := expand_ok G hn hu (hg base rfl)
      obtain ⟨N3, r3, h3, e3, c3⟩ := acquireBlock_ok G2 h55
      have hacq : ∀ fuel, max N1 (max N2 N3) ≤ fuel → acquire fuel h n (some base) = .ok (r3, h3) := by
        intro fuel hf
        unfold acquire
        rw [e1 fuel (by omega), Res.ok_bind]
        simp only [if_true]
        rw [e2 fuel (by omega), Res.ok_bind]
        simp only [if_true]
        exact e3 fuel (by omega)
      have hlive : ∀ a t, upd B (base + 32) (some (segmentFor (atLeastOne n) - 96, .free)) a = some (t, .live) ↔ B a = some (t, .live) := by
        intro a t
        by_cases e : a = base + 32
        · subst e; rw [upd_same, hnone]; constructor <;> intro h <;> cases h
        · rw [upd_other _ _ e]
      refine ⟨max N1 (max N2 N3), r3, h3, hacq, .inr ?_⟩
      rcases c3 with ⟨hr, hh, hs3⟩ | ⟨B', L', G', sm, T⟩
      · subst hr hh
        exact .inl ⟨rfl, base, L2, rfl, hs3 _ _ (upd_same ..), G2, by omega, m2, hnone, k2⟩
      · refine .inr ⟨B', L', G', by rw [sm.2.2]; omega, .inr ⟨base, rfl, by rw [sm.1, m2]⟩, T.pos, T.live, fun a t ha => (T.old ((hlive a t).2 ha)).1, fun a t ha => (T.others a t ha).trans (hlive a t), k2.trans T.keep (fun a t ha => (hlive a t).2 ha)⟩
  · refine ⟨N1, r1, h1, fun fuel hf => ?_, .inr (.inr ⟨B', L', G', by rw [sm.2.2]; omega, .inl sm.1, T.pos, T.live, fun a t ha => (T.old ha).1, T.others, T.keep⟩)⟩
    unfold acquire
    rw [e1 fuel hf, Res.ok_bind]
    simp only []
    rw [if_neg T.pos]

/-- A release between calls. -/
theorem release_ok {h : Heap} {B L} (G : Good h B L) {p s : Nat} (hp : B p = some (s, .live)) :
    ∃ N h' B' L', (∀ fuel, N ≤ fuel → relinquish fuel h p = .ok h') ∧ Same h h' ∧ Good h' B' L' ∧
      (∀ a t, B' a = some (t, .live) ↔ B a = some (t, .live) ∧ a ≠ p) ∧ Keep (fun a => if a = p then none else B a) h h' ∧
      (∀ x, p + 16 ≤ x → x + 16 < p + s → h'.mem x = h.mem x) := by
  obtain ⟨N, h', B', L', e, sm, I', nh', hl, hk⟩ := relinquish_ok G.inv G.held hp
  exact ⟨N, h', B', L', e, sm, ⟨I', nh', by rw [sm.1, sm.2.1]; exact G.segs, by rw [sm.2.2, sm.2.1]; exact G.count⟩, hl, hk⟩

theorem givenRange_ok {h : Heap} {B} (S : Shape h.mapped B) {a s k} (ha : B a = some (s, k)) {n : Nat} (hn : n ≤ s) : givenRange h a n = true := by
  unfold givenRange
  rw [List.any_eq_true]
  obtain ⟨_, _, _, g, hg, h4, h5⟩ := S.blk _ _ _ ha
  exact ⟨g, hg, by simp; omega⟩

/-- `ResizeBlock`: a new block with the old contents. -/
theorem resizeBlock_ok {h : Heap} {B L} (G : Good h B L) {p s n : Nat} (hp : B p = some (s, .live)) (hn : n + 55 < sizeMax) :
    ∃ N r h', (∀ fuel, N ≤ fuel → resizeBlock fuel h p n = .ok (r, h')) ∧
      ((r = 0 ∧ h' = h ∧ ∀ b s, B b = some (s, .free) → s < roundSize n) ∨ ∃ B' L', Good h' B' L' ∧ Same h h' ∧ Took h B h' B' r (roundSize n) ∧
        ∀ i, i < n → i + 8 < s → h'.mem (r + i) = h.mem (p + i)) := by
  obtain ⟨N1, r1, h1, e1, c1⟩ := acquireBlock_ok G (round_pos hn)
  rcases c1 with ⟨hr, hh, hs⟩ | ⟨B', L', G', sm, T⟩
  · subst hr hh
    refine ⟨N1, 0, h1, fun fuel hf => ?_, .inl ⟨rfl, rfl, hs⟩⟩
    unfold resizeBlock
    rw [e1 fuel hf, Res.ok_bind]
    simp
  · obtain ⟨hne, hp'⟩ := T.old hp
    have S' := G'.inv.shape
    have pp := S'.size_pos hp'
    have pr := S'.size_pos T.live
    have er := round_eq hn
    have hsep := S'.sep hp' T.live hne
    generalize hkk : (if n ≤ s - 8 then n else s - 8) = k
    have hk1 : k ≤ n ∧ k + 8 ≤ s := by split at hkk <;> omega
    have hout : ∀ x, x < r1 ∨ r1 + roundSize n ≤ x + 8 → copyBytes h1.mem r1 p k x = h1.mem x := by
      intro x hx
      unfold copyBytes
      rw [if_neg (by omega)]
    refine ⟨N1, r1, { h1 with mem := copyBytes h1.mem r1 p k }, fun fuel hf => ?_, .inr ⟨B', L', ⟨G'.inv.inside rfl rfl T.live (by simp) hout, G'.held, G'.segs, G'.count⟩, sm.trans ⟨rfl, rfl, rfl⟩, ⟨T.pos, T.live, T.was, T.others, ?_⟩, fun i h1' h2 => ?_⟩⟩
    · unfold resizeBlock
      rw [e1 fuel hf, Res.ok_bind]
      simp only []
      rw [if_neg T.pos, G'.inv.tags.sizeOf S' hp' (by simp), Res.ok_bind, hkk, if_pos (by rw [givenRange_ok S' hp' (by omega), givenRange_ok S' T.live (by omega)]; rfl)]
    · intro a t ha x x1 x2
      obtain ⟨ane, ha'⟩ := T.old ha
      have := S'.size_pos ha'
      have := S'.sep ha' T.live ane
      show copyBytes h1.mem r1 p k x = _
      rw [hout x (by omega)]
      exact T.keep a t ha x x1 x2
    · show copyBytes h1.mem r1 p k (r1 + i) = _
      unfold copyBytes
      have : i < k := by split at hkk <;> omega
      rw [if_pos (by omega), show p + (r1 + i - r1) = p + i by omega]
      exact T.keep p s hp _ (by omega) (by omega)

/-- `ResizeWizardMemory` of a block. -/
theorem resize_ok {h : Heap} {B L} (G : Good h B L) {p s n : Nat} (hp : B p = some (s, .live)) (hn : atLeastOne n + 96 + segmentSize < sizeMax) (hu : 0 < h.unused) {grant : Option Nat}
    (hg : ∀ base, grant = some base → Spec.Pool.Grant h.mapped base (segmentFor (atLeastOne n))) :
    ∃ N res, (∀ fuel, N ≤ fuel → resize fuel h p n grant = res) ∧
      ((res = .fatal ∧ grant = none) ∨ (res = .ub ∧ segmentFor (atLeastOne n) - 96 < roundSize (atLeastOne n)) ∨
       ∃ r h' B' L', res = .ok (r, h') ∧ Good h' B' L' ∧ h.unused ≤ h'.unused + 1 ∧ (h'.mapped = h.mapped ∨ ∃ base, grant = some base ∧ h'.mapped = (base, segmentFor (atLeastOne n)) :: h.mapped) ∧ r ≠ 0 ∧ B' r = some (roundSize (atLeastOne n), .live) ∧
          (∀ a t, B a = some (t, .live) → a ≠ r) ∧ (∀ a t, a ≠ r → (B' a = some (t, .live) ↔ B a = some (t, .live) ∧ a ≠ p)) ∧
          (∀ i, i < atLeastOne n → i + 8 < s → h'.mem (r + i) = h.mem (p + i)) ∧ Keep (fun a => if a = p then none else B a) h h') := by
  have h55 : atLeastOne n + 55 < sizeMax := by omega
  have p0 : p ≠ 0 := by have := G.inv.shape.size_pos hp; omega
  -- after the new block is there, the old one is released
  have fin : ∀ {h0 h1 : Heap} {B0 B1 L1 r}, Good h1 B1 L1 → Took h0 B0 h1 B1 r (roundSize (atLeastOne n)) → (∀ i, i < atLeastOne n → i + 8 < s → h1.mem (r + i) = h.mem (p + i)) →
      (∀ a t, B0 a = some (t, .live) ↔ B a = some (t, .live)) → Keep B h h0 →
      ∃ N h' B' L', (∀ fuel, N ≤ fuel → relinquish fuel h1 p = .ok h') ∧ Same h1 h' ∧ Good h' B' L' ∧ B' r = some (roundSize (atLeastOne n), .live) ∧
        (∀ a t, B a = some (t, .live) → a ≠ r) ∧ (∀ a t, a ≠ r → (B' a = some (t, .live) ↔ B a = some (t, .live) ∧ a ≠ p)) ∧
        (∀ i, i < atLeastOne n → i + 8 < s → h'.mem (r + i) = h.mem (p + i)) ∧ Keep (fun a => if a = p then none else B a) h h' := by
    intro h0 h1 B0 B1 L1 r G1 T hc hl k0
    obtain ⟨hne, hp1⟩ := T.old ((hl p s).2 hp)
    obtain ⟨N, h', B', L', e, sm, G', hl', hk', _⟩ := release_ok G1 hp1
    have er := round_eq h55
    refine ⟨N, h', B', L', e, sm, G', (hl' r _).2 ⟨T.live, Ne.symm hne⟩, fun a t ha => (T.old ((hl a t).2 ha)).1, fun a t ha => ?_, fun i h1' h2 => ?_, fun a t ha x x1 x2 => ?_⟩
    · rw [hl' a t, T.others a t ha, hl a t]
    · rw [hk' r (roundSize (atLeastOne n)) (by simp only []; rw [if_neg (Ne.symm hne)]; exact T.live) (r + i) (by omega) (by omega)]
      exact hc i h1' h2
    · have hne' : a ≠ p := by rintro rfl; simp at ha
      replace ha : B a = some (t, .live) := by simpa [hne'] using ha
      have ha0 := (hl a t).2 ha
      rw [hk' a t (by simp only []; rw [if_neg hne']; exact (T.old ha0).2) x x1 x2, T.keep a t ha0 x x1 x2, k0 a t ha x x1 x2]
  obtain ⟨N1, r1, h1, e1, c1⟩ := resizeBlock_ok G hp h55
  rcases c1 with ⟨hr, hh, hs⟩ | ⟨B', L', G', sm, T, hc⟩
  · subst hr hh
    cases grant with
    | none =>
      refine ⟨N1, .fatal, fun fuel hf => ?_, .inl ⟨rfl, rfl⟩⟩
      unfold resize
      rw [if_neg p0, e1 fuel hf, Res.ok_bind]
      simp only [if_true]
      unfold expand
      have := G.count
      rw [if_neg (by omega), Res.ok_bind]
      simp
    | some base =>
      obtain ⟨N2, h2, L2, e2, G2, m2, hnone, hu2, k2⟩ := expand_ok G (segment_facts hn).2.1 hu (hg base rfl)
      have hlive : ∀ a t, upd B (base + 32) (some (segmentFor (atLeastOne n) - 96, .free)) a = some (t, .live) ↔ B a = some (t, .live) := by
        intro a t
        by_cases e : a = base + 32
        · subst e; rw [upd_same, hnone]; constructor <;> intro h <;> cases h
        · rw [upd_other _ _ e]
      obtain ⟨N3, r3, h3, e3, c3⟩ := resizeBlock_ok G2 ((hlive p s).2 hp) h55
      rcases c3 with ⟨hr, hh, hs3⟩ | ⟨B', L', G', sm, T, hc⟩
      · subst hr hh
        refine ⟨max N1 (max N2 N3), .ub, fun fuel hf => ?_, .inr (.inl ⟨rfl, hs3 _ _ (upd_same ..)⟩)⟩
        unfold resize
        rw [if_neg p0, e1 fuel (by omega), Res.ok_bind]
        simp only [if_true]
        rw [e2 fuel (by omega), Res.ok_bind]
        simp only [if_true]
        rw [e3 fuel (by omega), Res.ok_bind]
        simp
      · have hc' : ∀ i, i < atLeastOne n → i + 8 < s → h3.mem (r3 + i) = h1.mem (p + i) := by
          intro i i1 i2
          rw [hc i i1 i2, k2 p s hp _ (by omega) (by omega)]
        obtain ⟨N4, h4, B4, L4, e4, sm4, G4, l4, o4, i4, c4, k4⟩ := fin G' T hc' hlive k2
        refine ⟨max N1 (max N2 (max N3 N4)), .ok (r3, h4), fun fuel hf => ?_, .inr (.inr ⟨r3, h4, B4, L4, rfl, G4, by rw [sm4.2.2, sm.2.2]; omega, .inr ⟨base, rfl, by rw [sm4.1, sm.1, m2]⟩, T.pos, l4, o4, i4, c4, k4⟩)⟩
        unfold resize
        rw [if_neg p0, e1 fuel (by omega), Res.ok_bind]
        simp only [if_true]
        rw [e2 fuel (by omega), Res.ok_bind]
        simp only [if_true]
        rw [e3 fuel (by omega), Res.ok_bind]
        simp only []
        rw [if_neg T.pos, e4 fuel (by omega), Res.ok_bind]
  · obtain ⟨N4, h4, B4, L4, e4, sm4, G4, l4, o4, i4, c4, k4⟩ := fin G' T hc (fun _ _ => Iff.rfl) (Keep.refl B h)
    refine ⟨max N1 N4, .ok (r1, h4), fun fuel hf => ?_, .inr (.inr ⟨r1, h4, B4, L4, rfl, G4, by rw [sm4.2.2, sm.2.2]; omega, .inl (by rw [sm4.1, sm.1]), T.pos, l4, o4, i4, c4, k4⟩)⟩
    unfold resize
    rw [if_neg p0, e1 fuel (by omega), Res.ok_bind]
    simp only []
    rw [if_neg T.pos, e4 fuel (by omega), Res.ok_bind]

end Wizard.Pool

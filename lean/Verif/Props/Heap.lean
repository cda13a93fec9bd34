import Verif.Lemmas.HeapTop
/-! The memory pool: blocks do not overlap, keep their contents, are joined when released; sizes that break it. -/
namespace Wizard.Props
open Wizard Wizard.Pool Wizard.Spec.Pool

/-- What the pool holds is what the clients have. -/
structure Owns (B : Blocks) (live : List (Nat × Nat)) : Prop where
  blocks : ∀ a t, B a = some (t, .live) ↔ ∃ n, (a, n) ∈ live ∧ t = roundSize (atLeastOne n)
  once : live.Pairwise (fun a b => a.1 ≠ b.1)
  sizes : ∀ b ∈ live, Sensible b.2

theorem sensible_facts {n : Nat} (h : Sensible n) :
    atLeastOne n + 96 + segmentSize < sizeMax ∧ roundSize (atLeastOne n) = (atLeastOne n + 55) / 32 * 32 ∧ segmentFor (atLeastOne n) = segmentOf n ∧ n ≤ atLeastOne n ∧ 128 ≤ segmentFor (atLeastOne n) ∧
      atLeastOne n = max n 1 := by
  have hm : atLeastOne n = max n 1 := by unfold atLeastOne; split <;> omega
  have h0 : max n 1 + 96 + segmentSize < sizeMax := by
    unfold Sensible at h
    have : segmentSize = 2097152 := rfl
    rw [this]; omega
  rw [hm]
  refine ⟨h0, round_eq (by have : segmentSize = 2097152 := rfl; rw [this] at h0; omega), ?_, by omega, (segment_facts h0).2.1, rfl⟩
  unfold segmentFor segmentOf
  have hk : segmentSize = 2097152 := rfl
  rw [hk] at h0 ⊢
  rw [Nat.mod_eq_of_lt (a := max n 1 + 96) (by omega), Nat.mod_eq_of_lt (a := max n 1 + 96 + (2097152 - 1)) (by omega)]

/-- The states that can be reached. -/
def Ready (h : Heap) (live : List (Nat × Nat)) : Prop :=
  (h.unused = 0 ∧ h.mapped = [] ∧ h.segments = [] ∧ live = []) ∨ ∃ B L, Good h B L ∧ Owns B live

theorem ready_setUp {h : Heap} {live} (R : Ready h live) (hs : h.segments.length < 1024) :
    ∃ B L, Good (setUp h) B L ∧ Owns B live ∧ 0 < (setUp h).unused ∧ (setUp h).mapped = h.mapped ∧ (setUp h).mem = h.mem := by
  rcases R with ⟨h1, h2, h3, rfl⟩ | ⟨B, L, G, O⟩
  · refine ⟨_, _, setUp_start h1 h2, ⟨fun a t => ?_, List.Pairwise.nil, fun b hb => by cases hb⟩, ?_, ?_, ?_⟩
    · constructor
      · intro h; cases h
      · rintro ⟨n, h, _⟩; cases h
    · unfold setUp; rw [if_pos h1]; exact (by decide : 0 < maxSegments)
    · unfold setUp; rw [if_pos h1]
    · unfold setUp; rw [if_pos h1]
  · have hu : 0 < h.unused := by
      have := G.count
      have : maxSegments = 1024 := rfl
      omega
    rw [setUp_id hu]
    exact ⟨B, L, G, O, hu, rfl, rfl⟩

theorem returns_eq {α} {call : Nat → Res α} {x y : α} (h : Returns call x) {N : Nat} (h' : ∀ fuel, N ≤ fuel → call fuel = .ok y) : x = y := by
  obtain ⟨M, hM⟩ := h
  have h1 := hM (max M N) (by omega)
  rw [h' (max M N) (by omega)] at h1
  cases h1; rfl

theorem owns_old {B live} (O : Owns B live) {p n : Nat} (h : (p, n) ∈ live) : B p = some (roundSize (atLeastOne n), .live) := (O.blocks _ _).2 ⟨n, h, rfl⟩

theorem owns_new {B B' live r n} (O : Owns B live) (hn : Sensible n) (hr : B' r = some (roundSize (atLeastOne n), .live)) (hne : ∀ a t, B a = some (t, .live) → a ≠ r)
    (ho : ∀ a t, a ≠ r → (B' a = some (t, .live) ↔ B a = some (t, .live))) : Owns B' ((r, n) :: live) := by
  have hl : ∀ b ∈ live, b.1 ≠ r := fun b hb => hne b.1 _ (owns_old O (p := b.1) (n := b.2) hb)
  refine ⟨fun a t => ?_, List.pairwise_cons.2 ⟨fun b hb => Ne.symm (hl b hb), O.once⟩, fun b hb => ?_⟩
  · by_cases e : a = r
    · subst e
      rw [hr]
      constructor
      · intro h; cases h; exact ⟨n, by simp, rfl⟩
      · rintro ⟨m, hm, rfl⟩
        rcases List.mem_cons.1 hm with h | h
        · cases h; rfl
        · exact absurd rfl (hl _ h)
    · rw [ho a t e, O.blocks]
      constructor
      · rintro ⟨m, hm, rfl⟩; exact ⟨m, List.mem_cons_of_mem _ hm, rfl⟩
      · rintro ⟨m, hm, rfl⟩
        rcases List.mem_cons.1 hm with h | h
        · cases h; exact absurd rfl e
        · exact ⟨m, h, rfl⟩
  · rcases List.mem_cons.1 hb with rfl | h
    · exact hn
    · exact O.sizes b h

theorem owns_less {B B' live p} (O : Owns B live) (ho : ∀ a t, B' a = some (t, .live) ↔ B a = some (t, .live) ∧ a ≠ p) : Owns B' (live.filter (fun b => b.1 ≠ p)) := by
  refine ⟨fun a t => ?_, O.once.filter _, fun b hb => O.sizes b (List.mem_filter.1 hb).1⟩
  rw [ho, O.blocks]
  constructor
  · rintro ⟨⟨n, hn, e⟩, hne⟩; exact ⟨n, List.mem_filter.2 ⟨hn, by simpa using hne⟩, e⟩
  · rintro ⟨n, hn, e⟩
    have := List.mem_filter.1 hn
    exact ⟨⟨n, this.1, e⟩, by simpa using this.2⟩

/-- What `AcquireWizardMemory` does in a state that can be reached. -/
theorem ready_acquire {h : Heap} {live} (R : Ready h live) {n} (hn : Sensible n) (hs : h.segments.length < 1024) {grant : Option Nat}
    (hg : ∀ base, grant = some base → Grant h.mapped base (segmentOf n)) :
    ∃ N r h', (∀ fuel, N ≤ fuel → acquire fuel h n grant = .ok (r, h')) ∧ Ready h' (if r = 0 then live else (r, n) :: live) ∧ (∀ b ∈ live, SameBytes h h' b.1 b.2) ∧
      (r = 0 → grant = none ∨ segmentOf n - 96 < (max n 1 + 55) / 32 * 32) ∧
      (h'.mapped = h.mapped ∨ ∃ base, grant = some base ∧ h'.mapped = (base, segmentOf n) :: h.mapped) ∧ (r ≠ 0 → ∃ g ∈ h'.mapped, (max n 1 + 55) / 32 * 32 + 96 ≤ g.2) := by
  obtain ⟨B, L, G, O, hu, hm, hmem⟩ := ready_setUp R hs
  obtain ⟨f1, f2, f3, f4, f5, f6⟩ := sensible_facts hn
  have keep : ∀ {h'}, Keep B (setUp h) h' → ∀ b ∈ live, SameBytes h h' b.1 b.2 := by
    intro h' K b hb i hi
    obtain ⟨g1, g2, _, g4, _⟩ := sensible_facts (O.sizes b hb)
    rw [K b.1 _ (owns_old O (n := b.2) hb) (b.1 + i) (by omega) (by omega), hmem]
  obtain ⟨N, r, h', e, c⟩ := acquire_ok G (n := n) (grant := grant) (by omega) f5 hu (fun base hb => by rw [hm, f3]; exact hg base hb)
  refine ⟨N, r, h', e, ?_, ?_, ?_, ?_, ?_⟩
  · rcases c with ⟨rfl, _, rfl, _⟩ | ⟨rfl, base, L', _, _, G', _, _, hnone, _⟩ | ⟨B', L', G', _, _, hr, hB, hne, ho, _⟩
    · rw [if_pos rfl]; exact .inr ⟨B, L, G, O⟩
    · rw [if_pos rfl]
      refine .inr ⟨_, _, G', ⟨fun a t => ?_, O.once, O.sizes⟩⟩
      by_cases ea : a = base + 32
      · subst ea
        rw [upd_same, ← O.blocks, hnone]
        constructor <;> intro h <;> cases h
      · rw [upd_other _ _ ea]; exact O.blocks a t
    · rw [if_neg hr]
      exact .inr ⟨B', L', G', owns_new O hn hB hne ho⟩
  · rcases c with ⟨_, _, rfl, _⟩ | ⟨_, _, _, _, _, _, _, _, _, K⟩ | ⟨_, _, _, _, _, _, _, _, _, K⟩
    · exact keep (Keep.refl B _)
    · exact keep K
    · exact keep K
  · intro hr
    rcases c with ⟨_, hg, _, _⟩ | ⟨_, base, L', _, hlt, _⟩ | ⟨_, _, _, _, _, h0, _⟩
    · exact .inl hg
    · right; rw [f3, f2, f6] at hlt; exact hlt
    · exact absurd hr h0
  · rcases c with ⟨_, _, rfl, _⟩ | ⟨_, base, _, hg, _, _, _, hm', _⟩ | ⟨_, _, _, _, hm', _⟩
    · exact .inl hm
    · exact .inr ⟨base, hg, by rw [hm', f3, hm]⟩
    · rw [f3, hm] at hm'; exact hm'
  · intro h0
    rcases c with ⟨hr, _⟩ | ⟨hr, _⟩ | ⟨B', L', G', _, _, _, hB, _⟩
    · exact absurd hr h0
    · exact absurd hr h0
    · obtain ⟨_, _, _, g, hg, h4, h5⟩ := G'.inv.shape.blk _ _ _ hB
      exact ⟨g, hg, by rw [f2, f6] at h5; omega⟩

/-- What `RelinquishWizardMemory` does in a state that can be reached. -/
theorem ready_relinquish {h : Heap} {live} (R : Ready h live) {p n} (hp : (p, n) ∈ live) :
    ∃ N h', (∀ fuel, N ≤ fuel → relinquish fuel h p = .ok h') ∧ Ready h' (live.filter (fun b => b.1 ≠ p)) ∧ (∀ b ∈ live, b.1 ≠ p → SameBytes h h' b.1 b.2) ∧
      (∀ i, 16 ≤ i → i < n → h'.mem (p + i) = h.mem (p + i)) := by
  rcases R with ⟨_, _, _, rfl⟩ | ⟨B, L, G, O⟩
  · cases hp
  · obtain ⟨N, h', B', L', e, _, G', hl, K, hx⟩ := release_ok G (owns_old O hp)
    refine ⟨N, h', e, .inr ⟨B', L', G', owns_less O hl⟩, fun b hb hne i hi => ?_, fun i h1 h2 => ?_⟩
    · obtain ⟨g1, g2, _, g4, _⟩ := sensible_facts (O.sizes b hb)
      exact K b.1 _ (by simp only []; rw [if_neg hne]; exact owns_old O (n := b.2) hb) (b.1 + i) (by omega) (by omega)
    · obtain ⟨g1, g2, _, g4, _⟩ := sensible_facts (O.sizes _ hp)
      simp only [] at g1 g2 g4
      exact hx _ (by omega) (by omega)

/-- What `ResizeWizardMemory` does in a state that can be reached. -/
theorem ready_resize {h : Heap} {live} (R : Ready h live) {p m n} (hp : (p, m) ∈ live) (hn : Sensible n) (hs : h.segments.length < 1024) {grant : Option Nat}
    (hg : ∀ base, grant = some base → Grant h.mapped base (segmentOf n)) :
    ∃ N res, (∀ fuel, N ≤ fuel → resize fuel h p n grant = res) ∧
      ((res = .fatal ∧ grant = none) ∨ (res = .ub ∧ segmentOf n - 96 < (max n 1 + 55) / 32 * 32) ∨
       ∃ r h', res = .ok (r, h') ∧ r ≠ 0 ∧ Ready h' ((r, n) :: live.filter (fun b => b.1 ≠ p)) ∧ (∀ b ∈ live, b.1 ≠ p → SameBytes h h' b.1 b.2) ∧
         (∀ i, i < m → i < n → h'.mem (r + i) = h.mem (p + i)) ∧
         (h'.mapped = h.mapped ∨ ∃ base, grant = some base ∧ h'.mapped = (base, segmentOf n) :: h.mapped) ∧ ∃ g ∈ h'.mapped, (max n 1 + 55) / 32 * 32 + 96 ≤ g.2) := by
  rcases R with ⟨_, _, _, rfl⟩ | ⟨B, L, G, O⟩
  · cases hp
  · obtain ⟨f1, f2, f3, f4, f5, f6⟩ := sensible_facts hn
    have hu : 0 < h.unused := by
      have := G.count
      have : maxSegments = 1024 := rfl
      omega
    obtain ⟨N, res, e, c⟩ := resize_ok G (owns_old O hp) f1 hu (fun base hb => by rw [f3]; exact hg base hb)
    refine ⟨N, res, e, ?_⟩
    rcases c with h1 | ⟨h1, h2⟩ | ⟨r, h', B', L', e', G', _, hm', r0, hr, hne, ho, hc, K⟩
    · exact .inl h1
    · exact .inr (.inl ⟨h1, by rw [f3, f2, f6] at h2; exact h2⟩)
    · refine .inr (.inr ⟨r, h', e', r0, .inr ⟨B', L', G', ?_⟩, fun b hb hne i hi => ?_, fun i h1 h2 => ?_, by rw [f3] at hm'; exact hm', ?_⟩)
      · have O1 : Owns (fun a => if a = p then none else B a) (live.filter (fun b => b.1 ≠ p)) := owns_less O (fun a t => by
          by_cases ea : a = p
          · subst ea; simp
          · simp [ea])
        refine owns_new O1 hn hr (fun a t ha => ?_) (fun a t ha => ?_)
        · by_cases ea : a = p
          · subst ea; simp at ha
          · exact hne a t (by simpa [ea] using ha)
        · rw [ho a t ha]
          by_cases ea : a = p
          · subst ea; simp
          · simp [ea]
      · obtain ⟨g1, g2, _, g4, _⟩ := sensible_facts (O.sizes b hb)
        exact K b.1 _ (by simp only []; rw [if_neg hne]; exact owns_old O (n := b.2) hb) (b.1 + i) (by omega) (by omega)
      · obtain ⟨g1, g2, _, g4, _⟩ := sensible_facts (O.sizes _ hp)
        simp only [] at g1 g2 g4
        exact hc i (by omega) (by omega)
      · obtain ⟨_, _, _, g, hg, h4, h5⟩ := G'.inv.shape.blk _ _ _ hr
        exact ⟨g, hg, by rw [f2, f6] at h5; omega⟩

theorem reach_ready {h : Heap} {live} (R : Reach h live) : Ready h live := by
  induction R with
  | start mem => exact .inl ⟨rfl, rfl, rfl, rfl⟩
  | acquire _ hn hs hg hr ih =>
    obtain ⟨N, r, h', e, R', _⟩ := ready_acquire ih hn hs hg
    have := returns_eq hr e
    cases this
    exact R'
  | relinquish _ hp hr ih =>
    obtain ⟨N, h', e, R', _⟩ := ready_relinquish ih hp
    have := returns_eq hr e
    cases this
    exact R'
  | resize _ hp hn hs hg hr ih =>
    obtain ⟨N, res, e, c⟩ := ready_resize ih hp hn hs hg
    obtain ⟨M, hM⟩ := hr
    have h1 := hM (max M N) (by omega)
    simp only [] at h1
    rw [e (max M N) (by omega)] at h1
    rcases c with ⟨rfl, _⟩ | ⟨rfl, _⟩ | ⟨r, h', rfl, _, R', _⟩
    · cases h1
    · cases h1
    · cases h1; exact R'
  | @write h live p n a v _ hp h1 h2 ih =>
    rcases ih with ⟨_, _, _, rfl⟩ | ⟨B, L, G, O⟩
    · cases hp
    · obtain ⟨g1, g2, _, g4, _⟩ := sensible_facts (O.sizes _ hp)
      simp only [] at g1 g2 g4
      refine .inr ⟨B, L, ⟨G.inv.inside (h' := poke h a v) rfl rfl (owns_old O hp) (by simp) (fun x hx => ?_), G.held, G.segs, G.count⟩, O⟩
      show (if x = a then v else h.mem x) = h.mem x
      rw [if_neg (by omega)]
  | @destroy h live _ ih =>
    refine .inl ⟨rfl, ?_, rfl, rfl⟩
    rcases ih with ⟨_, hm, _, _⟩ | ⟨B, L, G, O⟩
    · unfold Pool.destroy; simp [hm]
    · unfold Pool.destroy
      simp only []
      rw [List.filter_eq_nil_iff]
      intro g hg
      have := G.segs.mem_iff.2 hg
      simpa using this

/-- **C59.** After any history the allocated blocks do not overlap, each lies inside a segment the system has granted and is at least as large as what was asked for, and none is at NULL or unaligned. -/
theorem C59_disjoint {h : Heap} {live} (R : Reach h live) :
    Disjoint live ∧ ∀ b ∈ live, b.1 ≠ 0 ∧ b.1 % 16 = 0 ∧ ∃ g ∈ h.mapped, g.1 ≤ b.1 ∧ b.1 + b.2 ≤ g.1 + g.2 := by
  rcases reach_ready R with ⟨_, _, _, rfl⟩ | ⟨B, L, G, O⟩
  · exact ⟨List.Pairwise.nil, fun b hb => by cases hb⟩
  · have S := G.inv.shape
    have facts : ∀ b ∈ live, ∃ t, B b.1 = some (t, .live) ∧ b.2 ≤ t := by
      intro b hb
      obtain ⟨g1, g2, _, g4, _⟩ := sensible_facts (O.sizes b hb)
      exact ⟨_, owns_old O (n := b.2) hb, by omega⟩
    constructor
    · refine O.once.imp_of_mem ?_
      intro a b ha hb hne
      obtain ⟨t, ht, h1⟩ := facts a ha
      obtain ⟨u, hu, h2⟩ := facts b hb
      have := S.sep ht hu hne
      exact ⟨hne, by omega⟩
    · intro b hb
      obtain ⟨t, ht, h1⟩ := facts b hb
      have := S.size_pos ht
      obtain ⟨_, _, _, g, hg, h4, h5⟩ := S.blk _ _ _ ht
      exact ⟨by omega, by omega, g, hg, by omega, by omega⟩

/-- **C59.** A request returns, and changes no byte of an allocated block. -/
theorem C59_acquire {h : Heap} {live} (R : Reach h live) {n} (hn : Sensible n) (hs : h.segments.length < 1024) {grant : Option Nat}
    (hg : ∀ base, grant = some base → Grant h.mapped base (segmentOf n)) :
    ∃ r h', Returns (fun fuel => acquire fuel h n grant) (r, h') ∧ ∀ b ∈ live, SameBytes h h' b.1 b.2 := by
  obtain ⟨N, r, h', e, _, k, _⟩ := ready_acquire (reach_ready R) hn hs hg
  exact ⟨r, h', ⟨N, e⟩, k⟩

/-- **C59.** Releasing an allocated block returns, and changes no byte of the other blocks. -/
theorem C59_relinquish {h : Heap} {live} (R : Reach h live) {p n} (hp : (p, n) ∈ live) :
    ∃ h', Returns (fun fuel => relinquish fuel h p) h' ∧ ∀ b ∈ live, b.1 ≠ p → SameBytes h h' b.1 b.2 := by
  obtain ⟨N, h', e, _, k, _⟩ := ready_relinquish (reach_ready R) hp
  exact ⟨h', ⟨N, e⟩, k⟩

/-- **C59.** If resizing a block returns, the new block begins with what the old one held, as far as both go, and no byte of another block changes; it does return if the system grants
memory and the size is not one of those of `C60_gap_violated`. -/
theorem C59_resize {h : Heap} {live} (R : Reach h live) {p m n} (hp : (p, m) ∈ live) (hn : Sensible n) (hs : h.segments.length < 1024) {grant : Option Nat}
    (hg : ∀ base, grant = some base → Grant h.mapped base (segmentOf n)) :
    (∀ r h', Returns (fun fuel => resize fuel h p n grant) (r, h') →
      r ≠ 0 ∧ (∀ i, i < m → i < n → h'.mem (r + i) = h.mem (p + i)) ∧ ∀ b ∈ live, b.1 ≠ p → SameBytes h h' b.1 b.2) ∧
    (grant ≠ none → 24 ≤ (max n 1 + 119) % 2097152 → ∃ r h', Returns (fun fuel => resize fuel h p n grant) (r, h')) := by
  obtain ⟨N, res, e, c⟩ := ready_resize (reach_ready R) hp hn hs hg
  constructor
  · intro r h' ⟨M, hM⟩
    have h1 := hM (max M N) (by omega)
    simp only [] at h1
    rw [e (max M N) (by omega)] at h1
    rcases c with ⟨rfl, _⟩ | ⟨rfl, _⟩ | ⟨r', h'', rfl, r0, _, k, hc, _⟩
    · cases h1
    · cases h1
    · cases h1; exact ⟨r0, hc, k⟩
  · intro h1 h2
    rcases c with ⟨_, h⟩ | ⟨_, h⟩ | ⟨r', h'', rfl, _⟩
    · exact absurd h h1
    · exfalso
      unfold segmentOf at h
      omega
    · exact ⟨r', h'', N, e⟩

/-- **C60**, the part that holds: if the system grants the segment, the request that asked for it is met, unless its size falls into one of the gaps of `C60_gap_violated`. -/
theorem C60_granted_partial {h : Heap} {live} (R : Reach h live) {n} (hn : Sensible n) (hs : h.segments.length < 1024) {base : Nat} (hg : Grant h.mapped base (segmentOf n))
    (hgap : 24 ≤ (max n 1 + 119) % 2097152) : ∃ r h', r ≠ 0 ∧ Returns (fun fuel => acquire fuel h n (some base)) (r, h') := by
  obtain ⟨N, r, h', e, _, _, c, _⟩ := ready_acquire (reach_ready R) hn hs (grant := some base) (fun b hb => by cases hb; exact hg)
  refine ⟨r, h', fun hr => ?_, N, e⟩
  rcases c hr with h | h
  · cases h
  · unfold segmentOf at h
    omega

theorem gap_facts {n : Nat} (hgap : (max n 1 + 119) % 2097152 < 24) : segmentOf n < (max n 1 + 55) / 32 * 32 + 96 := by
  unfold segmentOf
  omega

/-- **C60 fails.** A segment is 96 bytes larger than the request, rounded up to 2 MiB, but the request itself grows by up to 55 bytes: for a size that lies 96 to 119 bytes below a multiple
of 2 MiB the new segment is too small for the block.  `AcquireWizardMemory` then returns NULL although the system has granted the memory (which stays in the pool). -/
theorem C60_gap_violated {h : Heap} {live} (R : Reach h live) {n} (hn : Sensible n) (hs : h.segments.length < 1024) (hgap : (max n 1 + 119) % 2097152 < 24)
    (hseg : ∀ g ∈ h.mapped, g.2 ≤ segmentOf n) {base : Nat} (hg : Grant h.mapped base (segmentOf n)) :
    ∃ h', Returns (fun fuel => acquire fuel h n (some base)) (0, h') ∧ h'.mapped = (base, segmentOf n) :: h.mapped ∧ Reach h' live := by
  have hg' : ∀ b, some base = some b → Grant h.mapped b (segmentOf n) := fun b hb => by cases hb; exact hg
  obtain ⟨B, L, G, O, hu, hm, hmem⟩ := ready_setUp (reach_ready R) hs
  obtain ⟨f1, f2, f3, f4, f5, f6⟩ := sensible_facts hn
  obtain ⟨N, r, h', e, c⟩ := acquire_ok G (n := n) (grant := some base) (by omega) f5 hu (fun base hb => by rw [hm, f3]; exact hg' base hb)
  have gf := gap_facts hgap
  have h0 : r = 0 ∧ h'.mapped = (base, segmentOf n) :: h.mapped := by
    rcases c with ⟨_, h, _⟩ | ⟨hr, b, _, hb, _, _, _, hm', _⟩ | ⟨B', L', G', _, hm', _, hB, _⟩
    · cases h
    · cases hb
      exact ⟨hr, by rw [hm', f3, hm]⟩
    · exfalso
      obtain ⟨_, _, _, g, hg2, h4, h5⟩ := G'.inv.shape.blk _ _ _ hB
      rw [f2, f6] at h5
      rw [hm, f3] at hm'
      have : g.2 ≤ segmentOf n := by
        rcases hm' with hm' | ⟨b, _, hm'⟩
        · rw [hm'] at hg2; exact hseg g hg2
        · rw [hm'] at hg2
          rcases List.mem_cons.1 hg2 with rfl | h
          · exact Nat.le_refl _
          · exact hseg g h
      omega
  obtain ⟨rfl, h2⟩ := h0
  refine ⟨h', ⟨N, e⟩, h2, ?_⟩
  have := Reach.acquire R hn hs hg' (r := 0) (h' := h') ⟨N, e⟩
  rwa [if_pos rfl] at this

/-- **C60 fails.** For the same sizes `ResizeWizardMemory` ends the process with a failed assertion although the system has granted the memory. -/
theorem C60_resize_violated {h : Heap} {live} (R : Reach h live) {p m n} (hp : (p, m) ∈ live) (hn : Sensible n) (hs : h.segments.length < 1024) (hgap : (max n 1 + 119) % 2097152 < 24)
    (hseg : ∀ g ∈ h.mapped, g.2 ≤ segmentOf n) {base : Nat} (hg : Grant h.mapped base (segmentOf n)) : Crashes (fun fuel => resize fuel h p n (some base)) := by
  have hg' : ∀ b, some base = some b → Grant h.mapped b (segmentOf n) := fun b hb => by cases hb; exact hg
  obtain ⟨N, res, e, c⟩ := ready_resize (reach_ready R) hp hn hs hg'
  have gf := gap_facts hgap
  rcases c with ⟨_, h⟩ | ⟨rfl, _⟩ | ⟨r, h', _, _, _, _, _, hm', g, hg2, h5⟩
  · cases h
  · exact ⟨N, e⟩
  · exfalso
    have : g.2 ≤ segmentOf n := by
      rcases hm' with hm' | ⟨b, _, hm'⟩
      · rw [hm'] at hg2; exact hseg g hg2
      · rw [hm'] at hg2
        rcases List.mem_cons.1 hg2 with rfl | h
        · exact Nat.le_refl _
        · exact hseg g h
    omega

/-- **C95**, the part that holds: a request that leaves room in the address space returns NULL if the system grants nothing and no free block is large enough; nothing is harmed, the pool can be used as before. -/
theorem C95_refused_partial {h : Heap} {live} (R : Reach h live) {n} (hn : Sensible n) (hs : h.segments.length < 1024) (hbig : ∀ g ∈ h.mapped, g.2 < (max n 1 + 55) / 32 * 32 + 96) :
    ∃ h', Returns (fun fuel => acquire fuel h n none) (0, h') ∧ (∀ b ∈ live, SameBytes h h' b.1 b.2) ∧ h'.mapped = h.mapped ∧ Reach h' live := by
  obtain ⟨N, r, h', e, _, k, _, m, c⟩ := ready_acquire (reach_ready R) hn hs (grant := none) (fun b hb => by cases hb)
  have m' : h'.mapped = h.mapped := by
    rcases m with h | ⟨_, h, _⟩
    · exact h
    · cases h
  by_cases hr : r = 0
  · subst hr
    have := Reach.acquire R hn hs (grant := none) (fun b hb => by cases hb) (r := 0) (h' := h') ⟨N, e⟩
    rw [if_pos rfl] at this
    exact ⟨h', ⟨N, e⟩, k, m', this⟩
  · exfalso
    obtain ⟨g, hg, h5⟩ := c hr
    rw [m'] at hg
    have := hbig g hg
    omega

/-- **C95 fails.** The rounding up wraps around: for the largest sizes `AcquireWizardMemory` returns a block of 32 bytes, and no memory that was granted goes so far. -/
theorem C95_wrap_violated {h : Heap} {live} (R : Reach h live) {n} (h1 : sizeMax ≤ n + 23) (h2 : n < sizeMax) (hs : h.segments.length < 1024) {base : Nat} (hg : Grant h.mapped base 2097152) :
    ∃ r h', r ≠ 0 ∧ Returns (fun fuel => acquire fuel h n (some base)) (r, h') ∧ ∀ g ∈ h'.mapped, g.1 + g.2 < r + n := by
  obtain ⟨B, L, G, O, hu, hm, hmem⟩ := ready_setUp (reach_ready R) hs
  have hsm := sizeMax_eq
  have ha : atLeastOne n = n := by unfold atLeastOne; rw [if_neg (by omega)]
  have hr : roundSize n = 32 := by
    unfold roundSize
    rw [hsm] at h1 h2 ⊢
    omega
  have hf : segmentFor n = 2097152 := by
    unfold segmentFor
    have : segmentSize = 2097152 := rfl
    rw [this]
    rw [hsm] at h1 h2 ⊢
    omega
  obtain ⟨N, r, h', e, c⟩ := acquire_ok G (n := n) (grant := some base) (by rw [ha]; omega) (by rw [ha]; omega) hu (fun b hb => by cases hb; rw [ha, hf, hm]; exact hg)
  rw [ha, hf, hr] at c
  rcases c with ⟨_, h, _⟩ | ⟨_, b, _, _, h, _⟩ | ⟨B', L', G', _, _, r0, hB, _⟩
  · cases h
  · omega
  · refine ⟨r, h', r0, ⟨N, e⟩, fun g hg => ?_⟩
    have := G'.inv.shape.seg g hg
    have := G'.inv.shape.size_pos hB
    omega

/-- **C95 fails.** For the sizes just below these the size becomes zero, and an assertion ends the process. -/
theorem C95_assert_violated (h : Heap) {n} (h1 : sizeMax ≤ n + 55) (h2 : n + 23 < sizeMax) (grant : Option Nat) : Crashes (fun fuel => acquire fuel h n grant) := by
  refine ⟨0, fun fuel _ => ?_⟩
  have hsm := sizeMax_eq
  have ha : atLeastOne n = n := by unfold atLeastOne; rw [if_neg (by omega)]
  have hr : roundSize n = 0 := by
    unfold roundSize
    rw [hsm] at h1 h2 ⊢
    omega
  show acquire fuel h n grant = .ub
  unfold acquire acquireBlock findFree
  rw [ha, hr]
  rfl

/-- **C95 fails.** For another range of sizes the length of the segment becomes zero: the pool asks the system for no bytes, gets a pointer to no bytes, and writes there. -/
theorem C95_empty_violated (mem : Nat → Nat) {n} (h1 : sizeMax ≤ n + 96 + 2097151) (h2 : n + 96 ≤ sizeMax) {base : Nat} : Crashes (fun fuel => acquire fuel (start mem) n (some base)) := by
  have hsm := sizeMax_eq
  have ha : atLeastOne n = n := by unfold atLeastOne; rw [if_neg (by omega)]
  have G : Good (setUp (start mem)) _ _ := setUp_start (h := start mem) rfl rfl
  have hr : 0 < roundSize n := by
    unfold roundSize
    rw [hsm] at h1 h2 ⊢
    omega
  have hf : segmentFor n = 0 := by
    unfold segmentFor
    have : segmentSize = 2097152 := rfl
    rw [this]
    rw [hsm] at h1 h2 ⊢
    omega
  obtain ⟨N, r, h', e, c⟩ := acquireBlock_ok G hr
  rcases c with ⟨rfl, rfl, _⟩ | ⟨_, _, _, _, T⟩
  · refine ⟨N, fun fuel hf' => ?_⟩
    show acquire fuel (start mem) n (some base) = .ub
    unfold acquire
    rw [ha, e fuel hf', Res.ok_bind]
    simp only [if_true]
    have hu : (setUp (start mem)).unused = 1024 := rfl
    have hseg : (setUp (start mem)).segments = [] := rfl
    have hmap : (setUp (start mem)).mapped = [] := rfl
    unfold expand
    rw [hseg, if_neg (by decide)]
    simp only []
    rw [if_neg (by rw [hu]; decide)]
    unfold layOut
    simp only []
    have hng : ∀ (x : Heap), x.mapped = [(base, 0)] → given x (base + 32 - 8) = false := by
      intro x hx
      unfold given
      rw [hx]
      simp
      omega
    unfold store
    rw [hng _ (by simp only []; rw [hmap, hf])]
    rfl
  · obtain ⟨s, hs, _⟩ := T.was
    cases hs

/-- **C96.** When every block has been released each segment is one free block again: a request that fits into any of them is met without asking the system for more. -/
theorem C96_joined {h : Heap} (R : Reach h []) {g} (hg : g ∈ h.mapped) {n} (hn : Sensible n) (hs : h.segments.length < 1024) (hfit : (max n 1 + 55) / 32 * 32 + 96 ≤ g.2) :
    ∃ r h', r ≠ 0 ∧ Returns (fun fuel => acquire fuel h n none) (r, h') := by
  obtain ⟨B, L, G, O, hu, hm, hmem⟩ := ready_setUp (reach_ready R) hs
  obtain ⟨f1, f2, f3, f4, f5, f6⟩ := sensible_facts hn
  have S := G.inv.shape
  have kinds : ∀ a t k, B a = some (t, k) → k = .free := by
    intro a t k ha
    cases k with
    | free => rfl
    | held => exact absurd ha (G.held a t)
    | live =>
      obtain ⟨_, h, _⟩ := (O.blocks a t).1 ha
      cases h
  rw [← hm] at hg
  obtain ⟨⟨s, k⟩, hv⟩ := S.first g hg
  have hk := kinds _ _ _ hv
  subst hk
  have hsize : g.2 = s + 96 := by
    rcases S.next _ _ _ hv with ⟨⟨t, k⟩, hw⟩ | ⟨g', hg', hx⟩
    · have hk := kinds _ _ _ hw
      subst hk
      exact absurd hw (S.apart _ _ t hv)
    · have := S.size_pos hv
      obtain ⟨_, _, _, g'', hg'', h4, h5⟩ := S.blk _ _ _ hv
      have sg := S.seg g hg
      have sg' := S.seg g' hg'
      have sg'' := S.seg g'' hg''
      have e1 : g = g'' := by
        rcases S.segs g hg g'' hg'' with h | h | h
        · exact h
        · omega
        · omega
      subst e1
      rcases S.segs g hg g' hg' with h | h | h
      · subst h; omega
      · omega
      · omega
  obtain ⟨N, r, h', e, c⟩ := acquire_ok G (n := n) (grant := none) (by omega) f5 hu (fun b hb => by cases hb)
  rcases c with ⟨_, _, _, h⟩ | ⟨_, _, _, h, _⟩ | ⟨_, _, _, _, _, r0, _⟩
  · exfalso
    have := h _ _ hv
    rw [f2, f6] at this
    omega
  · cases h
  · exact ⟨r, h', r0, N, e⟩

/-- **C97**, the part that holds: as long as the pool has not used up its 1024 segments, `DestroyWizardMemory` gives back to the system exactly what the system granted, each segment once. -/
theorem C97_destroyed_partial {h : Heap} {live} (R : Reach h live) : (destroy h).1.Perm h.mapped ∧ (destroy h).2.mapped = [] := by
  constructor
  · rcases reach_ready R with ⟨_, hm, hs, _⟩ | ⟨B, L, G, O⟩
    · unfold destroy; rw [hm, hs]
    · exact G.segs
  · rcases reach_ready (Reach.destroy R) with ⟨_, hm, _⟩ | ⟨B, L, G, O⟩
    · exact hm
    · have := G.segs
      have h0 : (destroy h).2.segments = [] := rfl
      rw [h0] at this
      exact List.Perm.nil_eq this |>.symm

theorem many_segments (mem : Nat → Nat) : ∀ k, k ≤ 1024 → ∃ h, Reach h [] ∧ h.mapped.length = k ∧ h.segments.length = k ∧ (0 < k → h.unused + k = 1024) ∧ ∀ g ∈ h.mapped, g.2 = 2097152 ∧ g.1 + g.2 ≤ 16 + k * 2097152 := by
  intro k
  induction k with
  | zero =>
    intro _
    exact ⟨start mem, Reach.start mem, rfl, rfl, fun h => absurd h (by decide), fun g hg => by cases hg⟩
  | succ k ih =>
    intro hk
    obtain ⟨h, R, h1, h2, h3, h4⟩ := ih (by omega)
    have hsm := sizeMax_eq
    have hsens : Sensible 2097033 := by
      unfold Sensible
      rw [hsm]; decide
    have hseg : segmentOf 2097033 = 2097152 := by decide
    obtain ⟨h', e, m, R'⟩ := C60_gap_violated R hsens (by omega) (by decide) (fun g hg => by rw [hseg, (h4 g hg).1]; exact Nat.le_refl _)
      (base := 16 + k * 2097152) (by
        rw [hseg]
        refine ⟨by omega, by omega, by rw [hsm]; omega, fun g hg => ?_⟩
        have := h4 g hg
        omega)
    rw [hseg] at m
    have hlen : h'.mapped.length = k + 1 := by rw [m]; simp [h1]
    refine ⟨h', R', hlen, ?_, ?_, fun g hg => ?_⟩
    · rcases reach_ready R' with ⟨_, hm, _⟩ | ⟨B, L, G, O⟩
      · rw [hm] at m; cases m
      · rw [G.segs.length_eq]; exact hlen
    · intro _
      rcases reach_ready R' with ⟨_, hm, _⟩ | ⟨B, L, G, O⟩
      · rw [hm] at m; cases m
      · have := G.count
        rw [G.segs.length_eq, hlen] at this
        exact this
    · rw [m] at hg
      rcases List.mem_cons.1 hg with rfl | hg
      · exact ⟨rfl, by omega⟩
      · have := h4 g hg
        exact ⟨this.1, by omega⟩

/-- **C97 fails.** When the pool has used its 1024 segments the list of unused ones is empty, which `AcquireWizardMemory` takes for a pool that was never set up: it clears the pool.  The pool then
has no free block, although nothing is allocated and two gigabytes were granted, and `DestroyWizardMemory` gives nothing of that back. -/
theorem C97_forgotten_violated (mem : Nat → Nat) : ∃ h, Reach h [] ∧ h.mapped.length = 1024 ∧ ∀ n, Sensible n →
    ∃ h', Returns (fun fuel => acquire fuel h n none) (0, h') ∧ h'.mapped = h.mapped ∧ (destroy h').1 = [] := by
  obtain ⟨h, R, h1, h2, h3, h4⟩ := many_segments mem 1024 (Nat.le_refl _)
  refine ⟨h, R, h1, fun n hn => ?_⟩
  have hu : h.unused = 0 := by have := h3 (by decide); omega
  obtain ⟨f1, f2, f3, f4, f5, f6⟩ := sensible_facts hn
  -- the cleared pool finds what an empty one finds
  let e : Heap := { h with mapped := [] }
  have G : Good (setUp e) _ _ := setUp_start (h := e) hu rfl
  obtain ⟨i, hp, hi, hi0⟩ := policy_ok (s := roundSize (atLeastOne n)) (by omega) (by omega)
  have hset : setUp h = { h with blocks := fun i => if i = maxBlocks then sizeMax - 1 else 0, segments := [], unused := maxSegments } := by
    unfold setUp; rw [if_pos hu]
  obtain ⟨j, j1, j2, j3, j4⟩ := nextClass_spec (setUp h).blocks (maxBlocks + 1 - (i + 1)) (i + 1) (by omega) (by omega) (by rw [hset]; simp only [if_true]; rw [sizeMax_eq]; decide)
  have hj : j ≥ maxBlocks := by
    refine Nat.le_of_not_lt fun hlt => ?_
    have : ∀ k i, nextClass (setUp h).blocks k i = .ok j → (setUp h).blocks j ≠ 0 := by
      intro k
      induction k with
      | zero => intro i h; cases h
      | succ k ih =>
        intro i h
        rw [nextClass] at h
        split at h
        · exact ih _ h
        · cases h; assumption
    refine this _ _ j3 ?_
    rw [hset]
    simp only []
    rw [if_neg (by omega)]
  refine ⟨setUp h, ⟨1, fun fuel hf => ?_⟩, by rw [hset], by rw [hset]; rfl⟩
  show acquire fuel h n none = _
  unfold acquire acquireBlock findFree
  obtain ⟨f, rfl⟩ : ∃ f, fuel = f + 1 := ⟨fuel - 1, by omega⟩
  have hw : fitWalk (setUp h) (roundSize (atLeastOne n)) (f + 1) ((setUp h).blocks i) = .ok 0 := by
    rw [fitWalk, if_pos (by rw [hset]; simp only []; rw [if_neg (by omega)])]
  rw [hp, Res.ok_bind, hw, Res.ok_bind, if_pos rfl, j3, Res.ok_bind, if_pos hj, Res.ok_bind, if_pos rfl, Res.ok_bind]
  simp only [if_true]
  unfold expand
  rw [if_neg (by rw [hset]; exact (by decide : ¬ (0 ≥ maxSegments))), Res.ok_bind]
  simp

/-- **C98 fails.** The documentation says that `RelinquishWizardMemory` zeros the memory.  It does not: every byte of the block but the first sixteen stays in memory as it was. -/
theorem C98_zeros_violated {h : Heap} {live} (R : Reach h live) {p n} (hp : (p, n) ∈ live) :
    ∃ h', Returns (fun fuel => relinquish fuel h p) h' ∧ ∀ i, 16 ≤ i → i < n → h'.mem (p + i) = h.mem (p + i) := by
  obtain ⟨N, h', e, _, _, k⟩ := ready_relinquish (reach_ready R) hp
  exact ⟨h', ⟨N, e⟩, k⟩

/-- There are histories as the theorems take for granted: two blocks, one of them written to. -/
theorem C59_example (mem : Nat → Nat) : ∃ h p q, Reach h [(q, 3000000), (p, 100)] ∧ h.mem (p + 50) = 42 ∧ h.segments.length < 1024 ∧ ∃ g ∈ h.mapped, g = (4096, 2097152) := by
  have hsm := sizeMax_eq
  have s1 : Sensible 100 := by unfold Sensible; rw [hsm]; decide
  have s2 : Sensible 3000000 := by unfold Sensible; rw [hsm]; decide
  have g1 : segmentOf 100 = 2097152 := by decide
  have g2 : segmentOf 3000000 = 4194304 := by decide
  have G1 : ∀ base, some 4096 = some base → Grant (start mem).mapped base (segmentOf 100) := by
    rintro b hb; cases hb
    rw [g1]
    exact ⟨by decide, by decide, by rw [hsm]; decide, fun g hg => by cases hg⟩
  obtain ⟨N, p, h1, e1, _, _, c1, m1, _⟩ := ready_acquire (reach_ready (Reach.start mem)) s1 (show (0 : Nat) < 1024 by decide) G1
  have p0 : p ≠ 0 := by
    intro hp
    rcases c1 hp with h | h
    · cases h
    · rw [g1] at h; omega
  have R1 := Reach.acquire (Reach.start mem) s1 (show (0 : Nat) < 1024 by decide) G1 (r := p) (h' := h1) ⟨N, e1⟩
  rw [if_neg p0] at R1
  obtain ⟨_, D1⟩ := C59_disjoint R1
  have m1' : h1.mapped = [(4096, 2097152)] := by
    rcases m1 with h | ⟨b, hb, h⟩
    · obtain ⟨_, _, g, hg, _⟩ := D1 (p, 100) (by simp)
      rw [h] at hg; cases hg
    · cases hb
      rw [h, g1]; rfl
  have l1 : h1.segments.length < 1024 := by
    rcases reach_ready R1 with ⟨_, _, _, h⟩ | ⟨B, L, G, O⟩
    · cases h
    · rw [G.segs.length_eq, m1']; decide
  have R2 := Reach.write R1 (p := p) (n := 100) (a := p + 50) (v := 42) (by simp) (by omega) (by omega)
  have G2 : ∀ base, some 4194304 = some base → Grant (poke h1 (p + 50) 42).mapped base (segmentOf 3000000) := by
    rintro b hb; cases hb
    rw [g2]
    refine ⟨by decide, by decide, by rw [hsm]; decide, fun g hg => ?_⟩
    have hg : g ∈ h1.mapped := hg
    rw [m1'] at hg
    rcases List.mem_cons.1 hg with rfl | h
    · right; decide
    · cases h
  obtain ⟨N2, q, h2, e2, _, k2, c2, m2, _⟩ := ready_acquire (reach_ready R2) s2 l1 G2
  have q0 : q ≠ 0 := by
    intro hp
    rcases c2 hp with h | h
    · cases h
    · rw [g2] at h; omega
  have R3 := Reach.acquire R2 s2 l1 G2 (r := q) (h' := h2) ⟨N2, e2⟩
  rw [if_neg q0] at R3
  have m2' : (h2.mapped = (poke h1 (p + 50) 42).mapped ∨ h2.mapped = (4194304, 4194304) :: (poke h1 (p + 50) 42).mapped) := by
    rcases m2 with h | ⟨b, hb, h⟩
    · exact .inl h
    · cases hb; rw [g2] at h; exact .inr h
  have pm : (poke h1 (p + 50) 42).mapped = [(4096, 2097152)] := m1'
  rw [pm] at m2'
  refine ⟨h2, p, q, R3, ?_, ?_, (4096, 2097152), ?_, rfl⟩
  · rw [k2 (p, 100) (by simp) 50 (show 50 < 100 by decide)]
    show (if p + 50 = p + 50 then 42 else _) = 42
    rw [if_pos rfl]
  · rcases reach_ready R3 with ⟨_, _, _, h⟩ | ⟨B, L, G, O⟩
    · cases h
    · rw [G.segs.length_eq]
      rcases m2' with h | h <;> rw [h] <;> decide
  · rcases m2' with h | h <;> rw [h] <;> simp

/-- A size in a gap, one past the sizes that work, and a history with a segment and nothing allocated. -/
example (mem : Nat → Nat) : Sensible 2097056 ∧ (max 2097056 1 + 119) % 2097152 < 24 ∧ (∃ h', Returns (fun fuel => acquire fuel (start mem) 2097056 (some 4096)) (0, h')) ∧
    ∃ h g, Reach h [] ∧ g ∈ h.mapped ∧ h.segments.length < 1024 ∧ (max 1000000 1 + 55) / 32 * 32 + 96 ≤ g.2 := by
  have hsm := sizeMax_eq
  have hsens : Sensible 2097056 := by unfold Sensible; rw [hsm]; decide
  have hseg : segmentOf 2097056 = 2097152 := by decide
  refine ⟨hsens, by decide, ?_, ?_⟩
  · obtain ⟨h', e, _⟩ := C60_gap_violated (Reach.start mem) hsens (show (0 : Nat) < 1024 by decide) (by decide) (fun g hg => by cases hg) (base := 4096)
      ⟨by decide, by decide, by rw [hsm, hseg]; decide, fun g hg => by cases hg⟩
    exact ⟨h', e⟩
  · obtain ⟨h, R, h1, h2, _, h4⟩ := many_segments mem 1 (by decide)
    cases hm : h.mapped with
    | nil => rw [hm] at h1; cases h1
    | cons g t =>
      have := (h4 g (by rw [hm]; simp)).1
      exact ⟨h, g, R, by rw [hm]; simp, by omega, by omega⟩

end Wizard.Props

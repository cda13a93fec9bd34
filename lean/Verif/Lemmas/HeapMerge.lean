import Verif.Lemmas.HeapSteps
/-! Splitting and joining blocks of the memory pool. -/
namespace Wizard.Pool
open Wizard

/-- A block that is neither allocated nor free becomes two. -/
theorem Inv.split {h : Heap} {B L} (I : Inv h B L) {b s n : Nat} (hb : B b = some (s, .held)) (h0 : 0 < n) (hn : n < s) (h32 : n % 32 = 0)
    (hw : word h.mem (b + n - 8) % 2 = 0) : Inv h (upd (upd B b (some (n, .held))) (b + n) (some (s - n, .held))) L := by
  have S := I.shape
  have T := I.tags
  have pb := S.size_pos hb
  have hnone : ∀ v, B (b + n) ≠ some v := by
    rintro ⟨t, j⟩ h
    have := S.size_pos h
    have := S.sep hb h (by omega)
    omega
  let B' := upd (upd B b (some (n, .held))) (b + n) (some (s - n, .held))
  have hB1 : B' b = some (n, .held) := by
    show upd _ _ _ _ = _
    rw [upd_other _ _ (by omega), upd_same]
  have hB2 : B' (b + n) = some (s - n, .held) := upd_same ..
  have hB3 : ∀ x, x ≠ b → x ≠ b + n → B' x = B x := by
    intro x h1 h2
    show upd _ _ _ _ = _
    rw [upd_other _ _ h2, upd_other _ _ h1]
  have cases3 : ∀ a t j, B' a = some (t, j) → (a = b ∧ t = n ∧ j = .held) ∨ (a = b + n ∧ t = s - n ∧ j = .held) ∨ (a ≠ b ∧ a ≠ b + n ∧ B a = some (t, j)) := by
    intro a t j ha
    by_cases e : a = b
    · subst e; rw [hB1] at ha; cases ha; exact .inl ⟨rfl, rfl, rfl⟩
    · by_cases e' : a = b + n
      · subst e'; rw [hB2] at ha; cases ha; exact .inr (.inl ⟨rfl, rfl, rfl⟩)
      · exact .inr (.inr ⟨e, e', by rw [← hB3 a e e']; exact ha⟩)
  have fr : ∀ a t, B' a = some (t, .free) ↔ B a = some (t, .free) := by
    intro a t
    constructor
    · intro ha
      rcases cases3 _ _ _ ha with ⟨_, _, h⟩ | ⟨_, _, h⟩ | ⟨_, _, h⟩
      · cases h
      · cases h
      · exact h
    · intro ha
      rw [hB3]
      · exact ha
      · rintro rfl; rw [hb] at ha; cases ha
      · rintro rfl; exact hnone _ ha
  have op : ∀ x, x ≠ b + n → (OpenEnd B' x ↔ OpenEnd B x) := by
    intro x hx
    constructor
    · rintro ⟨p, t, j, hp, hj, e⟩
      rcases cases3 _ _ _ hp with ⟨h1, h2, h3⟩ | ⟨h1, h2, h3⟩ | ⟨_, _, h3⟩
      · omega
      · exact ⟨b, s, .held, hb, by simp, by omega⟩
      · exact ⟨p, t, j, h3, hj, e⟩
    · rintro ⟨p, t, j, hp, hj, e⟩
      by_cases e1 : p = b
      · subst e1
        rw [hb] at hp
        cases hp
        exact ⟨p + n, s - n, .held, hB2, by simp, by omega⟩
      · refine ⟨p, t, j, ?_, hj, e⟩
        rw [hB3 p e1]
        · exact hp
        · rintro rfl; exact hnone _ hp
  have S' : Shape h.mapped B' := by
    refine ⟨S.seg, S.segs, fun a t j ha => ?_, fun a t j c u m ha hc hlt => ?_, fun a t j ha => ?_, fun g hg => ?_, fun a t u ha ha' => ?_⟩
    · obtain ⟨q1, q2, q3, g, hg, q4, q5⟩ := S.blk _ _ _ hb
      rcases cases3 _ _ _ ha with ⟨h1, h2, _⟩ | ⟨h1, h2, _⟩ | ⟨_, _, h3⟩
      · subst h1; subst h2; exact ⟨by omega, h32, h0, g, hg, by omega, by omega⟩
      · subst h1; subst h2; exact ⟨by omega, by omega, by omega, g, hg, by omega, by omega⟩
      · exact S.blk _ _ _ h3
    · rcases cases3 _ _ _ ha with ⟨h1, h2, _⟩ | ⟨h1, h2, _⟩ | ⟨h1, h2, h3⟩ <;>
      rcases cases3 _ _ _ hc with ⟨k1, k2, _⟩ | ⟨k1, k2, _⟩ | ⟨k1, k2, k3⟩
      · omega
      · omega
      · have := S.sep hb k3 (by omega); have := S.size_pos k3; omega
      · omega
      · omega
      · have := S.sep hb k3 (by omega); have := S.size_pos k3; omega
      · have := S.sep hb h3 (by omega); have := S.size_pos h3; omega
      · have := S.sep hb h3 (by omega); have := S.size_pos h3; omega
      · exact S.disj _ _ _ _ _ _ h3 k3 hlt
    · have lift : ∀ x, ((∃ v, B x = some v) ∨ IsEnd h.mapped x) → (∃ v, B' x = some v) ∨ IsEnd h.mapped x := by
        rintro x (⟨v, hv⟩ | hx)
        · by_cases e : x = b
          · subst e; exact .inl ⟨_, hB1⟩
          · by_cases e' : x = b + n
            · subst e'; exact .inl ⟨_, hB2⟩
            · exact .inl ⟨v, by rw [hB3 x e e']; exact hv⟩
        · exact .inr hx
      rcases cases3 _ _ _ ha with ⟨h1, h2, _⟩ | ⟨h1, h2, _⟩ | ⟨h1, h2, h3⟩
      · subst h1; subst h2; exact .inl ⟨_, hB2⟩
      · apply lift
        have := S.next _ _ _ hb
        rw [h1, h2, show b + n + (s - n) = b + s by omega]
        exact this
      · exact lift _ (S.next _ _ _ h3)
    · obtain ⟨v, hv⟩ := S.first g hg
      by_cases e : g.1 + 32 = b
      · rw [e]; exact ⟨_, hB1⟩
      · by_cases e' : g.1 + 32 = b + n
        · rw [e']; exact ⟨_, hB2⟩
        · exact ⟨v, by rw [hB3 _ e e']; exact hv⟩
    · rw [fr] at ha ha'
      exact S.apart _ _ _ ha ha'
  refine ⟨S', ⟨fun a t j ha hj => ?_, fun a t j ha => ?_, fun x hx => ?_, fun a t ha => ?_⟩, I.lists.recast fr⟩
  · rcases cases3 _ _ _ ha with ⟨h1, h2, h3⟩ | ⟨h1, h2, h3⟩ | ⟨h1, h2, h3⟩
    · exact absurd h3 hj
    · exact absurd h3 hj
    · exact T.size _ _ _ h3 hj
  · rcases cases3 _ _ _ ha with ⟨h1, h2, h3⟩ | ⟨h1, h2, h3⟩ | ⟨h1, h2, h3⟩
    · show _ ↔ OpenEnd B' a
      rw [op a (by omega), h1]
      exact T.bit _ _ _ hb
    · subst h1
      exact ⟨fun _ => ⟨b, n, .held, hB1, by simp, rfl⟩, fun _ => hw⟩
    · show _ ↔ OpenEnd B' a
      rw [op a h2]
      exact T.bit _ _ _ h3
  · have := S.endSep hb hx
    show _ ∧ (_ ↔ OpenEnd B' x) ∧ _
    rw [op x (by omega)]
    exact T.mark x hx
  · have ha : B' a = some (t, .free) := ha
    rw [fr] at ha
    exact T.foot _ _ ha

/-- Two blocks become one, as allocated as the second. -/
theorem Inv.merge {h : Heap} {B L} (I : Inv h B L) {a s t : Nat} {j k : Kind} (ha : B a = some (s, j)) (hb : B (a + s) = some (t, k)) (hj : j ≠ .free) (hk : k ≠ .free)
    {w : Nat} (hw : w < sizeMax) (h1 : w / 2 * 2 = s + t) (h2 : w % 2 = word h.mem (a - 8) % 2) :
    Inv { h with mem := setWord h.mem (a - 8) w } (upd (upd B (a + s) none) a (some (s + t, k))) L := by
  have S := I.shape
  have T := I.tags
  have pa := S.size_pos ha
  have pb := S.size_pos hb
  let B' := upd (upd B (a + s) none) a (some (s + t, k))
  have hB1 : B' a = some (s + t, k) := upd_same ..
  have hB2 : B' (a + s) = none := by
    show upd _ _ _ _ = _
    rw [upd_other _ _ (by omega), upd_same]
  have hB3 : ∀ x, x ≠ a → x ≠ a + s → B' x = B x := by
    intro x h1 h2
    show upd _ _ _ _ = _
    rw [upd_other _ _ h1, upd_other _ _ h2]
  have cases2 : ∀ c u m, B' c = some (u, m) → (c = a ∧ u = s + t ∧ m = k) ∨ (c ≠ a ∧ c ≠ a + s ∧ B c = some (u, m)) := by
    intro c u m hc
    by_cases e : c = a
    · subst e; rw [hB1] at hc; cases hc; exact .inl ⟨rfl, rfl, rfl⟩
    · by_cases e' : c = a + s
      · subst e'; rw [hB2] at hc; cases hc
      · exact .inr ⟨e, e', by rw [← hB3 c e e']; exact hc⟩
  have fr : ∀ c u, B' c = some (u, .free) ↔ B c = some (u, .free) := by
    intro c u
    constructor
    · intro hc
      rcases cases2 _ _ _ hc with ⟨_, _, h⟩ | ⟨_, _, h⟩
      · exact absurd h.symm hk
      · exact h
    · intro hc
      rw [hB3]
      · exact hc
      · rintro rfl; rw [ha] at hc; cases hc; exact absurd rfl hj
      · rintro rfl; rw [hb] at hc; cases hc; exact absurd rfl hk
  have op : ∀ x, x ≠ a + s → (OpenEnd B' x ↔ OpenEnd B x) := by
    intro x hx
    constructor
    · rintro ⟨p, u, m, hp, hm, e⟩
      rcases cases2 _ _ _ hp with ⟨q1, q2, q3⟩ | ⟨_, _, q3⟩
      · exact ⟨a + s, t, k, hb, q3 ▸ hm, by omega⟩
      · exact ⟨p, u, m, q3, hm, e⟩
    · rintro ⟨p, u, m, hp, hm, e⟩
      by_cases e1 : p = a
      · subst e1; rw [ha] at hp; cases hp; omega
      · by_cases e2 : p = a + s
        · subst e2
          rw [hb] at hp
          cases hp
          exact ⟨a, s + t, k, hB1, hm, by omega⟩
        · exact ⟨p, u, m, by rw [hB3 p e1 e2]; exact hp, hm, e⟩
  have key : ∀ y, y % 8 = 0 → y ≠ a - 8 → word (setWord h.mem (a - 8) w) y = word h.mem y := fun y hy hn => by
    rw [word_set _ hw (by omega) hy, if_neg hn]
  have seg1 : ∃ g ∈ h.mapped, g.1 + 32 ≤ a ∧ a + (s + t) + 64 ≤ g.1 + g.2 := by
    obtain ⟨_, _, _, g, hg, q4, q5⟩ := S.blk _ _ _ ha
    obtain ⟨_, _, _, g', hg', q4', q5'⟩ := S.blk _ _ _ hb
    rcases S.segs g hg g' hg' with rfl | h | h
    · exact ⟨g, hg, by omega, by omega⟩
    · omega
    · omega
  have S' : Shape h.mapped B' := by
    refine ⟨S.seg, S.segs, fun c u m hc => ?_, fun c u m c' u' m' hc hc' hlt => ?_, fun c u m hc => ?_, fun g hg => ?_, fun c u u' hc hc' => ?_⟩
    · rcases cases2 _ _ _ hc with ⟨q1, q2, _⟩ | ⟨_, _, q3⟩
      · subst q1; subst q2; exact ⟨by omega, by omega, by omega, seg1⟩
      · exact S.blk _ _ _ q3
    · rcases cases2 _ _ _ hc with ⟨q1, q2, _⟩ | ⟨q1, q2, q3⟩ <;>
      rcases cases2 _ _ _ hc' with ⟨r1, r2, _⟩ | ⟨r1, r2, r3⟩
      · omega
      · have := S.sep ha r3 (by omega); have := S.sep hb r3 (by omega); have := S.size_pos r3; omega
      · have := S.sep ha q3 (by omega); have := S.sep hb q3 (by omega); have := S.size_pos q3; omega
      · exact S.disj _ _ _ _ _ _ q3 r3 hlt
    · have lift : ∀ x, x ≠ a + s → ((∃ v, B x = some v) ∨ IsEnd h.mapped x) → (∃ v, B' x = some v) ∨ IsEnd h.mapped x := by
        rintro x hx (⟨v, hv⟩ | hx')
        · by_cases e : x = a
          · subst e; exact .inl ⟨_, hB1⟩
          · exact .inl ⟨v, by rw [hB3 x e hx]; exact hv⟩
        · exact .inr hx'
      rcases cases2 _ _ _ hc with ⟨q1, q2, _⟩ | ⟨q1, q2, q3⟩
      · subst q1
        rw [q2, show c + (s + t) = c + s + t by omega]
        exact lift _ (by omega) (S.next _ _ _ hb)
      · refine lift _ ?_ (S.next _ _ _ q3)
        have := S.sep ha q3 (by omega); have := S.sep hb q3 (by omega); have := S.size_pos q3; omega
    · obtain ⟨v, hv⟩ := S.first g hg
      by_cases e : g.1 + 32 = a
      · rw [e]; exact ⟨_, hB1⟩
      · refine ⟨v, ?_⟩
        rw [hB3 _ e]
        · exact hv
        · intro e'
          obtain ⟨g', hg', q4, q5⟩ := seg1
          have := S.seg g hg
          rcases S.segs g hg g' hg' with rfl | h | h
          · omega
          · omega
          · omega
    · rw [fr] at hc hc'
      exact S.apart _ _ _ hc hc'
  refine ⟨S', ⟨fun c u m hc hm => ?_, fun c u m hc => ?_, fun x hx => ?_, fun c u hc => ?_⟩, (I.lists.recast fr).congr (fun c u hc => ?_)⟩
  · have pc := S'.size_pos hc
    simp only []
    rcases cases2 _ _ _ hc with ⟨q1, q2, q3⟩ | ⟨q1, q2, q3⟩
    · subst q1; rw [word_same _ _ _ hw, h1, q2]
    · rw [key _ (by omega) (by omega)]
      exact T.size _ _ _ q3 hm
  · have pc := S'.size_pos hc
    simp only []
    rcases cases2 _ _ _ hc with ⟨q1, q2, q3⟩ | ⟨q1, q2, q3⟩
    · subst q1
      rw [word_same _ _ _ hw, h2]
      show _ ↔ OpenEnd B' c
      rw [op c (by omega)]
      exact T.bit _ _ _ ha
    · rw [key _ (by omega) (by omega)]
      show _ ↔ OpenEnd B' c
      rw [op c q2]
      exact T.bit _ _ _ q3
  · have := S.endAl hx
    have := S.endSep hb hx
    have := S.endSep ha hx
    simp only []
    rw [key _ (by omega) (by omega), key _ (by omega) (by omega)]
    show _ ∧ (_ ↔ OpenEnd B' x) ∧ _
    rw [op x (by omega)]
    exact T.mark x hx
  · have hc1 : B c = some (u, .free) := (fr c u).1 hc
    have pc := S.size_pos hc1
    simp only []
    rw [key _ (by omega)]
    · exact T.foot _ _ hc1
    · by_cases e : c = a
      · subst e; rw [ha] at hc1; cases hc1; exact absurd rfl hj
      · have := S.sep hc1 ha e; omega
  · have hc1 : B c = some (u, .free) := (fr c u).1 hc
    have pc := S.size_pos hc1
    simp only []
    by_cases e : c = a
    · subst e; rw [ha] at hc1; cases hc1; exact absurd rfl hj
    · have := S.sep hc1 ha e
      exact ⟨key _ (by omega) (by omega), key _ (by omega) (by omega)⟩

theorem upd_upd (B : Blocks) (a : Nat) (v v' : Option (Nat × Kind)) : upd (upd B a v) a v' = upd B a v' := by
  funext x
  by_cases e : x = a
  · subst e; rw [upd_same, upd_same]
  · rw [upd_other _ _ e, upd_other _ _ e, upd_other _ _ e]

/-- A segment from the system with one block. -/
theorem Shape.grow {M B} (S : Shape M B) {base len : Nat} {k : Kind} (h0 : 0 < base) (h8 : base % 16 = 0) (hl : len % 32 = 0) (hl' : 128 ≤ len) (hm : base + len < sizeMax)
    (hd : ∀ g ∈ M, base + len ≤ g.1 ∨ g.1 + g.2 ≤ base) : Shape ((base, len) :: M) (upd B (base + 32) (some (len - 96, k))) ∧ ∀ a s j, B a = some (s, j) → a ≠ base + 32 ∧ (a + s + 64 ≤ base ∨ base + len + 32 ≤ a) := by
  have far : ∀ a s j, B a = some (s, j) → a ≠ base + 32 ∧ (a + s + 64 ≤ base ∨ base + len + 32 ≤ a) := by
    intro a s j ha
    obtain ⟨_, _, _, g, hg, q1, q2⟩ := S.blk _ _ _ ha
    have := hd g hg
    omega
  refine ⟨⟨fun g hg => ?_, fun g hg g' hg' => ?_, fun a s j ha => ?_, fun a s j b t m ha hb hlt => ?_, fun a s j ha => ?_, fun g hg => ?_, fun a s t ha hb => ?_⟩, far⟩
  · rcases List.mem_cons.1 hg with rfl | hg
    · exact ⟨h0, h8, hl, hl', hm⟩
    · exact S.seg g hg
  · rcases List.mem_cons.1 hg with rfl | hg <;> rcases List.mem_cons.1 hg' with rfl | hg'
    · exact .inl rfl
    · have := hd _ hg'; simp only []; omega
    · have := hd _ hg; simp only []; omega
    · exact S.segs g hg g' hg'
  · by_cases e : a = base + 32
    · subst e
      rw [upd_same] at ha
      cases ha
      exact ⟨by omega, by omega, by omega, (base, len), by simp, by simp only []; omega, by simp only []; omega⟩
    · rw [upd_other _ _ e] at ha
      obtain ⟨q1, q2, q3, g, hg, q4⟩ := S.blk _ _ _ ha
      exact ⟨q1, q2, q3, g, List.mem_cons_of_mem _ hg, q4⟩
  · by_cases e : a = base + 32
    · subst e
      rw [upd_same] at ha
      cases ha
      rw [upd_other _ _ (by omega)] at hb
      have := far _ _ _ hb
      have := S.size_pos hb
      omega
    · rw [upd_other _ _ e] at ha
      by_cases e' : b = base + 32
      · subst e'
        have := far _ _ _ ha
        have := S.size_pos ha
        omega
      · rw [upd_other _ _ e'] at hb
        exact S.disj _ _ _ _ _ _ ha hb hlt
  · by_cases e : a = base + 32
    · subst e
      rw [upd_same] at ha
      cases ha
      exact .inr ⟨(base, len), by simp, by simp only []; omega⟩
    · rw [upd_other _ _ e] at ha
      rcases S.next _ _ _ ha with ⟨v, hv⟩ | ⟨g, hg, hx⟩
      · refine .inl ⟨v, ?_⟩
        have := far _ v.1 v.2 hv
        rw [upd_other _ _ this.1]
        exact hv
      · exact .inr ⟨g, List.mem_cons_of_mem _ hg, hx⟩
  · rcases List.mem_cons.1 hg with rfl | hg
    · exact ⟨_, upd_same ..⟩
    · obtain ⟨v, hv⟩ := S.first g hg
      have := far _ v.1 v.2 hv
      exact ⟨v, by rw [upd_other _ _ this.1]; exact hv⟩
  · by_cases e : a = base + 32
    · subst e
      rw [upd_same] at ha
      cases ha
      rw [upd_other _ _ (by omega)] at hb
      have := far _ _ _ hb
      omega
    · rw [upd_other _ _ e] at ha
      by_cases e' : a + s = base + 32
      · have := far _ _ _ ha
        omega
      · rw [upd_other _ _ e'] at hb
        exact S.apart _ _ _ ha hb

/-- The block and the marks of a new segment. -/
theorem layOut_ok {h h0 : Heap} {B L} (I : Inv h B L) {base len : Nat} (hbase : 0 < base) (h8 : base % 16 = 0) (hl : len % 32 = 0) (hl' : 128 ≤ len) (hmx : base + len < sizeMax)
    (hd : ∀ g ∈ h.mapped, base + len ≤ g.1 ∨ g.1 + g.2 ≤ base) (e1 : h0.mem = h.mem) (e2 : h0.mapped = (base, len) :: h.mapped) (e3 : h0.blocks = h.blocks) :
    ∃ N h' L', (∀ fuel, N ≤ fuel → layOut fuel h0 base len = .ok h') ∧ Same h0 h' ∧ Inv h' (upd B (base + 32) (some (len - 96, .free))) L' ∧
      ∀ a s, B a = some (s, .live) → ∀ x, a ≤ x → x + 8 < a + s → h'.mem x = h.mem x := by
  have S := I.shape
  have T := I.tags
  have hmx' := hmx
  rw [sizeMax_eq] at hmx'
  obtain ⟨i, hp, _, _⟩ := policy_ok (s := len - 96) (by omega) (by omega)
  obtain ⟨S1, far⟩ := S.grow (k := .held) hbase h8 hl hl' hmx hd
  have S2 := (S.grow (k := .free) hbase h8 hl hl' hmx hd).1
  have gv : ∀ x, x % 8 = 0 → base ≤ x → x + 8 ≤ base + len → ∀ h' : Heap, h'.mapped = (base, len) :: h.mapped → given h' x = true := by
    intro x q1 q2 q3 h' q4
    rw [given_iff, q4]
    exact ⟨q1, (base, len), by simp, q2, q3⟩
  let size := len - 96
  have esize : (len + (sizeMax - 96)) % sizeMax = size := by
    rw [sizeMax_eq]
    show _ = len - 96
    omega
  let h1 : Heap := { h0 with mem := setWord h0.mem (base + 32 - 8) (size / 2 * 2 + 1) }
  let h2 : Heap := { h1 with mem := setWord h1.mem (base + 32 + size - 16) size }
  have hsz : size < sizeMax := by show len - 96 < sizeMax; omega
  have hsz' : size / 2 * 2 + 1 < sizeMax := by rw [sizeMax_eq]; show (len - 96) / 2 * 2 + 1 < _; omega
  have w2 : ∀ x, x % 8 = 0 → word h2.mem x = if x = base + 32 + size - 16 then size else if x = base + 24 then size + 1 else word h.mem x := by
    intro x hx
    show word (setWord (setWord h0.mem _ _) _ _) x = _
    rw [word_set _ hsz (by show (base + 32 + (len - 96) - 16) % 8 = 0; omega) hx, word_set _ hsz' (by omega) hx, e1]
    rw [show base + 32 - 8 = base + 24 by omega, show size / 2 * 2 + 1 = size + 1 by show (len - 96) / 2 * 2 + 1 = _; omega]
  have m2 : ∀ x, x < base ∨ base + len ≤ x → h2.mem x = h.mem x := by
    intro x hx
    show setWord (setWord h0.mem _ _) _ _ x = _
    rw [setWord_out _ _ _ _ (by show x < base + 32 + (len - 96) - 16 ∨ _; omega), setWord_out _ _ _ _ (by omega), e1]
  have fr1 : ∀ x t, upd B (base + 32) (some (size, .held)) x = some (t, .free) ↔ B x = some (t, .free) := by
    intro x t
    by_cases e : x = base + 32
    · subst e
      rw [upd_same]
      constructor
      · intro h; cases h
      · intro h; exact absurd rfl (far _ _ _ h).1
    · rw [upd_other _ _ e]
  have ha : upd B (base + 32) (some (size, .held)) (base + 32) = some (size, .held) := upd_same ..
  have S1' : Shape h2.mapped (upd B (base + 32) (some (size, .held))) := by
    show Shape h0.mapped _
    rw [e2]; exact S1
  have Q1 : Lists (word h2.mem) h2.blocks (upd B (base + 32) (some (size, .held))) L := by
    show Lists _ h0.blocks _ _
    rw [e3]
    refine (I.lists.recast fr1).congr (fun a s ha => ?_)
    rw [fr1] at ha
    have := far _ _ _ ha
    have := S.size_pos ha
    exact ⟨word_congr (fun x _ _ => m2 x (by omega)), word_congr (fun x _ _ => m2 x (by omega))⟩
  have hq : ∀ x t, upd B (base + 32) (some (size, .held)) x = some (t, .free) → sizeOf h2 x = .ok t := by
    intro x t hx
    unfold sizeOf
    have px := S1'.size_pos hx
    rw [load_ok (S1'.given hx (by omega) (by omega) (by omega)), Res.ok_bind]
    rw [fr1] at hx
    have := far _ _ _ hx
    rw [word_congr (m := h.mem) (m' := h2.mem) (fun y _ _ => m2 y (by omega)), T.size _ _ _ hx (by simp)]
  obtain ⟨N, h3, L', r1, r2, r3, r4⟩ := attach_lists S1' Q1 hq ha hp (by
    rw [show base + 32 - 8 = base + 24 by omega, w2 _ (by omega), if_neg (by show ¬ base + 24 = base + 32 + (len - 96) - 16; omega), if_pos rfl]
    show (len - 96 + 1) / 2 * 2 = len - 96
    omega)
  rw [upd_upd] at r3 r4
  have hm3 : h3.mapped = (base, len) :: h.mapped := by rw [r2.1]; exact e2
  have keep3 : ∀ x, x % 8 = 0 → x = base + 24 ∨ x = base + len - 80 → word h3.mem x = word h2.mem x := by
    intro x hx hx'
    refine word_congr (fun y y1 y2 => r3 y (fun f t hf => ?_))
    by_cases e : f = base + 32
    · omega
    · rw [upd_other _ _ e] at hf
      have := far _ _ _ hf
      omega
  have s3 : sizeOf h3 (base + 32) = .ok size := by
    unfold sizeOf
    rw [load_ok (gv _ (by omega) (by omega) (by omega) h3 hm3), Res.ok_bind, show base + 32 - 8 = base + 24 by omega, keep3 _ (by omega) (.inl rfl), w2 _ (by omega),
      if_neg (by show ¬ base + 24 = base + 32 + (len - 96) - 16; omega), if_pos rfl]
    show Res.ok ((len - 96 + 1) / 2 * 2) = Res.ok (len - 96)
    congr 1
    omega
  let last := base + 32 + size
  have hlast : last + 64 = base + len := by show base + 32 + (len - 96) + 64 = _; omega
  let h4 : Heap := { h3 with mem := setWord h3.mem (last - 8) 16 }
  let h5 : Heap := { h4 with mem := setWord h4.mem (last + 8) 1 }
  have l16 : 16 < sizeMax := by rw [sizeMax_eq]; omega
  have l1 : 1 < sizeMax := by rw [sizeMax_eq]; omega
  have w5 : ∀ x, x % 8 = 0 → word h5.mem x = if x = last + 8 then 1 else if x = last - 8 then 16 else word h3.mem x := by
    intro x hx
    show word (setWord (setWord h3.mem _ _) _ _) x = _
    rw [word_set _ l1 (by omega) hx, word_set _ l16 (by omega) hx]
  have m5 : ∀ x, x < last - 8 ∨ last + 16 ≤ x → h5.mem x = h3.mem x := by
    intro x hx
    show setWord (setWord h3.mem _ _) _ _ x = _
    rw [setWord_out _ _ _ _ (by omega), setWord_out _ _ _ _ (by omega)]
  have es1 : store h0 (base + 32 - 8) (size / 2 * 2 + 1) = .ok h1 := store_ok _ (gv _ (by omega) (by omega) (by omega) h0 e2)
  have es2 : store h1 (base + 32 + size - 16) size = .ok h2 := store_ok _ (gv _ (by show (base + 32 + (len - 96) - 16) % 8 = 0; omega) (by show base ≤ base + 32 + (len - 96) - 16; omega) (by show base + 32 + (len - 96) - 16 + 8 ≤ _; omega) h1 e2)
  have es4 : store h3 (base + 32 + size - 8) 16 = .ok h4 := store_ok _ (gv _ (by show (base + 32 + (len - 96) - 8) % 8 = 0; omega) (by show base ≤ base + 32 + (len - 96) - 8; omega) (by show base + 32 + (len - 96) - 8 + 8 ≤ _; omega) h3 hm3)
  have s4 : sizeOf h4 (base + 32 + size) = .ok 16 := by
    unfold sizeOf
    show (do let w ← load h4 (last - 8); _) = _
    rw [load_ok (gv _ (by omega) (by omega) (by omega) h4 hm3), Res.ok_bind]
    show Res.ok (word (setWord h3.mem (last - 8) 16) (last - 8) / 2 * 2) = _
    rw [word_same _ _ _ l16]
  have es5 : store h4 (base + 32 + size + 16 - 8) 1 = .ok h5 := store_ok (h := h4) (a := last + 8) _ (gv _ (by omega) (by omega) (by omega) h4 hm3)
  have run : ∀ fuel, N ≤ fuel → layOut fuel h0 base len = .ok h5 := by
    intro fuel hf
    unfold layOut
    simp only [esize]
    rw [es1, Res.ok_bind, es2, Res.ok_bind, show policy size = .ok i from hp, Res.ok_bind, r1 fuel hf, Res.ok_bind, s3, Res.ok_bind]
    rw [if_pos (by show base + 32 + (len - 96) < _; omega), es4, Res.ok_bind, s4, Res.ok_bind, es5]
  -- what is where
  have fr2 : ∀ a s k, upd B (base + 32) (some (size, .free)) a = some (s, k) → (a = base + 32 ∧ s = size ∧ k = .free) ∨ (a ≠ base + 32 ∧ B a = some (s, k)) := by
    intro a s k ha
    by_cases e : a = base + 32
    · subst e; rw [upd_same] at ha; cases ha; exact .inl ⟨rfl, rfl, rfl⟩
    · rw [upd_other _ _ e] at ha; exact .inr ⟨e, ha⟩
  have op : ∀ x, x ≠ last → (OpenEnd (upd B (base + 32) (some (size, .free))) x ↔ OpenEnd B x) := by
    intro x hx
    constructor
    · rintro ⟨p, s, k, hp, hk, e⟩
      rcases fr2 _ _ _ hp with ⟨q1, q2, _⟩ | ⟨_, q2⟩
      · exfalso; apply hx; show x = base + 32 + size; omega
      · exact ⟨p, s, k, q2, hk, e⟩
    · rintro ⟨p, s, k, hp, hk, e⟩
      exact ⟨p, s, k, by rw [upd_other _ _ (far _ _ _ hp).1]; exact hp, hk, e⟩
  have old : ∀ y, y + 8 ≤ base ∨ base + len ≤ y → (∀ f s, B f = some (s, .free) → y + 8 ≤ f ∨ f + 16 ≤ y) → word h5.mem y = word h.mem y := by
    intro y hy hf
    refine word_congr (fun x x1 x2 => ?_)
    rw [m5 x (by omega), r3 x (fun f t hft => ?_), m2 x (by omega)]
    rcases fr2 _ _ _ hft with ⟨q1, _⟩ | ⟨_, q2⟩
    · omega
    · have := hf _ _ q2; omega
  refine ⟨N, h5, L', run, ⟨?_, ?_, ?_⟩, ⟨?_, ?_, ?_⟩, ?_⟩
  · show h3.mapped = _
    exact r2.1
  · show h3.segments = _
    exact r2.2.1
  · show h3.unused = _
    exact r2.2.2
  · show Shape h3.mapped _
    rw [hm3]; exact S2
  · show Tags (word h5.mem) h3.mapped _
    rw [hm3]
    refine ⟨fun a s k ha hk => ?_, fun a s k ha => ?_, fun x hx => ?_, fun a s ha => ?_⟩
    · rcases fr2 _ _ _ ha with ⟨q1, q2, _⟩ | ⟨_, q2⟩
      · subst q1
        rw [show base + 32 - 8 = base + 24 by omega, w5 _ (by omega), if_neg (by omega), if_neg (by omega), keep3 _ (by omega) (.inl rfl), w2 _ (by omega), if_neg (by show ¬ base + 24 = base + 32 + (len - 96) - 16; omega), if_pos rfl, q2]
        show (len - 96 + 1) / 2 * 2 = len - 96
        omega
      · have := far _ _ _ q2
        have p2 := S.size_pos q2
        rw [old _ (by omega) (fun f t hf => by
          have := S.size_pos hf
          by_cases e : a = f
          · omega
          · have := S.sep q2 hf e; omega)]
        exact T.size _ _ _ q2 hk
    · rcases fr2 _ _ _ ha with ⟨q1, q2, _⟩ | ⟨_, q2⟩
      · subst q1
        rw [show base + 32 - 8 = base + 24 by omega, w5 _ (by omega), if_neg (by omega), if_neg (by omega), keep3 _ (by omega) (.inl rfl), w2 _ (by omega), if_neg (by show ¬ base + 24 = base + 32 + (len - 96) - 16; omega), if_pos rfl]
        rw [op _ (by omega)]
        constructor
        · intro h
          exfalso
          have : (len - 96 + 1) % 2 = 0 := h
          omega
        · rintro ⟨p, t, k, hp, _, e⟩
          have := far _ _ _ hp
          omega
      · have := far _ _ _ q2
        have p2 := S.size_pos q2
        rw [old _ (by omega) (fun f t hf => by
          have := S.size_pos hf
          by_cases e : a = f
          · omega
          · have := S.sep q2 hf e; omega), op _ (by omega)]
        exact T.bit _ _ _ q2
    · obtain ⟨g, hg, hx⟩ := hx
      rcases List.mem_cons.1 hg with rfl | hg
      · have hx : x = last := by simp only [] at hx; omega
        subst hx
        rw [w5 _ (by omega), if_neg (by omega), if_pos rfl, w5 _ (by omega), if_pos rfl]
        exact ⟨by omega, ⟨fun _ => ⟨base + 32, size, .free, upd_same .., by simp, rfl⟩, fun _ => by omega⟩, rfl⟩
      · have := hd g hg
        have := S.seg g hg
        have hx' : IsEnd h.mapped x := ⟨g, hg, hx⟩
        have k1 : word h5.mem (x - 8) = word h.mem (x - 8) := old _ (by omega) (fun f t hf => by
          have := S.endSep hf hx'
          have := S.size_pos hf
          omega)
        have k2 : word h5.mem (x + 8) = word h.mem (x + 8) := old _ (by omega) (fun f t hf => by
          have := S.endSep hf hx'
          have := S.size_pos hf
          omega)
        rw [k1, k2, op _ (by omega)]
        exact T.mark x hx'
    · rcases fr2 _ _ _ ha with ⟨q1, q2, _⟩ | ⟨_, q2⟩
      · subst q1
        have e : base + 32 + s - 16 = base + len - 80 := by rw [q2]; show base + 32 + (len - 96) - 16 = _; omega
        rw [e, w5 _ (by omega), if_neg (by omega), if_neg (by omega), keep3 _ (by omega) (.inr rfl), w2 _ (by omega), if_pos (by rw [← e, q2]), q2]
      · have := far _ _ _ q2
        have p2 := S.size_pos q2
        rw [old _ (by omega) (fun f t hf => by
          have := S.size_pos hf
          by_cases e : a = f
          · subst e; rw [q2] at hf; cases hf; omega
          · have := S.sep q2 hf e; omega)]
        exact T.foot _ _ q2
  · refine r4.congr (fun a s ha => ?_)
    have px := S2.size_pos ha
    have : a + 32 ≤ last ∨ last + 32 ≤ a := by
      rcases fr2 _ _ _ ha with ⟨q1, q2, _⟩ | ⟨_, q2⟩
      · subst q1; have : s = len - 96 := q2; omega
      · have := far _ _ _ q2; omega
    rw [w5 _ (by omega), w5 _ (by omega), if_neg (by omega), if_neg (by omega), if_neg (by omega), if_neg (by omega)]
    exact ⟨rfl, rfl⟩
  · intro a s ha x x1 x2
    have := far _ _ _ ha
    rw [m5 x (by omega), r3 x (fun f t hft => ?_), m2 x (by omega)]
    rcases fr2 _ _ _ hft with ⟨q1, _⟩ | ⟨_, q2⟩
    · omega
    · have := S.size_pos q2
      by_cases e : a = f
      · subst e; rw [ha] at q2; cases q2
      · have := S.sep ha q2 e; omega

end Wizard.Pool

import Verif.Lemmas.HeapMerge
/-! The functions of the memory pool keep its invariant. -/
namespace Wizard.Pool
open Wizard

/-- No block is between two states. -/
def NoHeld (B : Blocks) : Prop := ∀ a s, B a ≠ some (s, .held)

/-- The contents of the allocated blocks are as before. -/
def Keep (B : Blocks) (h h' : Heap) : Prop := ∀ a s, B a = some (s, .live) → ∀ x, a ≤ x → x + 8 < a + s → h'.mem x = h.mem x

theorem Keep.refl (B : Blocks) (h : Heap) : Keep B h h := fun _ _ _ _ _ _ => rfl

theorem Keep.trans {B B' : Blocks} {h h' h'' : Heap} (k : Keep B h h') (k' : Keep B' h' h'') (hb : ∀ a s, B a = some (s, .live) → B' a = some (s, .live)) : Keep B h h'' :=
  fun a s ha x h1 h2 => (k' a s (hb a s ha) x h1 h2).trans (k a s ha x h1 h2)

theorem Keep.sub {B B' : Blocks} {h h' : Heap} (k : Keep B h h') (hb : ∀ a s, B' a = some (s, .live) → B a = some (s, .live)) : Keep B' h h' :=
  fun a s ha => k a s (hb a s ha)

theorem Keep.store {B : Blocks} {h : Heap} (y w : Nat) (hy : ∀ a s, B a = some (s, .live) → y + 8 ≤ a ∨ a + s ≤ y + 8) : Keep B h { h with mem := setWord h.mem y w } :=
  fun a s ha x h1 h2 => setWord_out _ _ _ _ (by have := hy a s ha; omega)

/-- The bit after a block says whether it is allocated. -/
theorem Inv.after {h : Heap} {B L} (I : Inv h B L) {b s k} (hb : B b = some (s, k)) : word h.mem (b + s - 8) % 2 = 0 ↔ k ≠ .live := by
  have S := I.shape
  have op : OpenEnd B (b + s) ↔ k ≠ .live := by
    constructor
    · rintro ⟨p, t, j, hp, hj, e⟩
      by_cases e' : p = b
      · subst e'; rw [hb] at hp; cases hp; exact hj
      · exfalso
        have := S.size_pos hp
        have := S.size_pos hb
        have := S.sep hp hb e'
        omega
    · intro hk; exact ⟨b, s, k, hb, hk, rfl⟩
  rw [← op]
  rcases S.next _ _ _ hb with ⟨⟨t, j⟩, hv⟩ | hx
  · exact I.tags.bit _ _ _ hv
  · exact (I.tags.mark _ hx).2.1

theorem Inv.given_after {h : Heap} {B L} (I : Inv h B L) {b s k} (hb : B b = some (s, k)) : given h (b + s - 8) = true := by
  have := I.shape.size_pos hb
  exact I.shape.given hb (by omega) (by omega) (by omega)

/-! ### Splitting -/

theorem split_ok {h : Heap} {B L} (I : Inv h B L) {b s n : Nat} (hb : B b = some (s, .held)) (hs : word h.mem (b - 8) / 2 * 2 = s) (h0 : 0 < n) (h32 : n % 32 = 0) (hn : n ≤ s)
    (ha : ∀ t, B (b + s) ≠ some (t, .free)) :
    ∃ N h' B' L', (∀ fuel, N ≤ fuel → split fuel h b n = .ok h') ∧ Same h h' ∧ Inv h' B' L' ∧ B' b = some (n, .held) ∧ word h'.mem (b - 8) / 2 * 2 = n ∧
      (∀ a t, B' a = some (t, .live) ↔ B a = some (t, .live)) ∧ (∀ a t, B' a = some (t, .held) → a = b ∨ B a = some (t, .held)) ∧ Keep B h h' := by
  have S := I.shape
  have pb := S.size_pos hb
  have hsz : sizeOf h b = .ok s := by
    unfold sizeOf
    rw [load_ok (S.given hb (by omega) (by omega) (by omega)), Res.ok_bind, hs]
  by_cases e : n = s
  · subst e
    refine ⟨0, h, B, L, fun fuel _ => ?_, Same.refl h, I, hb, hs, fun _ _ => Iff.rfl, fun _ _ h => .inr h, Keep.refl B h⟩
    unfold split
    rw [hsz, Res.ok_bind, if_neg (by omega)]
  · have hlt : n < s := by omega
    have hneq : ∀ a t, B a = some (t, .live) → a ≠ b := by rintro a t h rfl; rw [hb] at h; cases h
    have m1 : s - n < sizeMax := by omega
    let h1 : Heap := { h with mem := setWord h.mem (b + n - 8) (s - n) }
    let h2 : Heap := { h1 with mem := setWord h1.mem (b + n + (s - n) - 16) (s - n) }
    have e1 : store h (b + n - 8) (s - n) = .ok h1 := store_ok _ (S.given hb (by omega) (by omega) (by omega))
    have e2 : store h1 (b + n + (s - n) - 16) (s - n) = .ok h2 := store_ok _ (S.given (h := h1) hb (by omega) (by omega) (by omega))
    have w2 : ∀ x, x % 8 = 0 → word h2.mem x = if x = b + s - 16 then s - n else if x = b + n - 8 then s - n else word h.mem x := by
      intro x hx
      show word (setWord (setWord h.mem _ _) _ _) x = _
      rw [word_set _ m1 (by omega) hx, word_set _ m1 (by omega) hx, show b + n + (s - n) - 16 = b + s - 16 by omega]
    have mm2 : ∀ x, x < b ∨ b + s ≤ x + 8 → h2.mem x = h.mem x := by
      intro x hx
      show setWord (setWord h.mem _ _) _ _ x = _
      rw [setWord_out _ _ _ _ (by omega), setWord_out _ _ _ _ (by omega)]
    have I2 : Inv h2 B L := I.inside (h' := h2) rfl rfl hb (by simp) mm2
    have I3 := I2.split hb h0 hlt h32 (by rw [w2 _ (by omega), if_neg (by omega), if_pos rfl]; omega)
    have hb3 : upd (upd B b (some (n, .held))) (b + n) (some (s - n, .held)) b = some (n, .held) := by rw [upd_other _ _ (by omega), upd_same]
    have hn3 : upd (upd B b (some (n, .held))) (b + n) (some (s - n, .held)) (b + n) = some (s - n, .held) := upd_same ..
    generalize hB3 : upd (upd B b (some (n, .held))) (b + n) (some (s - n, .held)) = B3 at I3 hb3 hn3
    have ho3 : ∀ x, x ≠ b → x ≠ b + n → B3 x = B x := by
      intro x x1 x2
      rw [← hB3, upd_other _ _ x2, upd_other _ _ x1]
    have hnone : ∀ v, B (b + n) ≠ some v := by
      rintro ⟨t, j⟩ h
      have := S.size_pos h
      have := S.sep hb h (by omega)
      omega
    obtain ⟨i, hp, _, _⟩ := policy_ok (s := s - n) (by omega) (by omega)
    obtain ⟨N, h4, L4, r1, r2, r3, I4⟩ := attach I3 hn3 hp (by
        rw [w2 _ (by omega), if_neg (by omega), if_pos rfl]; omega) (by
        rw [show b + n + (s - n) - 16 = b + s - 16 by omega, w2 _ (by omega), if_pos rfl]) ⟨fun t => by
        rw [show b + n + (s - n) = b + s by omega, ho3 _ (by omega) (by omega)]
        exact ha t, fun p t hp' e => by
        have := I3.shape.size_pos hp'
        have := I3.shape.size_pos hb3
        by_cases e' : p = b
        · subst e'; rw [hb3] at hp'; cases hp'
        · have := I3.shape.sep hp' hb3 e'
          omega⟩
    have hb4 : upd B3 (b + n) (some (s - n, .free)) b = some (n, .held) := by rw [upd_other _ _ (by omega)]; exact hb3
    have S4 := I4.shape
    have g5 : given h4 (b - 8) = true := S4.given hb4 (by omega) (by omega) (by omega)
    have hb4w : word h4.mem (b - 8) = word h.mem (b - 8) := by
      rw [word_congr (m := h2.mem) (m' := h4.mem) (fun x x1 x2 => r3 x (fun f t hf => ?_)), w2 _ (by omega), if_neg (by omega), if_neg (by omega)]
      have S4' : Shape h2.mapped (upd B3 (b + n) (some (s - n, .free))) := r2.1 ▸ S4
      have := S4'.size_pos hf
      by_cases e' : f = b
      · omega
      · have := S4'.sep hf hb4 e'
        omega
    have m5 : n + word h4.mem (b - 8) % 2 < sizeMax := by omega
    have I5 := I4.header hb4 m5 (by omega)
    refine ⟨N, _, _, _, fun fuel hf => ?_, ?_, I5, hb4, ?_, fun a t => ?_, fun a t hat => ?_, ?_⟩
    · unfold split
      rw [hsz, Res.ok_bind, if_pos (by omega)]
      simp only []
      rw [e1, Res.ok_bind, e2, Res.ok_bind, hp, Res.ok_bind, r1 fuel hf, Res.ok_bind, load_ok g5, Res.ok_bind, store_ok _ g5]
    · exact (show Same h h2 from ⟨rfl, rfl, rfl⟩).trans r2
    · simp only []
      rw [word_same _ _ _ m5]
      omega
    · by_cases x1 : a = b
      · subst x1
        rw [hb4, hb]
        constructor <;> intro h <;> cases h
      · by_cases x2 : a = b + n
        · subst x2
          rw [upd_same]
          constructor
          · intro h; cases h
          · intro h; exact absurd h (hnone _)
        · rw [upd_other _ _ x2, ho3 a x1 x2]
    · by_cases x2 : a = b + n
      · subst x2; rw [upd_same] at hat; cases hat
      · by_cases x1 : a = b
        · exact .inl x1
        · rw [upd_other _ _ x2, ho3 a x1 x2] at hat; exact .inr hat
    · intro a t hat x x1 x2
      have pa := S.size_pos hat
      have hsep := S.sep hat hb (hneq _ _ hat)
      show setWord h4.mem (b - 8) _ x = h.mem x
      rw [setWord_out _ _ _ _ (by omega), r3 x (fun f u hf => ?_), mm2 x (by omega)]
      by_cases y2 : f = b + n
      · subst y2; omega
      · by_cases y1 : f = b
        · subst y1; rw [hb4] at hf; cases hf
        · rw [upd_other _ _ y2, ho3 f y1 y2] at hf
          have := S.size_pos hf
          by_cases y3 : a = f
          · subst y3; rw [hat] at hf; cases hf
          · have := S.sep hat hf y3; omega

/-- Lines 415-439 of memory.c. -/
theorem take_ok {h : Heap} {B L} (I : Inv h B L) (nh : NoHeld B) {b s n : Nat} (hb : B b = some (s, .free)) (h0 : 0 < n) (h32 : n % 32 = 0) (hn : n ≤ s) :
    ∃ N h' B' L', (∀ fuel, N ≤ fuel → take fuel h b n = .ok (b, h')) ∧ Same h h' ∧ Inv h' B' L' ∧ NoHeld B' ∧ B' b = some (n, .live) ∧
      (∀ a t, a ≠ b → (B' a = some (t, .live) ↔ B a = some (t, .live))) ∧ Keep B h h' := by
  have S := I.shape
  have pb := S.size_pos hb
  obtain ⟨i, hp, _, _⟩ := policy_ok (s := s) (by omega) (by omega)
  obtain ⟨h1, L1, r1, r2, r3, I1⟩ := detach I hb hp
  obtain ⟨T1, k1, _, _⟩ := I.tags.frame S r3
  have hb1 : upd B b (some (s, .held)) b = some (s, .held) := upd_same ..
  obtain ⟨N, h2, B2, L2, q1, q2, I2, hb2, hw2, hl2, hh2, kp2⟩ := split_ok I1 hb1 (by rw [k1 _ _ _ hb]; exact I.tags.size _ _ _ hb (by simp)) h0 h32 hn (fun t => by
    rw [upd_other _ _ (by omega)]; exact S.apart _ _ _ hb)
  have g2 := I2.given_after hb2
  have S2 := I2.shape
  have p2 := S2.size_pos hb2
  have hw3 : word h2.mem (b + n - 8) / 2 * 2 + 1 < sizeMax := by
    have := word_lt h2.mem (b + n - 8)
    rw [sizeMax_eq] at *
    omega
  have I3 := I2.setBit hb2 (k' := .live) (by simp) (by simp) (fun _ => hw2) hw3 (by omega) (by simp)
  have hl1 : ∀ a t, upd B b (some (s, .held)) a = some (t, .live) ↔ B a = some (t, .live) := by
    intro a t
    by_cases e : a = b
    · subst e
      rw [upd_same, hb]
      constructor <;> intro h <;> cases h
    · rw [upd_other _ _ e]
  refine ⟨N, { h2 with mem := setWord h2.mem (b + n - 8) (word h2.mem (b + n - 8) / 2 * 2 + 1) }, _, _, fun fuel hf => ?_, r2.trans (q2.trans ⟨rfl, rfl, rfl⟩), I3, ?_, upd_same .., fun a t hab => ?_, ?_⟩
  · unfold take
    rw [I.tags.sizeOf S hb (by simp), Res.ok_bind, load_ok (I.given_after hb), Res.ok_bind, if_neg (by have := (I.after hb).2 (by simp); omega), if_neg (by omega), hp, Res.ok_bind, r1, Res.ok_bind, q1 fuel hf, Res.ok_bind]
    have : sizeOf h2 b = .ok n := by
      unfold sizeOf
      rw [load_ok (S2.given hb2 (by omega) (by omega) (by omega)), Res.ok_bind, hw2]
    rw [this, Res.ok_bind, if_neg (by omega), load_ok g2, Res.ok_bind, store_ok _ g2, Res.ok_bind]
  · intro a t hat
    by_cases e : a = b
    · subst e; rw [upd_same] at hat; cases hat
    · rw [upd_other _ _ e] at hat
      rcases hh2 a t hat with e' | h'
      · exact e e'
      · rw [upd_other _ _ e] at h'; exact nh a t h'
  · rw [upd_other _ _ hab, hl2, hl1]
  · have K1 : Keep B h h1 := fun a t hat x x1 x2 => (I.tags.frame S r3).2.2.2 a t _ hat (by simp) x x1 x2
    have K2 : Keep B h1 h2 := kp2.sub (fun a t hat => (hl1 a t).2 hat)
    have K3 : Keep B h2 { h2 with mem := setWord h2.mem (b + n - 8) (word h2.mem (b + n - 8) / 2 * 2 + 1) } := Keep.store _ _ (fun a t hat => by
      have hat2 := (hl2 a t).2 ((hl1 a t).2 hat)
      have := S2.size_pos hat2
      have := S2.sep hat2 hb2 (by rintro rfl; rw [hb2] at hat2; cases hat2)
      omega)
    exact (K1.trans K2 (fun _ _ h => h)).trans K3 (fun _ _ h => h)

/-! ### Finding a block -/

theorem nextClass_spec (bl : Nat → Nat) : ∀ (k i : Nat), i + k = maxBlocks + 1 → i ≤ maxBlocks → bl maxBlocks ≠ 0 →
    ∃ j, i ≤ j ∧ j ≤ maxBlocks ∧ nextClass bl k i = .ok j ∧ ∀ m, i ≤ m → m < j → bl m = 0 := by
  intro k
  induction k with
  | zero => intro i h1 h2 _; omega
  | succ k ih =>
    intro i h1 h2 h3
    rw [nextClass]
    by_cases h : bl i = 0
    · have : i ≠ maxBlocks := by rintro rfl; exact h3 h
      obtain ⟨j, j1, j2, j3, j4⟩ := ih (i + 1) (by omega) (by omega) h3
      refine ⟨j, by omega, j2, by rw [if_pos h]; exact j3, fun m m1 m2 => ?_⟩
      by_cases e : m = i
      · rw [e]; exact h
      · exact j4 m (by omega) m2
    · exact ⟨i, by omega, h2, by rw [if_neg h], fun m m1 m2 => by omega⟩

theorem dropWhile_head {l : List Nat} {p : Nat → Bool} {x : Nat} {t : List Nat} (h : l.dropWhile p = x :: t) : p x = false := by
  have := List.head?_dropWhile_not p l
  rw [h] at this
  simpa using this

/-- Lines 403-414 of memory.c: the smallest free block that is large enough. -/
theorem findFree_ok {h : Heap} {B L} (I : Inv h B L) {n : Nat} (h0 : 0 < n) (h32 : n % 32 = 0) :
    ∃ N r, (∀ fuel, N ≤ fuel → findFree fuel h n = .ok r) ∧
      ((r = 0 ∧ ∀ b s, B b = some (s, .free) → s < n) ∨ (r ≠ 0 ∧ ∃ s, B r = some (s, .free) ∧ n ≤ s ∧ ∀ b t, B b = some (t, .free) → n ≤ t → s ≤ t)) := by
  have S := I.shape
  have Q := I.lists
  obtain ⟨i, hp, hi, _⟩ := policy_ok (s := n) h0 h32
  have hfree : ∀ j x, x ∈ L j → ∃ t, B x = some (t, .free) ∧ policy t = .ok j := fun j x hx => (Q.mem j x).1 hx
  have hin : ∀ b t, B b = some (t, .free) → ∃ j, policy t = .ok j ∧ b ∈ L j ∧ j < maxBlocks := by
    intro b t hb
    have := S.size_pos hb
    obtain ⟨j, hj, hj', _⟩ := policy_ok (s := t) (by omega) (by omega)
    exact ⟨j, hj, (Q.mem j b).2 ⟨t, hb, hj⟩, hj'⟩
  have walk : ∀ fuel, (L i).length + 1 ≤ fuel → fitWalk h n fuel (h.blocks i) = .ok (((L i).dropWhile (smaller (szB B) n)).headD 0) := by
    intro fuel hf
    rw [Q.head i hi, fitWalk_spec (sz := szB B) n (L i) 0 fuel (Q.chain i) (by omega) (fun x hx => by
      obtain ⟨t, ht, _⟩ := hfree i x hx
      have := S.size_pos ht
      exact ⟨by omega, by rw [szB_of ht]; exact I.tags.sizeOf S ht (by simp), S.given ht (by omega) (by omega) (by omega)⟩)]
  cases hd : (L i).dropWhile (smaller (szB B) n) with
  | cons r t =>
    have hr : r ∈ L i := by
      have : r ∈ (L i).dropWhile (smaller (szB B) n) := by rw [hd]; simp
      exact (List.dropWhile_sublist _).subset this
    obtain ⟨s, hs, hps⟩ := hfree i r hr
    have pr := S.size_pos hs
    have hns : n ≤ s := by
      have := dropWhile_head hd
      simp [smaller, szB_of hs] at this
      exact this
    refine ⟨(L i).length + 1, r, fun fuel hf => ?_, .inr ⟨by omega, s, hs, hns, fun b u hb hu => ?_⟩⟩
    · unfold findFree
      rw [hp, Res.ok_bind, walk fuel hf, Res.ok_bind, hd, List.headD_cons, if_neg (by omega)]
    · obtain ⟨j, hj, hbj, _⟩ := hin b u hb
      rcases Nat.lt_trichotomy j i with hlt | heq | hgt
      · have := policy_strict hj hp hlt; omega
      · subst heq
        have hsplit : L j = (L j).takeWhile (smaller (szB B) n) ++ (r :: t) := by
          rw [← hd]; exact List.takeWhile_append_dropWhile.symm
        rw [hsplit] at hbj
        rcases List.mem_append.1 hbj with hm | hm
        · exfalso
          have := List.all_takeWhile (p := smaller (szB B) n) (l := L j)
          rw [List.all_eq_true] at this
          have := this b hm
          simp [smaller, szB_of hb] at this
          omega
        · rcases List.mem_cons.1 hm with rfl | hm
          · rw [hs] at hb; cases hb; omega
          · have so := Q.sorted j
            rw [hsplit, List.pairwise_append] at so
            have := (List.pairwise_cons.1 so.2.1).1 b hm
            rw [szB_of hs, szB_of hb] at this
            exact this
      · have := policy_strict hps hj hgt; omega
  | nil =>
    have hall : ∀ x ∈ L i, szB B x < n := by
      intro x hx
      have h1 : L i = (L i).takeWhile (smaller (szB B) n) := by
        have := List.takeWhile_append_dropWhile (p := smaller (szB B) n) (l := L i)
        rw [hd, List.append_nil] at this
        exact this.symm
      have := List.all_takeWhile (p := smaller (szB B) n) (l := L i)
      rw [List.all_eq_true] at this
      rw [h1] at hx
      have := this x hx
      simpa [smaller] using this
    obtain ⟨j, j1, j2, j3, j4⟩ := nextClass_spec h.blocks (maxBlocks + 1 - (i + 1)) (i + 1) (by omega) (by omega) Q.top
    by_cases hj : j ≥ maxBlocks
    · refine ⟨(L i).length + 1, 0, fun fuel hf => ?_, .inl ⟨rfl, fun b s hb => ?_⟩⟩
      · unfold findFree
        rw [hp, Res.ok_bind, walk fuel hf, Res.ok_bind, hd, List.headD_nil, if_pos rfl, j3, Res.ok_bind, if_pos hj]
      · obtain ⟨m, hm, hbm, hm'⟩ := hin b s hb
        rcases Nat.lt_trichotomy m i with hlt | heq | hgt
        · have := policy_strict hm hp hlt; omega
        · subst heq
          have := hall b hbm
          rw [szB_of hb] at this
          exact this
        · exfalso
          have h1 := j4 m (by omega) (by omega)
          rw [Q.head m hm'] at h1
          have hne : L m ≠ [] := by intro e; rw [e] at hbm; cases hbm
          obtain ⟨u, hu, _⟩ := hfree m _ (headD_mem (d := 0) hne)
          have := S.size_pos hu
          omega
    · have hne : L j ≠ [] := by
        intro e
        have : h.blocks j ≠ 0 := by
          intro e'
          -- the search ends at a class that is not empty
          have : ∀ k i, nextClass h.blocks k i = .ok j → h.blocks j ≠ 0 := by
            intro k
            induction k with
            | zero => intro i h; cases h
            | succ k ih =>
              intro i h
              rw [nextClass] at h
              split at h
              · exact ih _ h
              · cases h; assumption
          exact this _ _ j3 e'
        rw [Q.head j (by omega), e] at this
        exact this rfl
      obtain ⟨s, hs, hps⟩ := hfree j _ (headD_mem (d := 0) hne)
      have pr := S.size_pos hs
      have hns : n < s := policy_strict hp hps (by omega)
      rw [← Q.head j (by omega)] at hs pr
      refine ⟨(L i).length + 1, h.blocks j, fun fuel hf => ?_, .inr ⟨by omega, s, hs, by omega, fun b u hb hu => ?_⟩⟩
      · unfold findFree
        rw [hp, Res.ok_bind, walk fuel hf, Res.ok_bind, hd, List.headD_nil, if_pos rfl, j3, Res.ok_bind, if_neg hj]
      · obtain ⟨m, hm, hbm, hm'⟩ := hin b u hb
        rcases Nat.lt_trichotomy m j with hlt | heq | hgt
        · exfalso
          rcases Nat.lt_trichotomy m i with hlt' | heq' | hgt'
          · have := policy_strict hm hp hlt'; omega
          · subst heq'
            have := hall b hbm
            rw [szB_of hb] at this
            omega
          · have h1 := j4 m (by omega) hlt
            rw [Q.head m hm'] at h1
            have hne : L m ≠ [] := by intro e; rw [e] at hbm; cases hbm
            obtain ⟨v, hv, _⟩ := hfree m _ (headD_mem (d := 0) hne)
            have := S.size_pos hv
            omega
        · subst heq
          have so := Q.sorted m
          rw [Q.head m hm'] at hs
          cases hl : L m with
          | nil => exact absurd hl hne
          | cons x t =>
            rw [hl] at hs so hbm
            rw [List.headD_cons] at hs
            rcases List.mem_cons.1 hbm with rfl | hm
            · rw [hs] at hb; cases hb; omega
            · have := (List.pairwise_cons.1 so).1 b hm
              rw [szB_of hs, szB_of hb] at this
              exact this
        · have := policy_strict hps hm hgt; omega

end Wizard.Pool

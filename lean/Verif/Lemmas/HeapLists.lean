import Verif.Lemmas.HeapInv
/-! Removing blocks from the lists of the memory pool and inserting them. -/
namespace Wizard.Pool
open Wizard

theorem getLastD_mem {l : List Nat} {d : Nat} (h : l ≠ []) : l.getLastD d ∈ l := by
  rcases List.eq_nil_or_concat l with rfl | ⟨t, z, rfl⟩
  · exact absurd rfl h
  · simp

theorem headD_mem {l : List Nat} {d : Nat} (h : l ≠ []) : l.headD d ∈ l := by
  cases l with
  | nil => exact absurd rfl h
  | cons a t => simp

theorem headD_append {l l' : List Nat} {d : Nat} (h : l ≠ []) : (l ++ l').headD d = l.headD d := by
  cases l with
  | nil => exact absurd rfl h
  | cons a t => simp

theorem szB_kind {B : Blocks} {a s : Nat} {k : Kind} (ha : B a = some (s, k)) (k' : Kind) (x : Nat) : szB (upd B a (some (s, k'))) x = szB B x := by
  by_cases e : x = a
  · subst e
    rw [szB_of (upd_same ..), szB_of ha]
  · unfold szB
    rw [upd_other _ _ e]

theorem pairwise_congr {R R' : Nat → Nat → Prop} {l : List Nat} (h : l.Pairwise R) (hr : ∀ x y, R x y → R' x y) : l.Pairwise R' := h.imp (fun {x y} => hr x y)

theorem Lists.remove {W W' bl bl' : Nat → Nat} {B L} (Q : Lists W bl B L) (nz : ∀ x t, B x = some (t, .free) → x ≠ 0) {a s i : Nat} {pre post : List Nat}
    (ha : B a = some (s, .free)) (hp : policy s = .ok i) (hl : L i = pre ++ a :: post)
    (hW : ∀ x t, B x = some (t, .free) → W' x = (if x = pre.getLastD 0 then post.headD 0 else W x) ∧ W' (x + 8) = (if x = post.headD 0 then pre.getLastD 0 else W (x + 8)))
    (hbl : ∀ j, bl' j = if pre.getLastD 0 = 0 ∧ j = i then post.headD 0 else bl j) :
    Lists W' bl' (upd B a (some (s, .held))) (fun j => if j = i then pre ++ post else L j) := by
  have hi := policy_lt hp
  have hnd := Q.nodup i
  rw [hl] at hnd
  have hnd' : (pre ++ post).Nodup := hnd.sublist (List.Sublist.append_left (List.sublist_cons_self a post) pre)
  have hna : a ∉ pre ++ post := by
    rw [List.nodup_append] at hnd
    intro hm
    rcases List.mem_append.1 hm with h | h
    · exact hnd.2.2 a h a (by simp) rfl
    · exact (List.nodup_cons.1 hnd.2.1).1 h
  have hmem : ∀ x, x ∈ pre ++ post ↔ x ∈ L i ∧ x ≠ a := by
    intro x
    rw [hl]
    constructor
    · intro h
      refine ⟨?_, fun e => hna (e ▸ h)⟩
      rcases List.mem_append.1 h with h | h
      · exact List.mem_append_left _ h
      · exact List.mem_append_right _ (List.mem_cons_of_mem _ h)
    · rintro ⟨h, e⟩
      rcases List.mem_append.1 h with h | h
      · exact List.mem_append_left _ h
      · rcases List.mem_cons.1 h with h | h
        · exact absurd h e
        · exact List.mem_append_right _ h
  have hfree : ∀ j x, x ∈ L j → ∃ t, B x = some (t, .free) := fun j x hx => by
    obtain ⟨t, ht, _⟩ := (Q.mem j x).1 hx
    exact ⟨t, ht⟩
  have hone : ∀ j x, x ∈ L j → x ∈ L i → j = i := by
    intro j x h1 h2
    obtain ⟨t, ht, hj⟩ := (Q.mem j x).1 h1
    obtain ⟨t', ht', hi'⟩ := (Q.mem i x).1 h2
    rw [ht] at ht'
    cases ht'
    rw [hj] at hi'
    cases hi'
    rfl
  have hP : ∀ x, x ∈ pre → x ∈ L i := fun x hx => by rw [hl]; exact List.mem_append_left _ hx
  have hN : ∀ x, x ∈ post → x ∈ L i := fun x hx => by rw [hl]; exact List.mem_append_right _ (List.mem_cons_of_mem _ hx)
  have hPz : pre ≠ [] → pre.getLastD 0 ≠ 0 := fun h => by
    obtain ⟨t, ht⟩ := hfree i _ (hP _ (getLastD_mem (d := 0) h))
    exact nz _ _ ht
  have hc := Q.chain i
  rw [hl, chainTo_append] at hc
  obtain ⟨c1, c2, c3, c4⟩ := hc
  refine ⟨fun j x => ?_, fun j => ?_, fun j => ?_, fun j hj => ?_, fun j => ?_, ?_⟩
  · by_cases e : x = a
    · subst e
      simp only [upd_same]
      constructor
      · intro h
        by_cases ej : j = i
        · rw [if_pos ej] at h; exact absurd h hna
        · rw [if_neg ej] at h
          have : x ∈ L i := by rw [hl]; simp
          exact absurd (hone j x h this) ej
      · rintro ⟨t, ht, _⟩; cases ht
    · simp only [upd_other _ _ e]
      by_cases ej : j = i
      · rw [if_pos ej, hmem, ← Q.mem j x, ej]
        exact ⟨fun h => h.1, fun h => ⟨h, e⟩⟩
      · rw [if_neg ej, ← Q.mem j x]
  · by_cases ej : j = i
    · simp only [if_pos ej]; exact hnd'
    · simp only [if_neg ej]; exact Q.nodup j
  · simp only [szB_kind ha]
    by_cases ej : j = i
    · simp only [if_pos ej]
      have := Q.sorted i
      rw [hl] at this
      exact this.sublist (List.Sublist.append_left (List.sublist_cons_self a post) pre)
    · simp only [if_neg ej]; exact Q.sorted j
  · rw [hbl]
    by_cases ej : j = i
    · simp only [if_pos ej]
      by_cases ep : pre = []
      · subst ep
        rw [if_pos ⟨rfl, ej⟩]
        simp
      · rw [if_neg (fun h => hPz ep h.1), Q.head j hj, ej, hl, headD_append ep, headD_append ep]
    · simp only [if_neg ej]
      rw [if_neg (fun h => ej h.2), Q.head j hj]
  · by_cases ej : j = i
    · simp only [if_pos ej]
      rw [chainTo_append]
      have hd1 : ∀ x, x ∈ pre → x ∉ post := fun x h1 h2 => by
        rw [List.nodup_append] at hnd'
        exact hnd'.2.2 x h1 x h2 rfl
      constructor
      · refine chainTo_last c1 (fun x hx => ?_) (fun h => ?_) (List.nodup_append.1 hnd').1
        · obtain ⟨t, ht⟩ := hfree i x (hP x hx)
          obtain ⟨w1, w2⟩ := hW x t ht
          refine ⟨fun hne => by rw [w1, if_neg hne], ?_⟩
          rw [w2, if_neg]
          intro he
          by_cases h0 : post = []
          · subst h0; exact nz _ _ ht (by simpa using he)
          · exact hd1 x hx (he ▸ headD_mem h0)
        · obtain ⟨t, ht⟩ := hfree i _ (hP _ (getLastD_mem (d := 0) h))
          rw [(hW _ t ht).1, if_pos rfl]
      · refine chainTo_first (p := a) c4 (fun x hx => ?_) (fun h => ?_) (List.nodup_append.1 hnd').2.1
        · obtain ⟨t, ht⟩ := hfree i x (hN x hx)
          obtain ⟨w1, w2⟩ := hW x t ht
          refine ⟨?_, fun hne => by rw [w2, if_neg hne]⟩
          rw [w1, if_neg]
          intro he
          by_cases h0 : pre = []
          · subst h0; exact nz _ _ ht (by simpa using he)
          · exact hd1 x (he ▸ getLastD_mem h0) hx
        · obtain ⟨t, ht⟩ := hfree i _ (hN _ (headD_mem (d := 0) h))
          rw [(hW _ t ht).2, if_pos rfl]
    · simp only [if_neg ej]
      refine chainTo_congr (Q.chain j) (fun x hx => ?_)
      obtain ⟨t, ht⟩ := hfree j x hx
      obtain ⟨w1, w2⟩ := hW x t ht
      rw [w1, w2, if_neg, if_neg]
      · exact ⟨rfl, rfl⟩
      · intro he
        by_cases h0 : post = []
        · subst h0; exact nz _ _ ht (by simpa using he)
        · exact ej (hone j x hx (hN x (he ▸ headD_mem h0)))
      · intro he
        by_cases h0 : pre = []
        · subst h0; exact nz _ _ ht (by simpa using he)
        · exact ej (hone j x hx (hP x (he ▸ getLastD_mem h0)))
  · rw [hbl, if_neg (fun h => by have := h.2; omega)]
    exact Q.top

theorem Lists.insert {W W' bl bl' : Nat → Nat} {B L} (Q : Lists W bl B L) (nz : ∀ x t, B x = some (t, .free) → x ≠ 0) {a s i : Nat} {pre post : List Nat}
    (ha : B a = some (s, .held)) (hp : policy s = .ok i) (hl : L i = pre ++ post)
    (hs1 : ∀ x ∈ pre, szB B x ≤ s) (hs2 : ∀ x ∈ post, s ≤ szB B x) (ha0 : a ≠ 0)
    (hWa : W' a = post.headD 0 ∧ W' (a + 8) = pre.getLastD 0)
    (hW : ∀ x t, B x = some (t, .free) → W' x = (if x = pre.getLastD 0 then a else W x) ∧ W' (x + 8) = (if x = post.headD 0 then a else W (x + 8)))
    (hbl : ∀ j, bl' j = if pre.getLastD 0 = 0 ∧ j = i then a else bl j) :
    Lists W' bl' (upd B a (some (s, .free))) (fun j => if j = i then pre ++ a :: post else L j) := by
  have hi := policy_lt hp
  have hnd := Q.nodup i
  rw [hl] at hnd
  have hfree : ∀ j x, x ∈ L j → ∃ t, B x = some (t, .free) := fun j x hx => by
    obtain ⟨t, ht, _⟩ := (Q.mem j x).1 hx
    exact ⟨t, ht⟩
  have hna : ∀ j, a ∉ L j := by
    intro j hm
    obtain ⟨t, ht⟩ := hfree j a hm
    rw [ha] at ht
    cases ht
  have hone : ∀ j x, x ∈ L j → x ∈ L i → j = i := by
    intro j x h1 h2
    obtain ⟨t, ht, hj⟩ := (Q.mem j x).1 h1
    obtain ⟨t', ht', hi'⟩ := (Q.mem i x).1 h2
    rw [ht] at ht'
    cases ht'
    rw [hj] at hi'
    cases hi'
    rfl
  have hP : ∀ x, x ∈ pre → x ∈ L i := fun x hx => by rw [hl]; exact List.mem_append_left _ hx
  have hN : ∀ x, x ∈ post → x ∈ L i := fun x hx => by rw [hl]; exact List.mem_append_right _ hx
  have hPz : pre ≠ [] → pre.getLastD 0 ≠ 0 := fun h => by
    obtain ⟨t, ht⟩ := hfree i _ (hP _ (getLastD_mem (d := 0) h))
    exact nz _ _ ht
  have hd1 : ∀ x, x ∈ pre → x ∉ post := fun x h1 h2 => by
    rw [List.nodup_append] at hnd
    exact hnd.2.2 x h1 x h2 rfl
  have hc := Q.chain i
  rw [hl, chainTo_append] at hc
  obtain ⟨c1, c2⟩ := hc
  refine ⟨fun j x => ?_, fun j => ?_, fun j => ?_, fun j hj => ?_, fun j => ?_, ?_⟩
  · by_cases e : x = a
    · subst e
      simp only [upd_same]
      constructor
      · intro h
        by_cases ej : j = i
        · exact ⟨s, rfl, by rw [ej]; exact hp⟩
        · rw [if_neg ej] at h
          exact absurd h (hna j)
      · rintro ⟨t, ht, hj⟩
        cases ht
        rw [hp] at hj
        cases hj
        rw [if_pos rfl]
        simp
    · simp only [upd_other _ _ e]
      by_cases ej : j = i
      · rw [if_pos ej, ← Q.mem j x, ej, hl]
        simp [e]
      · rw [if_neg ej, ← Q.mem j x]
  · by_cases ej : j = i
    · simp only [if_pos ej]
      have h := hna i
      rw [hl, List.mem_append] at h
      rw [List.nodup_append] at hnd ⊢
      refine ⟨hnd.1, List.nodup_cons.2 ⟨fun hm => h (.inr hm), hnd.2.1⟩, fun x hx y hy => ?_⟩
      rcases List.mem_cons.1 hy with rfl | hy
      · rintro rfl; exact h (.inl hx)
      · exact hnd.2.2 x hx y hy
    · simp only [if_neg ej]; exact Q.nodup j
  · simp only [szB_kind ha]
    by_cases ej : j = i
    · simp only [if_pos ej]
      have := Q.sorted i
      rw [hl] at this
      rw [List.pairwise_append] at this ⊢
      refine ⟨this.1, List.pairwise_cons.2 ⟨fun y hy => by rw [szB_of ha]; exact hs2 y hy, this.2.1⟩, fun x hx y hy => ?_⟩
      rcases List.mem_cons.1 hy with rfl | hy
      · rw [szB_of ha]; exact hs1 x hx
      · exact this.2.2 x hx y hy
    · simp only [if_neg ej]; exact Q.sorted j
  · rw [hbl]
    by_cases ej : j = i
    · simp only [if_pos ej]
      by_cases ep : pre = []
      · subst ep
        rw [if_pos ⟨rfl, ej⟩]
        simp
      · rw [if_neg (fun h => hPz ep h.1), Q.head j hj, ej, hl, headD_append ep, headD_append ep]
    · simp only [if_neg ej]
      rw [if_neg (fun h => ej h.2), Q.head j hj]
  · by_cases ej : j = i
    · simp only [if_pos ej]
      rw [chainTo_append]
      refine ⟨?_, hWa.2, hWa.1, ?_⟩
      · refine chainTo_last c1 (fun x hx => ?_) (fun h => ?_) (List.nodup_append.1 hnd).1
        · obtain ⟨t, ht⟩ := hfree i x (hP x hx)
          obtain ⟨w1, w2⟩ := hW x t ht
          refine ⟨fun hne => by rw [w1, if_neg hne], ?_⟩
          rw [w2, if_neg]
          intro he
          by_cases h0 : post = []
          · subst h0; exact nz _ _ ht (by simpa using he)
          · exact hd1 x hx (he ▸ headD_mem h0)
        · obtain ⟨t, ht⟩ := hfree i _ (hP _ (getLastD_mem (d := 0) h))
          rw [(hW _ t ht).1, if_pos rfl]
          rfl
      · refine chainTo_first c2 (fun x hx => ?_) (fun h => ?_) (List.nodup_append.1 hnd).2.1
        · obtain ⟨t, ht⟩ := hfree i x (hN x hx)
          obtain ⟨w1, w2⟩ := hW x t ht
          refine ⟨?_, fun hne => by rw [w2, if_neg hne]⟩
          rw [w1, if_neg]
          intro he
          by_cases h0 : pre = []
          · subst h0; exact nz _ _ ht (by simpa using he)
          · exact hd1 x (he ▸ getLastD_mem h0) hx
        · obtain ⟨t, ht⟩ := hfree i _ (hN _ (headD_mem (d := 0) h))
          rw [(hW _ t ht).2, if_pos rfl]
    · simp only [if_neg ej]
      refine chainTo_congr (Q.chain j) (fun x hx => ?_)
      obtain ⟨t, ht⟩ := hfree j x hx
      obtain ⟨w1, w2⟩ := hW x t ht
      rw [w1, w2, if_neg, if_neg]
      · exact ⟨rfl, rfl⟩
      · intro he
        by_cases h0 : post = []
        · subst h0; exact nz _ _ ht (by simpa using he)
        · exact ej (hone j x hx (hN x (he ▸ headD_mem h0)))
      · intro he
        by_cases h0 : pre = []
        · subst h0; exact nz _ _ ht (by simpa using he)
        · exact ej (hone j x hx (hP x (he ▸ getLastD_mem h0)))
  · rw [hbl, if_neg (fun h => by have := h.2; omega)]
    exact Q.top

end Wizard.Pool

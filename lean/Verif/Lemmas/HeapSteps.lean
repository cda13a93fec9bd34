import Verif.Lemmas.HeapLists
/-! The steps of the memory pool: taking blocks off their lists and putting them back. -/
namespace Wizard.Pool
open Wizard

theorem linkNext_ok {h : Heap} {i p b : Nat} (hp : p ≠ 0 → given h p = true) (hb : b < sizeMax) :
    ∃ h', linkNext h i p b = .ok h' ∧ Same h h' ∧ (∀ j, h'.blocks j = if p = 0 ∧ j = i then b else h.blocks j) ∧
      (∀ x, x % 8 = 0 → x ≠ 0 → word h'.mem x = if x = p then b else word h.mem x) ∧ (∀ x, (p ≠ 0 → x < p ∨ p + 8 ≤ x) → h'.mem x = h.mem x) := by
  unfold linkNext
  by_cases h0 : p = 0
  · rw [if_neg (by omega)]
    refine ⟨_, rfl, ⟨rfl, rfl, rfl⟩, fun j => ?_, fun x _ hx => ?_, fun x _ => rfl⟩
    · simp only [h0, true_and]
    · rw [if_neg (by omega)]
  · rw [if_pos h0, store_ok _ (hp h0)]
    refine ⟨_, rfl, ⟨rfl, rfl, rfl⟩, fun j => ?_, fun x ha _ => ?_, fun x hx => ?_⟩
    · rw [if_neg (fun h => h0 h.1)]
    · exact word_set _ hb ((given_iff _ _).1 (hp h0)).1 ha
    · exact setWord_out _ _ _ _ (hx h0)

theorem linkPrevious_ok {h : Heap} {n b : Nat} (hp : n ≠ 0 → given h (n + 8) = true) (hb : b < sizeMax) :
    ∃ h', linkPrevious h n b = .ok h' ∧ Same h h' ∧ h'.blocks = h.blocks ∧
      (∀ x, x % 8 = 0 → x ≠ 8 → word h'.mem x = if x = n + 8 then b else word h.mem x) ∧ (∀ x, (n ≠ 0 → x < n + 8 ∨ n + 16 ≤ x) → h'.mem x = h.mem x) := by
  unfold linkPrevious
  by_cases h0 : n = 0
  · rw [if_neg (by omega)]
    refine ⟨_, rfl, ⟨rfl, rfl, rfl⟩, rfl, fun x _ hx => ?_, fun x _ => rfl⟩
    rw [if_neg (by omega)]
  · rw [if_pos h0, store_ok _ (hp h0)]
    refine ⟨_, rfl, ⟨rfl, rfl, rfl⟩, rfl, fun x ha _ => ?_, fun x hx => ?_⟩
    · exact word_set _ hb ((given_iff _ _).1 (hp h0)).1 ha
    · exact setWord_out _ _ _ _ (hx h0)

theorem Shape.noclash {M B} (S : Shape M B) {x y t u j k} (hx : B x = some (t, j)) (hy : B y = some (u, k)) : x ≠ y + 8 := by
  have := S.size_pos hx
  have := S.size_pos hy
  by_cases e : x = y
  · omega
  · rcases S.sep hx hy e with h | h <;> omega

/-- The tags do not depend on the links. -/
theorem Tags.frame {h h' : Heap} {B} (S : Shape h.mapped B) (T : Tags (word h.mem) h.mapped B) (F : Frame B h h') :
    Tags (word h'.mem) h.mapped B ∧ (∀ a s k, B a = some (s, k) → word h'.mem (a - 8) = word h.mem (a - 8)) ∧
      (∀ a s k, B a = some (s, k) → word h'.mem (a + s - 16) = word h.mem (a + s - 16)) ∧ (∀ a s k, B a = some (s, k) → k ≠ .free → ∀ x, a ≤ x → x + 8 < a + s → h'.mem x = h.mem x) := by
  have k1 : ∀ a s k, B a = some (s, k) → word h'.mem (a - 8) = word h.mem (a - 8) := by
    intro a s k ha
    have := S.size_pos ha
    refine word_congr (fun x h1 h2 => F x (fun f t hf => ?_))
    have := S.size_pos hf
    by_cases e : a = f
    · subst e; omega
    · rcases S.sep ha hf e with h | h <;> omega
  have k3 : ∀ a s k, B a = some (s, k) → word h'.mem (a + s - 16) = word h.mem (a + s - 16) := by
    intro a s k ha
    have := S.size_pos ha
    refine word_congr (fun x h1 h2 => F x (fun f t hf => ?_))
    have := S.size_pos hf
    by_cases e : a = f
    · subst e; rw [ha] at hf; cases hf; omega
    · rcases S.sep ha hf e with h | h <;> omega
  refine ⟨T.congr k1 (fun x hx => ?_) (fun a s ha => k3 a s _ ha), k1, k3, fun a s k ha hk x h1 h2 => F x (fun f t hf => ?_)⟩
  · have := S.endAl hx
    constructor <;>
    · refine word_congr (fun y h1 h2 => F y (fun f t hf => ?_))
      have := S.size_pos hf
      rcases S.endSep hf hx with h | h <;> omega
  · have := S.size_pos hf
    by_cases e : a = f
    · subst e; rw [ha] at hf; cases hf; exact absurd rfl hk
    · rcases S.sep ha hf e with h | h <;> omega

/-- Open ends and tags when only kinds of blocks that are not allocated change. -/
theorem Tags.kind {W M B} (T : Tags W M B) {a s k} (ha : B a = some (s, k)) (hk : k ≠ .live) {k' : Kind} (hk' : k' ≠ .live)
    (h1 : k' ≠ .held → W (a - 8) / 2 * 2 = s) (h2 : k' = .free → W (a + s - 16) = s) : Tags W M (upd B a (some (s, k'))) := by
  have key : ∀ x, OpenEnd (upd B a (some (s, k'))) x ↔ OpenEnd B x := by
    intro x
    constructor
    · rintro ⟨p, t, j, hp, hj, hx⟩
      by_cases e : p = a
      · subst e; rw [upd_same] at hp; cases hp; exact ⟨p, s, k, ha, hk, hx⟩
      · rw [upd_other _ _ e] at hp; exact ⟨p, t, j, hp, hj, hx⟩
    · rintro ⟨p, t, j, hp, hj, hx⟩
      by_cases e : p = a
      · subst e; rw [ha] at hp; cases hp; exact ⟨p, s, k', upd_same .., hk', hx⟩
      · exact ⟨p, t, j, by rw [upd_other _ _ e]; exact hp, hj, hx⟩
  refine ⟨fun b t j hb hj => ?_, fun b t j hb => ?_, fun x hx => ?_, fun b t hb => ?_⟩
  · by_cases e : b = a
    · subst e; rw [upd_same] at hb; cases hb; exact h1 hj
    · rw [upd_other _ _ e] at hb; exact T.size _ _ _ hb hj
  · rw [key]
    by_cases e : b = a
    · subst e; exact T.bit _ _ _ ha
    · rw [upd_other _ _ e] at hb; exact T.bit _ _ _ hb
  · rw [key]; exact T.mark x hx
  · by_cases e : b = a
    · subst e; rw [upd_same] at hb; cases hb; exact h2 rfl
    · rw [upd_other _ _ e] at hb; exact T.foot _ _ hb

/-- `RemoveFreeBlock`. -/
theorem detach {h : Heap} {B L} (I : Inv h B L) {a s i : Nat} (ha : B a = some (s, .free)) (hp : policy s = .ok i) :
    ∃ h' L', removeFree h a i = .ok h' ∧ Same h h' ∧ Frame B h h' ∧ Inv h' (upd B a (some (s, .held))) L' := by
  have S := I.shape
  have Q := I.lists
  have pa := S.size_pos ha
  have hm : a ∈ L i := (Q.mem i a).2 ⟨s, ha, hp⟩
  obtain ⟨pre, post, hl⟩ := List.append_of_mem hm
  have hc := Q.chain i
  rw [hl, chainTo_append] at hc
  obtain ⟨c1, c2, c3, c4⟩ := hc
  have hfree : ∀ x, x ∈ pre ∨ x ∈ post → ∃ t, B x = some (t, .free) := fun x hx => by
    have : x ∈ L i := by
      rw [hl]
      rcases hx with hx | hx
      · exact List.mem_append_left _ hx
      · exact List.mem_append_right _ (List.mem_cons_of_mem _ hx)
    obtain ⟨t, ht, _⟩ := (Q.mem i x).1 this
    exact ⟨t, ht⟩
  have hPf : pre.getLastD 0 ≠ 0 → ∃ t, B (pre.getLastD 0) = some (t, .free) := fun h0 => by
    apply hfree
    by_cases e : pre = []
    · subst e; exact absurd rfl h0
    · exact .inl (getLastD_mem e)
  have hNf : post.headD 0 ≠ 0 → ∃ t, B (post.headD 0) = some (t, .free) := fun h0 => by
    apply hfree
    by_cases e : post = []
    · subst e; exact absurd rfl h0
    · exact .inr (headD_mem e)
  have hPl : pre.getLastD 0 < sizeMax := by
    by_cases h0 : pre.getLastD 0 = 0
    · rw [h0, sizeMax_eq]; omega
    · obtain ⟨t, ht⟩ := hPf h0
      have := S.size_pos ht
      omega
  have hNl : post.headD 0 < sizeMax := by
    by_cases h0 : post.headD 0 = 0
    · rw [h0, sizeMax_eq]; omega
    · obtain ⟨t, ht⟩ := hNf h0
      have := S.size_pos ht
      omega
  unfold removeFree
  rw [load_ok (S.given ha (by omega) (by omega) (by omega)), Res.ok_bind, load_ok (S.given ha (by omega) (by omega) (by omega)), Res.ok_bind, c2, c3]
  obtain ⟨h1, e1, s1, b1, w1, f1⟩ := linkNext_ok (h := h) (i := i) (p := pre.getLastD 0) (b := post.headD 0) (fun h0 => by
    obtain ⟨t, ht⟩ := hPf h0
    have := S.size_pos ht
    exact S.given ht (by omega) (by omega) (by omega)) hNl
  obtain ⟨h2, e2, s2, b2, w2, f2⟩ := linkPrevious_ok (h := h1) (n := post.headD 0) (b := pre.getLastD 0) (fun h0 => by
    obtain ⟨t, ht⟩ := hNf h0
    have := S.size_pos ht
    have S1 : Shape h1.mapped B := s1.1 ▸ S
    exact S1.given ht (by omega) (by omega) (by omega)) hPl
  rw [e1, Res.ok_bind, e2]
  have F : Frame B h h2 := by
    intro x hx
    rw [f2 x (fun h0 => by obtain ⟨t, ht⟩ := hNf h0; have := hx _ _ ht; omega), f1 x (fun h0 => by obtain ⟨t, ht⟩ := hPf h0; have := hx _ _ ht; omega)]
  have ss := s1.trans s2
  obtain ⟨T', _⟩ := I.tags.frame S F
  refine ⟨h2, _, rfl, ss, F, ?_, ?_, Q.remove (fun x t hx => by have := S.size_pos hx; omega) ha hp hl (fun x t hx => ?_) (fun j => ?_)⟩
  · rw [ss.1]
    exact S.kind ha .held (fun h => by cases h)
  · rw [ss.1]
    exact T'.kind ha (by simp) (by simp) (by simp) (by simp)
  · have px := S.size_pos hx
    rw [w2 x (by omega) (by omega), w2 (x + 8) (by omega) (by omega), if_neg, w1 x (by omega) (by omega), w1 (x + 8) (by omega) (by omega)]
    · refine ⟨rfl, ?_⟩
      by_cases e : x = post.headD 0
      · rw [if_pos (by omega), if_pos e]
      · rw [if_neg (by omega), if_neg e, if_neg]
        intro e'
        by_cases h0 : pre.getLastD 0 = 0
        · omega
        · obtain ⟨u, hu⟩ := hPf h0
          exact S.noclash hu hx e'.symm
    · intro e
      by_cases h0 : post.headD 0 = 0
      · omega
      · obtain ⟨u, hu⟩ := hNf h0
        exact S.noclash hx hu e
  · rw [b2, b1]

/-- `InsertFreeBlock`, and what it does to the lists. -/
theorem attach_lists {h : Heap} {B L} (S : Shape h.mapped B) (Q : Lists (word h.mem) h.blocks B L) (hq : ∀ x t, B x = some (t, .free) → sizeOf h x = .ok t)
    {a s i : Nat} (ha : B a = some (s, .held)) (hp : policy s = .ok i) (hs : word h.mem (a - 8) / 2 * 2 = s) :
    ∃ N h' L', (∀ fuel, N ≤ fuel → insertFree fuel h a i = .ok h') ∧ Same h h' ∧ Frame (upd B a (some (s, .free))) h h' ∧ Lists (word h'.mem) h'.blocks (upd B a (some (s, .free))) L' := by
  have pa := S.size_pos ha
  have hi := policy_lt hp
  have hfree : ∀ x, x ∈ L i → ∃ t, B x = some (t, .free) := fun x hx => by
    obtain ⟨t, ht, _⟩ := (Q.mem i x).1 hx
    exact ⟨t, ht⟩
  have hl : L i = (L i).takeWhile (smaller (szB B) s) ++ (L i).dropWhile (smaller (szB B) s) := List.takeWhile_append_dropWhile.symm
  have hs1 : ∀ x ∈ (L i).takeWhile (smaller (szB B) s), szB B x ≤ s := by
    have := List.all_takeWhile (p := smaller (szB B) s) (l := L i)
    rw [List.all_eq_true] at this
    intro x hx
    have := this x hx
    unfold smaller at this
    simp at this
    omega
  have hs2 : ∀ x ∈ (L i).dropWhile (smaller (szB B) s), s ≤ szB B x := by
    have hso := Q.sorted i
    rw [hl, List.pairwise_append] at hso
    have hso := hso.2.1
    have hd := List.head?_dropWhile_not (smaller (szB B) s) (L i)
    generalize (L i).dropWhile (smaller (szB B) s) = post at hso hd
    cases post with
    | nil => intro x hx; simp at hx
    | cons y t =>
      simp [smaller] at hd
      intro x hx
      rcases List.mem_cons.1 hx with rfl | hx
      · exact hd
      · have := (List.pairwise_cons.1 hso).1 x hx
        omega
  generalize hpre : (L i).takeWhile (smaller (szB B) s) = pre at hl hs1
  generalize hpost : (L i).dropWhile (smaller (szB B) s) = post at hl hs2
  have hPf : pre.getLastD 0 ≠ 0 → ∃ t, B (pre.getLastD 0) = some (t, .free) := fun h0 => by
    apply hfree
    by_cases e : pre = []
    · subst e; exact absurd rfl h0
    · rw [hl]; exact List.mem_append_left _ (getLastD_mem e)
  have hNf : post.headD 0 ≠ 0 → ∃ t, B (post.headD 0) = some (t, .free) := fun h0 => by
    apply hfree
    by_cases e : post = []
    · subst e; exact absurd rfl h0
    · rw [hl]; exact List.mem_append_right _ (headD_mem e)
  have hPl : pre.getLastD 0 < sizeMax := by
    by_cases h0 : pre.getLastD 0 = 0
    · rw [h0, sizeMax_eq]; omega
    · obtain ⟨t, ht⟩ := hPf h0
      have := S.size_pos ht
      omega
  have hNl : post.headD 0 < sizeMax := by
    by_cases h0 : post.headD 0 = 0
    · rw [h0, sizeMax_eq]; omega
    · obtain ⟨t, ht⟩ := hNf h0
      have := S.size_pos ht
      omega
  have g1 := S.given ha (x := a) (by omega) (by omega) (by omega)
  have g2 := S.given ha (x := a + 8) (by omega) (by omega) (by omega)
  let h1 : Heap := { h with mem := setWord h.mem (a + 8) (pre.getLastD 0) }
  let h2 : Heap := { h1 with mem := setWord h1.mem a (post.headD 0) }
  have e1 : store h (a + 8) (pre.getLastD 0) = .ok h1 := store_ok _ g2
  have e2 : store h1 a (post.headD 0) = .ok h2 := store_ok (h := h1) _ g1
  obtain ⟨h3, e3, s3, b3, w3, f3⟩ := linkNext_ok (h := h2) (i := i) (p := pre.getLastD 0) (b := a) (fun h0 => by
    obtain ⟨t, ht⟩ := hPf h0
    have := S.size_pos ht
    exact S.given (h := h2) ht (by omega) (by omega) (by omega)) (by omega)
  obtain ⟨h4, e4, s4, b4, w4, f4⟩ := linkPrevious_ok (h := h3) (n := post.headD 0) (b := a) (fun h0 => by
    obtain ⟨t, ht⟩ := hNf h0
    have := S.size_pos ht
    have S1 : Shape h3.mapped B := s3.1 ▸ S
    exact S1.given ht (by omega) (by omega) (by omega)) (by omega)
  have ss : Same h h4 := (show Same h h2 from ⟨rfl, rfl, rfl⟩).trans (s3.trans s4)
  have haf : upd B a (some (s, .free)) a = some (s, .free) := upd_same ..
  have hff : ∀ x t, B x = some (t, .free) → upd B a (some (s, .free)) x = some (t, .free) := by
    intro x t hx
    by_cases e : x = a
    · subst e; rw [ha] at hx; cases hx
    · rw [upd_other _ _ e]; exact hx
  have hne : ∀ x t, B x = some (t, .free) → x ≠ a := by
    rintro x t hx rfl; rw [ha] at hx; cases hx
  have F : Frame (upd B a (some (s, .free))) h h4 := by
    intro x hx
    have hxa := hx _ _ haf
    rw [f4 x (fun h0 => by obtain ⟨t, ht⟩ := hNf h0; have := hx _ _ (hff _ _ ht); omega), f3 x (fun h0 => by obtain ⟨t, ht⟩ := hPf h0; have := hx _ _ (hff _ _ ht); omega)]
    show setWord (setWord h.mem (a + 8) _) a _ x = _
    rw [setWord_out _ _ _ _ (by omega), setWord_out _ _ _ _ (by omega)]
  have w2 : ∀ x, x % 8 = 0 → word h2.mem x = if x = a then post.headD 0 else if x = a + 8 then pre.getLastD 0 else word h.mem x := by
    intro x hx
    show word (setWord (setWord h.mem (a + 8) _) a _) x = _
    rw [word_set _ hNl (by omega) hx, word_set _ hPl (by omega) hx]
  refine ⟨(L i).length + 1, h4, _, fun fuel hfu => ?_, ss, F, Q.insert (fun x t hx => by have := S.size_pos hx; omega) ha hp hl hs1 hs2 (by omega) ?_ (fun x t hx => ?_) (fun j => ?_)⟩
  · unfold insertFree
    have hsz : sizeOf h a = .ok s := by
      unfold sizeOf
      rw [load_ok (S.given ha (by omega) (by omega) (by omega)), Res.ok_bind, hs]
    rw [hsz, Res.ok_bind, Q.head i hi, insertWalk_spec (sz := szB B) s (L i) 0 fuel (Q.chain i) (by omega) (fun x hx => by
      obtain ⟨t, ht⟩ := hfree x hx
      have := S.size_pos ht
      exact ⟨by omega, by rw [szB_of ht]; exact hq _ _ ht, S.given ht (by omega) (by omega) (by omega)⟩), Res.ok_bind, hpre, hpost]
    simp only []
    rw [e1, Res.ok_bind, e2, Res.ok_bind, e3, Res.ok_bind, e4]
  · have hd1 : a ≠ post.headD 0 := by
      intro e
      obtain ⟨t, ht⟩ := hNf (by omega)
      exact hne _ _ ht e.symm
    have hd2 : a ≠ pre.getLastD 0 := by
      intro e
      obtain ⟨t, ht⟩ := hPf (by omega)
      exact hne _ _ ht e.symm
    constructor
    · rw [w4 a (by omega) (by omega), if_neg, w3 a (by omega) (by omega), if_neg hd2, w2 a (by omega), if_pos rfl]
      intro e
      by_cases h0 : post.headD 0 = 0
      · omega
      · obtain ⟨t, ht⟩ := hNf h0
        exact S.noclash ha ht e
    · rw [w4 (a + 8) (by omega) (by omega), if_neg (by omega), w3 (a + 8) (by omega) (by omega), if_neg, w2 (a + 8) (by omega), if_neg (by omega), if_pos rfl]
      intro e
      by_cases h0 : pre.getLastD 0 = 0
      · omega
      · obtain ⟨t, ht⟩ := hPf h0
        exact S.noclash ht ha e.symm
  · have px := S.size_pos hx
    have hxa := hne x t hx
    rw [w4 x (by omega) (by omega), w4 (x + 8) (by omega) (by omega), if_neg, w3 x (by omega) (by omega), w3 (x + 8) (by omega) (by omega), w2 x (by omega), w2 (x + 8) (by omega), if_neg (show ¬ x = a from hxa),
      if_neg (show ¬ x = a + 8 from S.noclash hx ha), if_neg (show ¬ x + 8 = a from fun e => S.noclash ha hx e.symm), if_neg (show ¬ x + 8 = a + 8 by omega)]
    · refine ⟨rfl, ?_⟩
      by_cases e : x = post.headD 0
      · rw [if_pos (by omega), if_pos e]
      · rw [if_neg (by omega), if_neg e, if_neg]
        intro e'
        by_cases h0 : pre.getLastD 0 = 0
        · omega
        · obtain ⟨u, hu⟩ := hPf h0
          exact S.noclash hu hx e'.symm
    · intro e
      by_cases h0 : post.headD 0 = 0
      · omega
      · obtain ⟨u, hu⟩ := hNf h0
        exact S.noclash hx hu e
  · rw [b4, b3]

/-- `InsertFreeBlock`. -/
theorem attach {h : Heap} {B L} (I : Inv h B L) {a s i : Nat} (ha : B a = some (s, .held)) (hp : policy s = .ok i)
    (hs : word h.mem (a - 8) / 2 * 2 = s) (hf : word h.mem (a + s - 16) = s)
    (hn : (∀ t, B (a + s) ≠ some (t, .free)) ∧ ∀ p t, B p = some (t, .free) → p + t ≠ a) :
    ∃ N h' L', (∀ fuel, N ≤ fuel → insertFree fuel h a i = .ok h') ∧ Same h h' ∧ Frame (upd B a (some (s, .free))) h h' ∧ Inv h' (upd B a (some (s, .free))) L' := by
  have S := I.shape
  obtain ⟨N, h', L', h1, h2, h3, h4⟩ := attach_lists S I.lists (fun x t hx => I.tags.sizeOf S hx (by simp)) ha hp hs
  have S' : Shape h.mapped (upd B a (some (s, .free))) := S.kind ha .free (fun _ => hn)
  have T1 : Tags (word h.mem) h.mapped (upd B a (some (s, .free))) := I.tags.kind ha (by simp) (by simp) (fun _ => hs) (fun _ => hf)
  obtain ⟨T', _⟩ := T1.frame S' h3
  exact ⟨N, h', L', h1, h2, h3, h2.1 ▸ S', h2.1 ▸ T', h4⟩

/-! ### Other steps -/

theorem pairwise_mem {R R' : Nat → Nat → Prop} : ∀ {l : List Nat}, l.Pairwise R → (∀ x ∈ l, ∀ y ∈ l, R x y → R' x y) → l.Pairwise R' := by
  intro l
  induction l with
  | nil => intro _ _; exact List.Pairwise.nil
  | cons a t ih =>
    intro h hr
    rw [List.pairwise_cons] at h ⊢
    exact ⟨fun y hy => hr a (by simp) y (by simp [hy]) (h.1 y hy), ih h.2 (fun x hx y hy => hr x (by simp [hx]) y (by simp [hy]))⟩

/-- The lists depend on the free blocks only. -/
theorem Lists.recast {W bl B B' L} (Q : Lists W bl B L) (h : ∀ x t, B' x = some (t, .free) ↔ B x = some (t, .free)) : Lists W bl B' L := by
  refine ⟨fun i a => ?_, Q.nodup, fun i => ?_, Q.head, Q.chain, Q.top⟩
  · rw [Q.mem]
    constructor <;> rintro ⟨s, h1, h2⟩
    · exact ⟨s, (h _ _).2 h1, h2⟩
    · exact ⟨s, (h _ _).1 h1, h2⟩
  · refine pairwise_mem (Q.sorted i) (fun x hx y hy hr => ?_)
    obtain ⟨s, hs, _⟩ := (Q.mem i x).1 hx
    obtain ⟨t, ht, _⟩ := (Q.mem i y).1 hy
    rw [szB_of hs, szB_of ht] at hr
    rw [szB_of ((h _ _).2 hs), szB_of ((h _ _).2 ht)]
    exact hr

/-- The size in the header of a block that is neither allocated nor free changes. -/
theorem Inv.header {h : Heap} {B L} (I : Inv h B L) {b s : Nat} (hb : B b = some (s, .held)) {w : Nat} (hw : w < sizeMax) (h2 : w % 2 = word h.mem (b - 8) % 2) :
    Inv { h with mem := setWord h.mem (b - 8) w } B L := by
  have S := I.shape
  have T := I.tags
  have pb := S.size_pos hb
  have key : ∀ y, y % 8 = 0 → y ≠ b - 8 → word (setWord h.mem (b - 8) w) y = word h.mem y := fun y hy hn => by
    rw [word_set _ hw (by omega) hy, if_neg hn]
  refine ⟨S, ⟨fun a t k ha hk => ?_, fun a t k ha => ?_, fun x hx => ?_, fun a t ha => ?_⟩, I.lists.congr (fun a t ha => ?_)⟩
  · have pa := S.size_pos ha
    simp only []
    rw [key _ (by omega)]
    · exact T.size _ _ _ ha hk
    · intro e
      have : a = b := by omega
      subst this
      rw [hb] at ha
      cases ha
      exact hk rfl
  · have pa := S.size_pos ha
    simp only []
    by_cases e : a = b
    · subst e
      rw [word_same _ _ _ hw, h2]
      exact T.bit _ _ _ ha
    · rw [key _ (by omega) (by omega)]
      exact T.bit _ _ _ ha
  · have := S.endAl hx
    have := S.endSep hb hx
    simp only []
    rw [key _ (by omega) (by omega), key _ (by omega) (by omega)]
    exact T.mark x hx
  · have pa := S.size_pos ha
    simp only []
    rw [key _ (by omega)]
    · exact T.foot _ _ ha
    · by_cases e : a = b
      · subst e; rw [hb] at ha; cases ha
      · rcases S.sep ha hb e with h | h <;> omega
  · have pa := S.size_pos ha
    simp only []
    by_cases e : a = b
    · subst e; rw [hb] at ha; cases ha
    · rcases S.sep ha hb e with h | h <;> exact ⟨key _ (by omega) (by omega), key _ (by omega) (by omega)⟩

/-- The bit after a block changes, and so does what the block is. -/
theorem Inv.setBit {h : Heap} {B L} (I : Inv h B L) {b s : Nat} {k k' : Kind} (hb : B b = some (s, k)) (hk : k ≠ .free) (hk' : k' ≠ .free)
    (hs : k' = .live → word h.mem (b - 8) / 2 * 2 = s) {w : Nat} (hw : w < sizeMax) (h1 : w / 2 * 2 = word h.mem (b + s - 8) / 2 * 2) (h2 : w % 2 = 0 ↔ k' ≠ .live) :
    Inv { h with mem := setWord h.mem (b + s - 8) w } (upd B b (some (s, k'))) L := by
  have S := I.shape
  have T := I.tags
  have pb := S.size_pos hb
  have S' : Shape h.mapped (upd B b (some (s, k'))) := S.kind hb k' (fun e => absurd e hk')
  have hb' : upd B b (some (s, k')) b = some (s, k') := upd_same ..
  have key : ∀ y, y % 8 = 0 → y ≠ b + s - 8 → word (setWord h.mem (b + s - 8) w) y = word h.mem y := fun y hy hn => by
    rw [word_set _ hw (by omega) hy, if_neg hn]
  have op : ∀ x, x ≠ b + s → (OpenEnd (upd B b (some (s, k'))) x ↔ OpenEnd B x) := by
    intro x hx
    constructor
    · rintro ⟨p, t, j, hp, hj, e⟩
      by_cases e' : p = b
      · subst e'; rw [upd_same] at hp; cases hp; omega
      · rw [upd_other _ _ e'] at hp; exact ⟨p, t, j, hp, hj, e⟩
    · rintro ⟨p, t, j, hp, hj, e⟩
      by_cases e' : p = b
      · subst e'; rw [hb] at hp; cases hp; omega
      · exact ⟨p, t, j, by rw [upd_other _ _ e']; exact hp, hj, e⟩
  have opb : OpenEnd (upd B b (some (s, k'))) (b + s) ↔ k' ≠ .live := by
    constructor
    · rintro ⟨p, t, j, hp, hj, e⟩
      by_cases e' : p = b
      · subst e'; rw [upd_same] at hp; cases hp; exact hj
      · exfalso
        have pp := S'.size_pos hp
        rcases S'.sep hp hb' e' with h | h <;> omega
    · intro hj
      exact ⟨b, s, k', hb', hj, rfl⟩
  have back : ∀ a t j, upd B b (some (s, k')) a = some (t, j) → ∃ j', B a = some (t, j') ∧ (a ≠ b → j' = j) := by
    intro a t j ha
    by_cases e : a = b
    · subst e; rw [upd_same] at ha; cases ha; exact ⟨k, hb, fun h => absurd rfl h⟩
    · rw [upd_other _ _ e] at ha; exact ⟨j, ha, fun _ => rfl⟩
  have fr : ∀ a t, upd B b (some (s, k')) a = some (t, .free) ↔ B a = some (t, .free) := by
    intro a t
    by_cases e : a = b
    · subst e
      rw [upd_same, hb]
      constructor
      · intro h; cases h; exact absurd rfl hk'
      · intro h; cases h; exact absurd rfl hk
    · rw [upd_other _ _ e]
  refine ⟨S', ⟨fun a t j ha hj => ?_, fun a t j ha => ?_, fun x hx => ?_, fun a t ha => ?_⟩, (I.lists.recast fr).congr (fun a t ha => ?_)⟩
  · have pa := S'.size_pos ha
    obtain ⟨j', hj', hne⟩ := back a t j ha
    simp only []
    by_cases e : a = b
    · subst e
      rw [upd_same] at ha
      cases ha
      rw [key _ (by omega) (by omega)]
      cases k' with
      | live => exact hs rfl
      | free => exact absurd rfl hk'
      | held => exact absurd rfl hj
    · by_cases e' : a = b + s
      · subst e'
        rw [word_same _ _ _ hw, h1]
        exact T.size _ _ _ hj' (hne e ▸ hj)
      · rw [key _ (by omega) (by omega)]
        exact T.size _ _ _ hj' (hne e ▸ hj)
  · have pa := S'.size_pos ha
    obtain ⟨j', hj', hne⟩ := back a t j ha
    simp only []
    by_cases e' : a = b + s
    · subst e'
      rw [word_same _ _ _ hw, h2, opb]
    · rw [key _ (by omega) (by omega), op a e']
      exact T.bit _ _ _ hj'
  · have := S.endAl hx
    have := S.endSep hb hx
    simp only []
    rw [key (x + 8) (by omega) (by omega)]
    by_cases e' : x = b + s
    · subst e'
      rw [word_same _ _ _ hw, h1, h2, opb]
      exact ⟨(T.mark _ hx).1, Iff.rfl, (T.mark _ hx).2.2⟩
    · rw [key _ (by omega) (by omega), op x e']
      exact T.mark x hx
  · rw [fr] at ha
    have pa := S.size_pos ha
    simp only []
    rw [key _ (by omega)]
    · exact T.foot _ _ ha
    · by_cases e : a = b
      · subst e; rw [hb] at ha; cases ha; exact absurd rfl hk
      · rcases S.sep ha hb e with h | h <;> omega
  · rw [fr] at ha
    have pa := S.size_pos ha
    simp only []
    by_cases e : a = b
    · subst e; rw [hb] at ha; cases ha; exact absurd rfl hk
    · rcases S.sep ha hb e with h | h <;> exact ⟨key _ (by omega) (by omega), key _ (by omega) (by omega)⟩

end Wizard.Pool

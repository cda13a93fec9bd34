import Verif.Lemmas.HeapOps
/-! Releasing a block keeps the invariant of the memory pool. -/
namespace Wizard.Pool
open Wizard

/-- The open end before a block is a free block. -/
theorem open_free {B : Blocks} (nh : NoHeld B) {x} (h : OpenEnd B x) : ∃ p s, B p = some (s, .free) ∧ p + s = x := by
  obtain ⟨p, s, k, hp, hk, e⟩ := h
  cases k with
  | live => exact absurd rfl hk
  | free => exact ⟨p, s, hp, e⟩
  | held => exact absurd hp (nh p s)

theorem live_upd {B : Blocks} {q t : Nat} {k k' : Kind} {t' : Nat} (hq : B q = some (t, k)) (hk : k ≠ .live) (hk' : k' ≠ .live) (a u : Nat) :
    upd B q (some (t', k')) a = some (u, .live) ↔ B a = some (u, .live) := by
  by_cases e : a = q
  · subst e
    rw [upd_same, hq]
    constructor
    · intro h; cases h; exact absurd rfl hk'
    · intro h; cases h; exact absurd rfl hk
  · rw [upd_other _ _ e]

/-- Lines 1049-1062 of memory.c. -/
theorem joinPrevious_ok {h : Heap} {B L} (I : Inv h B L) (nh : NoHeld B) {p s : Nat} (hp : B p = some (s, .live)) :
    ∃ q S h' B' L', joinPrevious h p = .ok (q, h') ∧ Same h h' ∧ Inv h' B' L' ∧ NoHeld B' ∧ B' q = some (S, .live) ∧ q + S = p + s ∧ q ≤ p ∧
      (∀ a t, a ≠ p → B a = some (t, .live) → a ≠ q) ∧
      (∀ a t, a ≠ q → (B' a = some (t, .live) ↔ B a = some (t, .live) ∧ a ≠ p)) ∧
      (∀ r t, B' r = some (t, .free) → r + t ≠ q) ∧ Keep B h h' := by
  have Sh := I.shape
  have pp := Sh.size_pos hp
  have gp : given h (p - 8) = true := Sh.given hp (by omega) (by omega) (by omega)
  by_cases ho : word h.mem (p - 8) % 2 = 0
  · obtain ⟨q, t, hq, e⟩ := open_free nh ((I.tags.bit _ _ _ hp).1 ho)
    have pq := Sh.size_pos hq
    obtain ⟨i, hi, _, _⟩ := policy_ok (s := t) (by omega) (by omega)
    obtain ⟨h1, L1, r1, r2, r3, I1⟩ := detach I hq hi
    obtain ⟨_, k1, _, kp⟩ := I.tags.frame Sh r3
    have hqp : p ≠ q := by omega
    have hq1 : upd B q (some (t, .held)) q = some (t, .held) := upd_same ..
    have hp1 : upd B q (some (t, .held)) (q + t) = some (s, .live) := by rw [e, upd_other _ _ hqp]; exact hp
    have S1 := I1.shape
    have g1 : given h1 (q - 8) = true := S1.given hq1 (by omega) (by omega) (by omega)
    have z1 : sizeOf h1 q = .ok t := by
      unfold sizeOf
      rw [load_ok g1, Res.ok_bind, k1 _ _ _ hq, I.tags.size _ _ _ hq (by simp)]
    have z2 : sizeOf h1 p = .ok s := by
      rw [← e]; exact I1.tags.sizeOf S1 hp1 (by simp)
    have hm : t + s + word h1.mem (q - 8) % 2 < sizeMax := by omega
    have I2 := I1.merge hq1 hp1 (by simp) (by simp) hm (by omega) (by omega)
    refine ⟨q, t + s, { h1 with mem := setWord h1.mem (q - 8) (t + s + word h1.mem (q - 8) % 2) }, _, L1, ?_, r2.trans ⟨rfl, rfl, rfl⟩, I2, ?_, upd_same .., by omega, by omega, fun a u ha hb => ?_, fun a u ha => ?_, fun r u hr e' => ?_, ?_⟩
    · unfold joinPrevious
      rw [load_ok gp, Res.ok_bind, if_pos ho]
      have f : load h (p - 16) = .ok t := by
        rw [load_ok (Sh.given hp (by omega) (by omega) (by omega)), ← I.tags.foot _ _ hq, e]
      rw [f, Res.ok_bind]
      simp only []
      rw [show p - t = q by omega, I.tags.sizeOf Sh hq (by simp), Res.ok_bind, hi, Res.ok_bind, r1, Res.ok_bind, z1, Res.ok_bind, z2, Res.ok_bind, load_ok g1, Res.ok_bind, store_ok _ g1, Res.ok_bind]
    · intro a u ha
      by_cases e1 : a = q
      · subst e1; rw [upd_same] at ha; cases ha
      · rw [upd_other _ _ e1] at ha
        by_cases e2 : a = q + t
        · subst e2; rw [upd_same] at ha; cases ha
        · rw [upd_other _ _ e2, upd_other _ _ e1] at ha; exact nh a u ha
    · rintro rfl; rw [hq] at hb; cases hb
    · rw [upd_other _ _ ha, e]
      by_cases e2 : a = p
      · subst e2; rw [upd_same]; simp
      · rw [upd_other _ _ e2, upd_other _ _ ha]; simp [e2]
    · by_cases e1 : r = q
      · subst e1; rw [upd_same] at hr; cases hr
      · rw [upd_other _ _ e1] at hr
        by_cases e2 : r = q + t
        · subst e2; rw [upd_same] at hr; cases hr
        · rw [upd_other _ _ e2, upd_other _ _ e1] at hr
          exact Sh.apart _ _ t hr (by rw [e']; exact hq)
    · have K1 : Keep B h h1 := fun a t hat x x1 x2 => kp a t _ hat (by simp) x x1 x2
      refine K1.trans (Keep.store _ _ (fun a u hat => ?_)) (fun _ _ h => h)
      have := Sh.size_pos hat
      have := Sh.sep hat hq (by rintro rfl; rw [hq] at hat; cases hat)
      omega
  · refine ⟨p, s, h, B, L, ?_, Same.refl h, I, nh, hp, rfl, Nat.le_refl _, fun _ _ h _ => h, fun a t ha => by simp [ha], fun r t hr e => ?_, Keep.refl B h⟩
    · unfold joinPrevious
      rw [load_ok gp, Res.ok_bind, if_neg ho]
    · exact ho ((I.tags.bit _ _ _ hp).2 ⟨r, t, _, hr, by simp, e⟩)

/-- Lines 1063-1075 of memory.c. -/
theorem joinNext_ok {h : Heap} {B L} (I : Inv h B L) (nh : NoHeld B) {m s : Nat} (hm : B m = some (s, .live)) :
    ∃ S k h' B' L', joinNext h m = .ok h' ∧ Same h h' ∧ Inv h' B' L' ∧ B' m = some (S, k) ∧ k ≠ .free ∧ word h'.mem (m - 8) / 2 * 2 = S ∧ s ≤ S ∧
      (∀ a t, a ≠ m → (B' a = some (t, .live) ↔ B a = some (t, .live))) ∧ (∀ a t, B' a = some (t, .held) → a = m) ∧
      (∀ t, B' (m + S) ≠ some (t, .free)) ∧ (∀ r t, B' r = some (t, .free) → B r = some (t, .free)) ∧ (∀ a t, a ≠ m → B a = some (t, .live) → a + t ≤ m ∨ m + S ≤ a) ∧ Keep B h h' := by
  have Sh := I.shape
  have pm := Sh.size_pos hm
  have zm := I.tags.sizeOf Sh hm (by simp)
  have gm : given h (m - 8) = true := Sh.given hm (by omega) (by omega) (by omega)
  have stay : (∀ t, B (m + s) ≠ some (t, .free)) → joinNext h m = .ok h → _ := fun hn hj =>
    (⟨s, .live, h, B, L, hj, Same.refl h, I, hm, by simp, I.tags.size _ _ _ hm (by simp), Nat.le_refl _, fun _ _ _ => Iff.rfl, fun a t ha => absurd ha (nh a t), hn, fun _ _ h => h, fun a t ha hb => Sh.sep hb hm ha, Keep.refl B h⟩ :
    ∃ S k h' B' L', joinNext h m = .ok h' ∧ Same h h' ∧ Inv h' B' L' ∧ B' m = some (S, k) ∧ k ≠ .free ∧ word h'.mem (m - 8) / 2 * 2 = S ∧ s ≤ S ∧
      (∀ a t, a ≠ m → (B' a = some (t, .live) ↔ B a = some (t, .live))) ∧ (∀ a t, B' a = some (t, .held) → a = m) ∧
      (∀ t, B' (m + S) ≠ some (t, .free)) ∧ (∀ r t, B' r = some (t, .free) → B r = some (t, .free)) ∧ (∀ a t, a ≠ m → B a = some (t, .live) → a + t ≤ m ∨ m + S ≤ a) ∧ Keep B h h')
  rcases Sh.next _ _ _ hm with ⟨⟨t, k⟩, hn⟩ | hx
  · have pn := Sh.size_pos hn
    have zn : sizeOf h (m + s) = .ok t := I.tags.sizeOf Sh hn (by rintro rfl; exact nh _ _ hn)
    have gn := I.given_after hn
    have hne : m ≠ m + s := by omega
    cases k with
    | held => exact absurd hn (nh _ _)
    | live =>
      refine stay (fun u hu => by rw [hn] at hu; cases hu) ?_
      unfold joinNext
      rw [zm, Res.ok_bind, zn, Res.ok_bind, load_ok gn, Res.ok_bind, if_neg (by rw [I.after hn]; simp)]
    | free =>
      obtain ⟨i, hi, _, _⟩ := policy_ok (s := t) (by omega) (by omega)
      obtain ⟨h1, L1, r1, r2, r3, I1⟩ := detach I hn hi
      obtain ⟨_, k1, _, kp⟩ := I.tags.frame Sh r3
      have hn1 : upd B (m + s) (some (t, .held)) (m + s) = some (t, .held) := upd_same ..
      have hm1 : upd B (m + s) (some (t, .held)) m = some (s, .live) := by rw [upd_other _ _ hne]; exact hm
      have S1 := I1.shape
      have z1 : sizeOf h1 (m + s) = .ok t := by
        unfold sizeOf
        rw [load_ok (S1.given hn1 (by omega) (by omega) (by omega)), Res.ok_bind, k1 _ _ _ hn, I.tags.size _ _ _ hn (by simp)]
      have z2 : sizeOf h1 m = .ok s := I1.tags.sizeOf S1 hm1 (by simp)
      have g1 : given h1 (m - 8) = true := S1.given hm1 (by omega) (by omega) (by omega)
      have hmx : s + t + word h1.mem (m - 8) % 2 < sizeMax := by omega
      have I2 := I1.merge hm1 hn1 (by simp) (by simp) hmx (by omega) (by omega)
      have hlive : ∀ a u, a ≠ m → B a = some (u, .live) → a + u ≤ m ∨ m + (s + t) ≤ a := by
        intro a u ha hb
        have h1 := Sh.sep hb hm ha
        have h2 := Sh.sep hb hn (by rintro rfl; rw [hn] at hb; cases hb)
        have := Sh.size_pos hb
        omega
      have key : ∀ a, a ≠ m → a ≠ m + s → upd (upd (upd B (m + s) (some (t, .held))) (m + s) none) m (some (s + t, .held)) a = B a := by
        intro a a1 a2
        rw [upd_other _ _ a1, upd_other _ _ a2, upd_other _ _ a2]
      have kn : upd (upd (upd B (m + s) (some (t, .held))) (m + s) none) m (some (s + t, .held)) (m + s) = none := by
        rw [upd_other _ _ (Ne.symm hne), upd_same]
      refine ⟨s + t, .held, { h1 with mem := setWord h1.mem (m - 8) (s + t + word h1.mem (m - 8) % 2) }, _, L1, ?_, r2.trans ⟨rfl, rfl, rfl⟩, I2, upd_same .., by simp, ?_, by omega, fun a u ha => ?_, fun a u ha => ?_, fun u => ?_, fun r u hr => ?_, hlive, ?_⟩
      · unfold joinNext
        rw [zm, Res.ok_bind, zn, Res.ok_bind, load_ok gn, Res.ok_bind, if_pos (by rw [I.after hn]; simp)]
        simp only []
        rw [hi, Res.ok_bind, r1, Res.ok_bind, z2, Res.ok_bind, z1, Res.ok_bind, load_ok g1, Res.ok_bind, store_ok _ g1]
      · simp only []
        rw [word_same _ _ _ hmx]
        omega
      · by_cases a2 : a = m + s
        · subst a2; rw [kn, hn]; constructor <;> intro h <;> cases h
        · rw [key a ha a2]
      · by_cases a1 : a = m
        · exact a1
        · by_cases a2 : a = m + s
          · subst a2; rw [kn] at ha; cases ha
          · rw [key a a1 a2] at ha; exact absurd ha (nh a u)
      · rw [key _ (by omega) (by omega), show m + (s + t) = m + s + t by omega]
        exact Sh.apart _ _ u hn
      · by_cases a1 : r = m
        · subst a1; rw [upd_same] at hr; cases hr
        · by_cases a2 : r = m + s
          · subst a2; rw [kn] at hr; cases hr
          · rw [key r a1 a2] at hr; exact hr
      · have K1 : Keep B h h1 := fun a t hat x x1 x2 => kp a t _ hat (by simp) x x1 x2
        refine K1.trans (Keep.store _ _ (fun a u hat => ?_)) (fun _ _ h => h)
        by_cases a1 : a = m
        · subst a1; omega
        · have := Sh.size_pos hat
          have := hlive a u a1 hat
          omega
  · have gx := I.given_after hm
    have mk := I.tags.mark _ hx
    refine stay (fun u hu => ?_) ?_
    · have := Sh.size_pos hu
      have := Sh.endSep hu hx
      omega
    · unfold joinNext
      have zx : sizeOf h (m + s) = .ok 16 := by
        unfold sizeOf
        rw [load_ok gx, Res.ok_bind, mk.1]
      rw [zm, Res.ok_bind, zx, Res.ok_bind, load_ok (Sh.given hm (by omega) (by omega) (by omega)), Res.ok_bind, if_neg (by rw [show m + s + 16 - 8 = m + s + 8 by omega, mk.2.2]; decide)]

/-- Lines 1039-1082 of memory.c: a block is released, and the others are as they were. -/
theorem relinquish_ok {h : Heap} {B L} (I : Inv h B L) (nh : NoHeld B) {p s : Nat} (hp : B p = some (s, .live)) :
    ∃ N h' B' L', (∀ fuel, N ≤ fuel → relinquish fuel h p = .ok h') ∧ Same h h' ∧ Inv h' B' L' ∧ NoHeld B' ∧
      (∀ a t, B' a = some (t, .live) ↔ B a = some (t, .live) ∧ a ≠ p) ∧ Keep (fun a => if a = p then none else B a) h h' ∧
      (∀ x, p + 16 ≤ x → x + 16 < p + s → h'.mem x = h.mem x) := by
  have Sh := I.shape
  have pp := Sh.size_pos hp
  obtain ⟨q, S1, h1, B1, L1, a1, a2, I1, nh1, hq1, ae, ale, aq, al, af, ak⟩ := joinPrevious_ok I nh hp
  obtain ⟨S2, k2, h2, B2, L2, b1, b2, I2, hq2, bk, bw, bs, bl, bh, bn, bf, bl', bkp⟩ := joinNext_ok I1 nh1 hq1
  have Sh2 := I2.shape
  have p2 := Sh2.size_pos hq2
  have g3 : given h2 (q + S2 - 16) = true := Sh2.given hq2 (by omega) (by omega) (by omega)
  let h3 : Heap := { h2 with mem := setWord h2.mem (q + S2 - 16) S2 }
  have e3 : store h2 (q + S2 - 16) S2 = .ok h3 := store_ok _ g3
  have I3 : Inv h3 B2 L2 := I2.inside (h' := h3) rfl rfl hq2 bk (fun x hx => setWord_out _ _ _ _ (by omega))
  have w3 : ∀ x, x % 8 = 0 → x ≠ q + S2 - 16 → word h3.mem x = word h2.mem x := by
    intro x hx hne
    show word (setWord h2.mem _ _) x = _
    rw [word_set _ (by omega) (by omega) hx, if_neg hne]
  have f3 : word h3.mem (q + S2 - 16) = S2 := word_same _ _ _ (by omega)
  have g4 : given h3 (q + S2 - 8) = true := I3.given_after hq2
  have m4 : word h3.mem (q + S2 - 8) / 2 * 2 < sizeMax := by
    have := word_lt h3.mem (q + S2 - 8)
    omega
  let h4 : Heap := { h3 with mem := setWord h3.mem (q + S2 - 8) (word h3.mem (q + S2 - 8) / 2 * 2) }
  have e4 : store h3 (q + S2 - 8) (word h3.mem (q + S2 - 8) / 2 * 2) = .ok h4 := store_ok _ g4
  have I4 : Inv h4 (upd B2 q (some (S2, .held))) L2 := I3.setBit hq2 bk (k' := .held) (by simp) (by simp) m4 (by omega) (by simp)
  have w4 : ∀ x, x % 8 = 0 → x ≠ q + S2 - 8 → word h4.mem x = word h3.mem x := by
    intro x hx hne
    show word (setWord h3.mem _ _) x = _
    rw [word_set _ m4 (by omega) hx, if_neg hne]
  have hq4 : upd B2 q (some (S2, .held)) q = some (S2, .held) := upd_same ..
  obtain ⟨i, hi, _, _⟩ := policy_ok (s := S2) (by omega) (by omega)
  obtain ⟨N, h5, L5, c1, c2, c3, I5⟩ := attach I4 hq4 hi (by
      rw [w4 _ (by omega) (by omega), w3 _ (by omega) (by omega)]; exact bw) (by
      rw [w4 _ (by omega) (by omega)]; exact f3) ⟨fun t => by rw [upd_other _ _ (by omega)]; exact bn t, fun r t hr => by
      by_cases e : r = q
      · subst e; rw [hq4] at hr; cases hr
      · rw [upd_other _ _ e] at hr; exact af r t (bf r t hr)⟩
  rw [upd_upd] at I5 c3
  have hB : ∀ a t, upd B2 q (some (S2, .free)) a = some (t, .live) ↔ B a = some (t, .live) ∧ a ≠ p := by
    intro a t
    by_cases e : a = q
    · subst e
      rw [upd_same]
      constructor
      · intro h; cases h
      · rintro ⟨h1, h2⟩; exact absurd rfl (aq _ t h2 h1)
    · rw [upd_other _ _ e, bl a t e, al a t e]
  refine ⟨N, h5, _, L5, fun fuel hf => ?_, a2.trans (b2.trans ((show Same h2 h4 from ⟨rfl, rfl, rfl⟩).trans c2)), I5, ?_, hB, ?_, ?_⟩
  · unfold relinquish
    rw [if_neg (by omega), I.tags.sizeOf Sh hp (by simp), Res.ok_bind, if_neg (by omega), load_ok (I.given_after hp), Res.ok_bind, if_neg (by rw [I.after hp]; simp), a1, Res.ok_bind]
    simp only []
    rw [b1, Res.ok_bind]
    have z : sizeOf h2 q = .ok S2 := by
      unfold sizeOf
      rw [load_ok (Sh2.given hq2 (by omega) (by omega) (by omega)), Res.ok_bind, bw]
    rw [z, Res.ok_bind, e3, Res.ok_bind, load_ok g4, Res.ok_bind, e4, Res.ok_bind, hi, Res.ok_bind, c1 fuel hf]
  · intro a t ha
    by_cases e : a = q
    · subst e; rw [upd_same] at ha; cases ha
    · rw [upd_other _ _ e] at ha; exact e (bh a t ha)
  · intro a t hat
    have hne : a ≠ p := by rintro rfl; simp at hat
    replace hat : B a = some (t, .live) := by simpa [hne] using hat
    have haq : a ≠ q := aq a t hne hat
    have hat1 : B1 a = some (t, .live) := (al a t haq).2 ⟨hat, hne⟩
    have hsep := bl' a t haq hat1
    have pa := Sh.size_pos hat
    intro x x1 x2
    rw [c3 x (fun f u hf => ?_)]
    · show setWord (setWord h2.mem _ _) _ _ x = _
      rw [setWord_out _ _ _ _ (by omega), setWord_out _ _ _ _ (by omega), bkp a t hat1 x x1 x2, ak a t hat x x1 x2]
    · have pf := I5.shape.size_pos hf
      have hat5 : upd B2 q (some (S2, .free)) a = some (t, .live) := (hB a t).2 ⟨hat, hne⟩
      have := I5.shape.sep hat5 hf (by rintro rfl; rw [hat5] at hf; cases hf)
      omega
  · intro x x1 x2
    rw [c3 x (fun f u hf => ?_)]
    · show setWord (setWord h2.mem _ _) _ _ x = _
      rw [setWord_out _ _ _ _ (by omega), setWord_out _ _ _ _ (by omega), bkp q S1 hq1 x (by omega) (by omega), ak p s hp x (by omega) (by omega)]
    · have pf := I5.shape.size_pos hf
      by_cases e : f = q
      · subst e; omega
      · have := I5.shape.sep hf (upd_same B2 q (some (S2, .free))) e
        omega

end Wizard.Pool

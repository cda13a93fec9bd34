import Verif.Spec.StringVar
import Verif.Lemmas.Mem
/-! String variables: what holds between calls. -/
namespace Wizard
open Spec.StringVar

theorem holds_empty : HoldsTexts .empty (fun _ => none) :=
  ⟨fun _ _ => rfl, fun _ _ h => (by cases h), fun _ _ _ h => (by cases h), fun _ h => absurd rfl h, fun _ _ => rfl⟩

theorem strlen_cut (s tail : List Byte) (h : (0 : Byte) ∉ s) : strlenMem (s ++ 0 :: tail) = .ok s.length := by
  induction s with
  | nil => rfl
  | cons c s ih =>
    rw [List.cons_append, strlenMem, if_neg (fun e => h (by rw [e]; exact List.mem_cons_self)), ih (fun hm => h (List.mem_cons_of_mem _ hm))]
    rfl

/-- The text of a variable. -/
theorem Spec.StringVar.HoldsTexts.var_text {w : StrWorld} {t : Texts} (h : HoldsTexts w t) {v b : Nat} (hv : w.var v = some b) :
    ∃ s tail, t v = some s ∧ (0 : Byte) ∉ s ∧ w.block b = some (s ++ 0 :: tail) := by
  cases ht : t v with
  | none => rw [h.null v ht] at hv; cases hv
  | some s =>
    obtain ⟨h0, b', tail, h1, h2⟩ := h.text v s ht
    rw [hv] at h1
    cases h1
    exact ⟨s, tail, rfl, h0, h2⟩

theorem Spec.StringVar.HoldsTexts.lt_fresh {w : StrWorld} {t : Texts} (h : HoldsTexts w t) {v b : Nat} (hv : w.var v = some b) : b < w.fresh := by
  obtain ⟨s, tail, _, _, hb⟩ := h.var_text hv
  by_cases hl : b < w.fresh
  · exact hl
  · rw [h.fresh b (by omega)] at hb; cases hb

/-- `w'` is `w` but for variable `v`, which has block `c` of its own with bytes `m`; the block it had is given up, unless it is `c`. -/
structure Given (w w' : StrWorld) (v c : Nat) (m : List Byte) : Prop where
  var : w'.var = fun u => if u = v then some c else w.var u
  own : w.var v = some c ∨ w.fresh ≤ c
  block : w'.block c = some m
  other : ∀ x, x ≠ c → w'.block x = if w.var v = some x then none else w.block x
  fresh : w.fresh ≤ w'.fresh ∧ c < w'.fresh

theorem Given.holds {w w' : StrWorld} {v c : Nat} {s tail : List Byte} {t : Texts} (g : Given w w' v c (s ++ 0 :: tail)) (h : HoldsTexts w t)
    (h0 : (0 : Byte) ∉ s) : HoldsTexts w' (set t v (some s)) := by
  have hc : ∀ u, u ≠ v → w.var u ≠ some c := by
    intro u hu he
    rcases g.own with ho | ho
    · exact hu (h.apart u v c he ho)
    · have := h.lt_fresh he; omega
  refine ⟨?_, ?_, ?_, ?_, ?_⟩
  · intro u hu
    unfold Spec.StringVar.set at hu
    by_cases huv : u = v
    · rw [if_pos huv] at hu; cases hu
    · rw [if_neg huv] at hu
      rw [g.var]; simp only [if_neg huv]
      exact h.null u hu
  · intro u r hu
    unfold Spec.StringVar.set at hu
    by_cases huv : u = v
    · rw [if_pos huv] at hu
      cases hu
      exact ⟨h0, c, tail, by rw [g.var]; simp only [if_pos huv], g.block⟩
    · rw [if_neg huv] at hu
      obtain ⟨h1, b, tl, h2, h3⟩ := h.text u r hu
      refine ⟨h1, b, tl, by rw [g.var]; simp only [if_neg huv]; exact h2, ?_⟩
      have hbc : b ≠ c := fun e => hc u huv (by rw [h2, e])
      rw [g.other b hbc, if_neg (fun e => huv (h.apart u v b h2 e))]
      exact h3
  · intro u x b hu hx
    rw [g.var] at hu hx
    simp only [] at hu hx
    by_cases huv : u = v
    · by_cases hxv : x = v
      · rw [huv, hxv]
      · rw [if_pos huv] at hu; rw [if_neg hxv] at hx
        cases hu
        exact absurd hx (hc x hxv)
    · by_cases hxv : x = v
      · rw [if_neg huv] at hu; rw [if_pos hxv] at hx
        cases hx
        exact absurd hu (hc u huv)
      · rw [if_neg huv] at hu; rw [if_neg hxv] at hx
        exact h.apart u x b hu hx
  · intro b hb
    by_cases hbc : b = c
    · exact ⟨v, by rw [g.var, hbc]; simp⟩
    · rw [g.other b hbc] at hb
      split at hb
      · exact absurd rfl hb
      · rename_i hn
        obtain ⟨u, hu⟩ := h.owned b hb
        refine ⟨u, ?_⟩
        rw [g.var]
        have huv : u ≠ v := fun e => hn (by rw [← e]; exact hu)
        simp only [if_neg huv]
        exact hu
  · intro b hb
    have hf := g.fresh
    rw [g.other b (by omega)]
    split
    · rfl
    · exact h.fresh b (by omega)

theorem Given.write {w w' : StrWorld} {v c : Nat} {m : List Byte} (g : Given w w' v c m) (m' : List Byte) :
    Given w (w'.setBlock c (some m')) v c m' :=
  ⟨g.var, g.own, by simp [StrWorld.setBlock], fun x hx => by
    show (if x = c then some m' else w'.block x) = _
    rw [if_neg hx]; exact g.other x hx, g.fresh⟩

theorem Given.var_eq {w w' : StrWorld} {v c : Nat} {m : List Byte} (g : Given w w' v c m) : w'.var v = some c := by rw [g.var]; simp

/-- A source that the call can read, before and after the block of `v` was replaced. -/
structure Source (w : StrWorld) (v : Nat) (p : StrPtr) (s : List Byte) : Prop where
  nul : (0 : Byte) ∉ s
  some : p ≠ .null
  len : w.strlen p = .ok s.length
  read : ∀ w' c m, Given w w' v c m → w'.read s.length p = .ok s
  early : w.read s.length p = .ok s
  apart : ∀ w' c m d, Given w w' v c m → overlaps p c d s.length = false

theorem source_of {w : StrWorld} {t : Texts} (h : HoldsTexts w t) (v : Nat) (src : StrSource) (hr : Readable t src) (ha : Apart v src) (hn : src ≠ .null) :
    ∃ s, value t src = some s ∧ Source w v (w.pointer src) s := by
  cases src with
  | null => exact absurd rfl hn
  | text s =>
    exact ⟨s, rfl, hr, by simp [StrWorld.pointer], rfl, fun _ _ _ _ => by simp [StrWorld.pointer, StrWorld.read], by simp [StrWorld.pointer, StrWorld.read], fun _ _ _ _ _ => rfl⟩
  | inVar u k =>
    obtain ⟨s, hs, hk⟩ := hr
    obtain ⟨h0, b, tail, h1, h2⟩ := h.text u s hs
    have hp : w.pointer (.inVar u k) = .mem b k := by simp only [StrWorld.pointer, h1]
    have hrd : rdN (s ++ 0 :: tail) k (s.drop k).length = .ok (s.drop k) := by
      rw [rdN_ok (by simp; omega), List.drop_append_of_le_length hk, List.take_left' rfl]
    have hne : ∀ w' c m, Given w w' v c m → b ≠ c := by
      intro w' c m g he
      rcases g.own with ho | ho
      · exact ha (h.apart u v c (by rw [← he]; exact h1) ho)
      · have := h.lt_fresh h1; omega
    refine ⟨s.drop k, by simp [value, hs], ?_⟩
    rw [hp]
    refine ⟨fun hm => h0 (List.mem_of_mem_drop hm), by simp, ?_, ?_, ?_, ?_⟩
    · simp only [StrWorld.strlen, h2]
      rw [List.drop_append_of_le_length hk]
      exact strlen_cut _ _ (fun hm => h0 (List.mem_of_mem_drop hm))
    · intro w' c m g
      have hb : w'.block b = some (s ++ 0 :: tail) := by
        rw [g.other b (hne w' c m g), if_neg (fun e => ha (h.apart u v b h1 e)), h2]
      simp only [StrWorld.read, hb]
      exact hrd
    · simp only [StrWorld.read, h2]
      exact hrd
    · intro w' c m d g
      have : (b == c) = false := by simpa using hne w' c m g
      simp [overlaps, this]

/-- What the last steps of a call do. -/
theorem finish {w w' : StrWorld} {v c d : Nat} {m s : List Byte} {p : StrPtr} (g : Given w w' v c m) (hs : Source w v p s) (hm : d + s.length < m.length) :
    ∃ w'' tail, (copyIn w' v d s.length p >>= fun x => endVar x v (d + s.length)) = .ok w'' ∧ Given w w'' v c (m.take d ++ s ++ 0 :: tail) := by
  have hcopy : ∃ w1 tl, copyIn w' v d s.length p = .ok w1 ∧ tl ≠ [] ∧ Given w w1 v c (m.take d ++ s ++ tl) := by
    by_cases h0 : s.length = 0
    · have hs0 : s = [] := List.length_eq_zero_iff.mp h0
      refine ⟨w', m.drop d, ?_, ?_, ?_⟩
      · unfold copyIn; rw [g.var_eq]; simp only [g.block, h0, if_true]
      · intro e; have := congrArg List.length e; simp at this; omega
      · rw [hs0, List.append_nil, List.take_append_drop]; exact g
    · refine ⟨_, m.drop (d + s.length), ?_, ?_, g.write (m.take d ++ s ++ m.drop (d + s.length))⟩
      · unfold copyIn
        rw [g.var_eq]
        simp only [g.block]
        rw [if_neg h0, hs.read w' c m g, Res.ok_bind]
        rw [if_neg (by rw [hs.apart w' c m d g]; simp), wrN_ok (by omega), Res.ok_bind]
      · intro e; have := congrArg List.length e; simp at this; omega
  obtain ⟨w1, tl, e1, htl, g1⟩ := hcopy
  obtain ⟨x, tl', rfl⟩ : ∃ x tl', tl = x :: tl' := by cases tl with | nil => exact absurd rfl htl | cons x l => exact ⟨x, l, rfl⟩
  refine ⟨_, tl', ?_, g1.write (m.take d ++ s ++ 0 :: tl')⟩
  rw [e1, Res.ok_bind]
  unfold endVar
  rw [g1.var_eq]
  simp only [g1.block]
  have hlen : (m.take d ++ s).length = d + s.length := by simp; omega
  unfold wr
  rw [if_pos (by simp; omega), Res.ok_bind]
  congr 2
  rw [← hlen]
  simp

theorem resize_given {w : StrWorld} {t : Texts} (h : HoldsTexts w t) {v b size : Nat} {m : List Byte} (hv : w.var v = some b) (hb : w.block b = some m) (move : Bool)
    (junk : Nat → Byte) : ∃ w' c, resizeVar w v b size move junk = .ok w' ∧ Given w w' v c (reallocMem m size junk) := by
  have hlt := h.lt_fresh hv
  unfold resizeVar
  rw [hb]
  simp only []
  cases move with
  | true =>
    refine ⟨_, w.fresh, rfl, rfl, .inr (Nat.le_refl _), ?_, ?_, ?_⟩
    · simp [StrWorld.setVar, StrWorld.alloc, StrWorld.setBlock]
    · intro x hx
      have hx' : x ≠ w.fresh := hx
      simp [StrWorld.setVar, StrWorld.alloc, StrWorld.setBlock, hx', hv, eq_comm (a := b)]
    · simp [StrWorld.setVar, StrWorld.alloc, StrWorld.setBlock]
  | false =>
    refine ⟨_, b, rfl, ?_, .inl hv, ?_, ?_, ?_⟩
    · funext u
      simp only [StrWorld.setBlock]
      by_cases hu : u = v
      · rw [if_pos hu, hu, hv]
      · rw [if_neg hu]
    · simp [StrWorld.setBlock]
    · intro x hx
      simp only [StrWorld.setBlock, if_neg hx, hv, Option.some.injEq, if_neg (fun e : b = x => hx e.symm)]
    · simp [StrWorld.setBlock]; omega

theorem acquire_given {w : StrWorld} {v : Nat} {p : StrPtr} {s : List Byte} (hv : w.var v = none) (hp : (p = .null ∧ s = []) ∨ Source w v p s)
    (hs : s.length + wizardPathExtent < sizeMax) (junk : Nat → Byte) :
    ∃ w' tail, acquireVar w v p junk = .ok w' ∧ Given w w' v w.fresh (s ++ 0 :: tail) := by
  have hlen : (if p = .null then Res.ok 0 else w.strlen p) = .ok s.length := by
    rcases hp with ⟨h1, h2⟩ | h
    · rw [if_pos h1, h2]; rfl
    · rw [if_neg h.some, h.len]
  have hread : (if p = .null then Res.ok [] else w.read s.length p) = .ok s := by
    rcases hp with ⟨h1, h2⟩ | h
    · rw [if_pos h1, h2]
    · rw [if_neg h.some, h.early]
  unfold acquireVar
  rw [hlen, Res.ok_bind, if_neg (by omega)]
  have hpe : wizardPathExtent = 4096 := rfl
  obtain ⟨m, hm, hml⟩ : ∃ m, wr ((List.range (s.length + wizardPathExtent)).map junk) 0 0 = .ok m ∧ m.length = s.length + wizardPathExtent := by
    unfold wr
    rw [if_pos (by simp; omega)]
    exact ⟨_, rfl, by simp⟩
  rw [hm, Res.ok_bind, hread, Res.ok_bind, wrN_ok (by omega), Res.ok_bind]
  obtain ⟨x, tl, htl⟩ : ∃ x tl, m.drop s.length = x :: tl := by
    cases hd : m.drop s.length with
    | nil => have := congrArg List.length hd; simp at this; omega
    | cons x l => exact ⟨x, l, rfl⟩
  have hw : wr (m.take 0 ++ s ++ m.drop (0 + s.length)) s.length 0 = .ok (s ++ 0 :: tl) := by
    unfold wr
    rw [if_pos (by simp; omega), Nat.zero_add, htl]
    simp
  rw [hw, Res.ok_bind]
  refine ⟨_, tl, rfl, rfl, .inr (Nat.le_refl _), ?_, ?_, ?_⟩
  · simp [StrWorld.setVar, StrWorld.alloc]
  · intro x hx
    simp [StrWorld.setVar, StrWorld.alloc, if_neg hx, hv]
  · simp [StrWorld.setVar, StrWorld.alloc]

theorem destroy_holds {w : StrWorld} {t : Texts} (h : HoldsTexts w t) (v : Nat) : ∃ w', destroyVar w v = .ok w' ∧ HoldsTexts w' (set t v none) := by
  unfold destroyVar
  cases hv : w.var v with
  | none =>
    refine ⟨w, rfl, ?_⟩
    have : set t v none = t := by
      funext u
      unfold Spec.StringVar.set
      split
      · rename_i e
        subst e
        cases ht : t u with
        | none => rfl
        | some s => obtain ⟨_, b, _, h1, _⟩ := h.text u s ht; rw [hv] at h1; cases h1
      · rfl
    rw [this]; exact h
  | some b =>
    obtain ⟨s, tail, hs, h0, hb⟩ := h.var_text hv
    simp only [hb]
    refine ⟨_, rfl, ?_, ?_, ?_, ?_, ?_⟩
    · intro u hu
      simp only [StrWorld.setVar, StrWorld.setBlock]
      unfold Spec.StringVar.set at hu
      by_cases huv : u = v
      · rw [if_pos huv]
      · rw [if_neg huv] at hu ⊢; exact h.null u hu
    · intro u r hu
      unfold Spec.StringVar.set at hu
      by_cases huv : u = v
      · rw [if_pos huv] at hu; cases hu
      · rw [if_neg huv] at hu
        obtain ⟨h1, b', tl, h2, h3⟩ := h.text u r hu
        refine ⟨h1, b', tl, by simp only [StrWorld.setVar, StrWorld.setBlock, if_neg huv]; exact h2, ?_⟩
        simp only [StrWorld.setVar, StrWorld.setBlock]
        rw [if_neg (fun e => huv (h.apart u v b (by rw [h2, e]) hv))]
        exact h3
    · intro u x c hu hx
      simp only [StrWorld.setVar, StrWorld.setBlock] at hu hx
      by_cases huv : u = v
      · rw [if_pos huv] at hu; cases hu
      · by_cases hxv : x = v
        · rw [if_pos hxv] at hx; cases hx
        · rw [if_neg huv] at hu; rw [if_neg hxv] at hx
          exact h.apart u x c hu hx
    · intro c hc
      simp only [StrWorld.setVar, StrWorld.setBlock] at hc ⊢
      by_cases hcb : c = b
      · rw [if_pos hcb] at hc; exact absurd rfl hc
      · rw [if_neg hcb] at hc
        obtain ⟨u, hu⟩ := h.owned c hc
        refine ⟨u, ?_⟩
        rw [if_neg]
        · exact hu
        · intro e; rw [e, hv] at hu; cases hu; exact hcb rfl
    · intro c hc
      simp only [StrWorld.setVar, StrWorld.setBlock] at hc ⊢
      split
      · rfl
      · exact h.fresh c hc

/-- Bytes that fit are kept. -/
theorem realloc_take (s tl : List Byte) (size : Nat) (junk : Nat → Byte) (h : s.length ≤ size) : (reallocMem (s ++ tl) size junk).take s.length = s := by
  unfold reallocMem
  rw [List.take_append_of_le_length (by simp; omega), List.take_take, Nat.min_eq_left h, List.take_left' rfl]

theorem doubling_le (n : Nat) : ∀ k e, n ≤ e * 2 ^ k → n ≤ doubling k e n := by
  intro k
  induction k with
  | zero => intro e h; simpa [doubling] using h
  | succ k ih =>
    intro e h
    unfold doubling
    split
    · exact ih _ (by rw [Nat.pow_succ] at h; rw [Nat.mul_comm 2 e, Nat.mul_assoc, Nat.mul_comm 2 (2 ^ k)]; exact h)
    · omega

theorem le_overAllocate (n : Nat) : n ≤ overAllocate n := by
  unfold overAllocate
  split
  · exact doubling_le n 10 256 (by omega)
  · exact Nat.le_refl _

end Wizard

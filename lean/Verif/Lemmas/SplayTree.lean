import Verif.Model.SplayTree
import Verif.Spec.SortedMap
import Verif.Lemmas.Res
/-! Splaying keeps the in-order sequence and brings the neighbourhood of the key to the root. -/
namespace Wizard
open Spec

/-- In-order sequence of bindings. -/
def STree.toList : STree → List (Nat × Nat)
  | .nil => []
  | .node l k v r => l.toList ++ (k, v) :: r.toList

def STree.height : STree → Nat
  | .nil => 0
  | .node l _ _ r => 1 + max l.height r.height

def STree.size : STree → Nat
  | .nil => 0
  | .node l _ _ r => 1 + l.size + r.size

theorem toList_length (t : STree) : t.toList.length = t.size := by
  induction t with
  | nil => rfl
  | node l k v r ihl ihr => simp [STree.toList, STree.size, ihl, ihr]; omega

theorem height_le_size (t : STree) : t.height ≤ t.size := by
  induction t with
  | nil => exact Nat.le_refl _
  | node l k v r ihl ihr => simp [STree.height, STree.size]; omega

/-! ### Orders -/

section
variable {C : Nat → Nat → Int} (hC : IsOrder C)
include hC

theorem Spec.IsOrder.lt_trans {a b c : Nat} (h1 : C a b < 0) (h2 : C b c ≤ 0) : C a c < 0 := by
  rcases (by omega : (C a c) < 0 ∨ 0 ≤ (C a c)) with h | h
  · exact h
  · have h3 : C c a ≤ 0 := by
      rcases (by omega : 0 < (C c a) ∨ (C c a) ≤ 0) with h4 | h4
      · have := (hC.swap a c).2 h4; omega
      · exact h4
    have h4 := hC.trans _ _ _ h2 h3
    have h5 := (hC.swap a b).1 h1
    omega

theorem Spec.IsOrder.trans_lt {a b c : Nat} (h1 : C a b ≤ 0) (h2 : C b c < 0) : C a c < 0 := by
  rcases (by omega : (C a c) < 0 ∨ 0 ≤ (C a c)) with h | h
  · exact h
  · have h3 : C c a ≤ 0 := by
      rcases (by omega : 0 < (C c a) ∨ (C c a) ≤ 0) with h4 | h4
      · have := (hC.swap a c).2 h4; omega
      · exact h4
    have h4 := hC.trans _ _ _ h3 h1
    have h5 := (hC.swap b c).1 h2
    omega

theorem Spec.IsOrder.zero_symm {a b : Nat} (h : C a b = 0) : C b a = 0 := by
  have h1 := hC.swap a b
  have h2 := hC.swap b a
  omega

/-- `key < a` and `a < x` give `key < x`. -/
theorem Spec.IsOrder.gt_trans {a x key : Nat} (h1 : 0 ≤ C a key) (h2 : C a x < 0) : 0 < C x key := by
  rw [← hC.swap]
  refine hC.trans_lt ?_ h2
  rcases (by omega : 0 < (C key a) ∨ (C key a) ≤ 0) with h | h
  · have := (hC.swap a key).2 h; omega
  · exact h
end

theorem natOrder_isOrder : IsOrder natOrder where
  refl a := by simp [natOrder]
  swap a b := by unfold natOrder; split <;> split <;> (try split) <;> (try split) <;> omega
  trans a b c := by unfold natOrder; split <;> split <;> (try split) <;> (try split) <;> (try split) <;> omega

/-- Strictly ascending keys. -/
abbrev Asc (C : Nat → Nat → Int) (l : List (Nat × Nat)) : Prop := l.Pairwise fun a b => C a.1 b.1 < 0

/-- The root is next to the key: everything to its left is below, everything to its right above. -/
def Adj (C : Nat → Nat → Int) (key : Nat) : STree → Prop
  | .nil => False
  | .node l _ _ r => (∀ x ∈ l.toList, C x.1 key < 0) ∧ ∀ x ∈ r.toList, 0 < C x.1 key

/-- The sequence of a parent and its subtrees. -/
def Frame.plug (f : Frame) (l : List (Nat × Nat)) : List (Nat × Nat) :=
  if f.left then l ++ (f.k, f.v) :: f.sib.toList else f.sib.toList ++ (f.k, f.v) :: l

/-- The parent is on the right side of the key. -/
def Frame.Ok (C : Nat → Nat → Int) (key : Nat) (f : Frame) : Prop :=
  if f.left then 0 < C f.k key ∧ ∀ x ∈ f.sib.toList, 0 < C x.1 key
  else C f.k key < 0 ∧ ∀ x ∈ f.sib.toList, C x.1 key < 0

theorem zig_spec {C key} {p : Frame} {l k v r} (hp : p.Ok C key) (ha : Adj C key (.node l k v r)) :
    (zig p l k v r).toList = p.plug (STree.node l k v r).toList ∧ Adj C key (zig p l k v r) := by
  obtain ⟨left, pk, pv, sib⟩ := p
  obtain ⟨h1, h2⟩ := ha
  cases left
  · simp [Frame.Ok] at hp
    simp only [zig, Frame.plug, STree.toList, Adj, Bool.false_eq_true, if_false]
    refine ⟨by simp, fun x hx => ?_, h2⟩
    rcases List.mem_append.1 hx with hx | hx
    · exact hp.2 x.1 x.2 hx
    · rcases List.mem_cons.1 hx with rfl | hx
      · exact hp.1
      · exact h1 x hx
  · simp [Frame.Ok] at hp
    simp only [zig, Frame.plug, STree.toList, Adj, if_true]
    refine ⟨by simp, h1, fun x hx => ?_⟩
    rcases List.mem_append.1 hx with hx | hx
    · exact h2 x hx
    · rcases List.mem_cons.1 hx with rfl | hx
      · exact hp.1
      · exact hp.2 x.1 x.2 hx

theorem zigzag_spec {C key} {p g : Frame} {l k v r} (hp : p.Ok C key) (hg : g.Ok C key)
    (ha : Adj C key (.node l k v r)) :
    (zigzag p g l k v r).toList = g.plug (p.plug (STree.node l k v r).toList) ∧
      Adj C key (zigzag p g l k v r) := by
  obtain ⟨pl, pk, pv, ps⟩ := p
  obtain ⟨gl, gk, gv, gs⟩ := g
  obtain ⟨h1, h2⟩ := ha
  cases pl <;> cases gl <;> simp [Frame.Ok] at hp hg <;>
    simp only [zigzag, Frame.plug, STree.toList, Adj, Bool.false_eq_true, Bool.and_false,
      Bool.false_and, Bool.and_true, Bool.not_false, Bool.not_true, if_false, if_true]
  all_goals
    refine ⟨by simp, ?_, ?_⟩ <;> intro x hx <;>
      (try simp only [List.mem_append, List.mem_cons] at hx) <;> grind

/-- What a call of `splay` establishes, in terms of the slots it may have changed. -/
def SplayPost (C : Nat → Nat → Int) (key : Nat) (t : STree) (depth : Nat) (p g : Option Frame) :
    SplayOut → Prop
  | .null => t = .nil
  | .here t' => p = none ∧ t'.toList = t.toList ∧ Adj C key t'
  | .up1 t' => ∃ p', p = some p' ∧ t'.toList = p'.plug t.toList ∧ Adj C key t'
  | .up2 t' => ∃ p' g', p = some p' ∧ g = some g' ∧ t'.toList = g'.plug (p'.plug t.toList) ∧
      Adj C key t'
  | .bal => maxSplayTreeDepth < depth + t.height

def OptOk (C : Nat → Nat → Int) (key : Nat) (p : Option Frame) : Prop := ∀ f, p = some f → f.Ok C key

theorem rotate_spec {C key t t' depth p g} (hp : OptOk C key p) (hg : OptOk C key g)
    (hl : t'.toList = t.toList) (ha : Adj C key t') :
    SplayPost C key t depth p g (rotate p g t') := by
  cases t' with
  | nil => exact ha.elim
  | node l k v r =>
    unfold rotate
    cases p with
    | none => exact ⟨rfl, hl, ha⟩
    | some p =>
      cases g with
      | none =>
        have := zig_spec (hp p rfl) ha
        exact ⟨p, rfl, by rw [this.1, hl], this.2⟩
      | some g =>
        have := zigzag_spec (hp p rfl) (hg g rfl) ha
        exact ⟨p, g, rfl, rfl, by rw [this.1, hl], this.2⟩

theorem splay_spec {cmp : Option (Nat → Nat → Int)} (hC : IsOrder (cmpKeys cmp)) (key : Nat)
    (t : STree) (depth : Nat) (p g : Option Frame) (hp : OptOk (cmpKeys cmp) key p)
    (hg : OptOk (cmpKeys cmp) key g) (hs : Asc (cmpKeys cmp) t.toList) :
    SplayPost (cmpKeys cmp) key t depth p g (splay cmp key t depth p g) := by
  induction t generalizing depth p g with
  | nil => rfl
  | node l k v r ihl ihr =>
    have hs' := hs
    simp only [STree.toList, Asc, List.pairwise_append, List.pairwise_cons, List.mem_cons] at hs'
    obtain ⟨hl, ⟨hkr, hr⟩, hlk⟩ := hs'
    have hlk1 : ∀ x ∈ l.toList, cmpKeys cmp x.1 k < 0 := fun x hx => hlk x hx (k, v) (.inl rfl)
    unfold splay
    simp only []
    split
    · rename_i hc
      refine rotate_spec hp hg rfl ⟨fun x hx => ?_, fun x hx => ?_⟩
      · exact hC.lt_trans (hlk1 x hx) (by omega)
      · exact hC.gt_trans (by omega) (hkr x hx)
    rename_i hc
    split
    · rename_i hd
      simp only [SplayPost, STree.height]; omega
    by_cases hc1 : cmpKeys cmp k key > 0
    · simp only [if_pos hc1]
      have hrr : ∀ x ∈ r.toList, 0 < cmpKeys cmp x.1 key :=
        fun x hx => hC.gt_trans (by omega) (hkr x hx)
      have hF : (⟨true, k, v, r⟩ : Frame).Ok (cmpKeys cmp) key := by
        simp only [Frame.Ok, if_true]; exact ⟨by omega, hrr⟩
      have ih := ihl (depth + 1) (some ⟨true, k, v, r⟩) p (by intro f hf; cases hf; exact hF) hp hl
      cases hq : splay cmp key l (depth + 1) (some ⟨true, k, v, r⟩) p with
      | null =>
        rw [hq] at ih
        simp only [SplayPost] at ih
        subst ih
        exact rotate_spec hp hg rfl ⟨by simp [STree.toList], hrr⟩
      | here t' => rw [hq] at ih; simp [SplayPost] at ih
      | up1 t' =>
        rw [hq] at ih
        obtain ⟨p', h1, h2, h3⟩ := ih
        cases h1
        exact rotate_spec hp hg (by rw [h2]; simp [Frame.plug, STree.toList]) h3
      | up2 t' =>
        rw [hq] at ih
        obtain ⟨p', g', h1, h2, h3, h4⟩ := ih
        cases h1; subst h2
        exact ⟨g', rfl, by rw [h3]; simp [Frame.plug, STree.toList], h4⟩
      | bal => rw [hq] at ih; simp only [SplayPost, STree.height] at ih ⊢; omega
    · simp only [if_neg hc1]
      have hll : ∀ x ∈ l.toList, cmpKeys cmp x.1 key < 0 :=
        fun x hx => hC.lt_trans (hlk1 x hx) (by omega)
      have hF : (⟨false, k, v, l⟩ : Frame).Ok (cmpKeys cmp) key := by
        simp only [Frame.Ok, Bool.false_eq_true, if_false]; exact ⟨by omega, hll⟩
      have ih := ihr (depth + 1) (some ⟨false, k, v, l⟩) p (by intro f hf; cases hf; exact hF) hp hr
      cases hq : splay cmp key r (depth + 1) (some ⟨false, k, v, l⟩) p with
      | null =>
        rw [hq] at ih
        simp only [SplayPost] at ih
        subst ih
        exact rotate_spec hp hg rfl ⟨hll, by simp [STree.toList]⟩
      | here t' => rw [hq] at ih; simp [SplayPost] at ih
      | up1 t' =>
        rw [hq] at ih
        obtain ⟨p', h1, h2, h3⟩ := ih
        cases h1
        exact rotate_spec hp hg (by rw [h2]; simp [Frame.plug, STree.toList]) h3
      | up2 t' =>
        rw [hq] at ih
        obtain ⟨p', g', h1, h2, h3, h4⟩ := ih
        cases h1; subst h2
        exact ⟨g', rfl, by rw [h3]; simp [Frame.plug, STree.toList], h4⟩
      | bal => rw [hq] at ih; simp only [SplayPost, STree.height] at ih ⊢; omega

/-! ### Balancing -/

theorem iter_to_up (cap : Nat) (t : STree) (ht : t ≠ .nil) : ∀ (st : List (STree × Trans))
    (out : List (Nat × Nat)) (n : Nat), st.length + t.height ≤ cap → out.length + t.size ≤ cap →
    iterLoop cap (n + (4 * t.size - 1)) ((t, .left) :: st) out =
      iterLoop cap n ((t, .up) :: st) (out ++ t.toList) := by
  induction t with
  | nil => exact absurd rfl ht
  | node l k v r ihl ihr =>
    intro st out n hst hout
    simp only [STree.height, STree.size] at hst hout
    -- from the left transition to the down transition
    have A : ∀ m, iterLoop cap (m + 4 * l.size + 1) ((.node l k v r, .left) :: st) out =
        iterLoop cap m ((.node l k v r, .down) :: st) (out ++ l.toList) := by
      intro m
      cases l with
      | nil => simp [iterLoop, iterStep, STree.size, STree.toList]
      | node ll lk lv lr =>
        have := ihl (by simp) ((.node (.node ll lk lv lr) k v r, .down) :: st) out (m + 1)
          (by simp; omega) (by omega)
        have e : m + 4 * (STree.node ll lk lv lr).size + 1 =
            (m + 1 + (4 * (STree.node ll lk lv lr).size - 1)) + 1 := by
          simp [STree.size]; omega
        rw [e, iterLoop]
        have hc : st.length + 1 < cap := by simp [STree.height] at hst; omega
        simp only [iterStep, hc, if_true, Res.ok_bind]
        rw [this]
        simp [iterLoop, iterStep]
    have B : ∀ m, iterLoop cap (m + 1) ((.node l k v r, .down) :: st) (out ++ l.toList) =
        iterLoop cap m ((.node l k v r, .right) :: st) (out ++ l.toList ++ [(k, v)]) := by
      intro m
      rw [iterLoop]
      have hc : (out ++ l.toList).length < cap := by simp [toList_length]; omega
      simp only [iterStep, hc, if_true, Res.ok_bind]
    have D : ∀ m, iterLoop cap (m + 4 * r.size + 1) ((.node l k v r, .right) :: st)
          (out ++ l.toList ++ [(k, v)]) =
        iterLoop cap m ((.node l k v r, .up) :: st) (out ++ (STree.node l k v r).toList) := by
      intro m
      cases r with
      | nil => simp [iterLoop, iterStep, STree.size, STree.toList]
      | node rl rk rv rr =>
        have := ihr (by simp) ((.node l k v (.node rl rk rv rr), .up) :: st)
          (out ++ l.toList ++ [(k, v)]) (m + 1) (by simp; omega)
          (by simp [toList_length]; omega)
        have e : m + 4 * (STree.node rl rk rv rr).size + 1 =
            (m + 1 + (4 * (STree.node rl rk rv rr).size - 1)) + 1 := by
          simp [STree.size]; omega
        rw [e, iterLoop]
        have hc : st.length + 1 < cap := by simp [STree.height] at hst; omega
        simp only [iterStep, hc, if_true, Res.ok_bind]
        rw [this]
        simp [iterLoop, iterStep, STree.toList]
    have e : n + (4 * (STree.node l k v r).size - 1) =
        ((n + 4 * r.size + 1) + 1) + 4 * l.size + 1 := by
      simp [STree.size]; omega
    rw [e, A, B, D]

theorem iter_spec (t : STree) (ht : t ≠ .nil) :
    iterLoop t.size (4 * t.size) [(t, .left)] [] = .ok t.toList := by
  have hs : 0 < t.size := by cases t with
    | nil => exact absurd rfl ht
    | node l k v r => simp [STree.size]; omega
  have := iter_to_up t.size t ht [] [] 1 (by simp; exact height_le_size t) (by simp)
  have e : 4 * t.size = 1 + (4 * t.size - 1) := by omega
  rw [e, this]
  cases t with
  | nil => exact absurd rfl ht
  | node l k v r => simp [iterLoop, iterStep]

theorem link_spec (a : List (Nat × Nat)) (n : Nat) : ∀ low high, low ≤ high → high < a.length →
    high - low < n → (linkNodes a n low high).Ok fun t =>
      t.toList = (a.drop low).take (high + 1 - low) ∧ 2 ^ (t.height - 1) ≤ high + 1 - low ∧
      t ≠ .nil := by
  induction n with
  | zero => intro low high _ _ h; omega
  | succ n ih =>
    intro low high h1 h2 h3
    unfold linkNodes
    simp only []
    generalize hb : low + (high - low) / 2 = b
    have hbl : b < a.length := by omega
    rw [List.getElem?_eq_getElem hbl]
    cases hkv : a[b] with | mk k v =>
    simp only []
    have hL : (if low + 1 > b then Res.ok STree.nil else linkNodes a n low (b - 1)).Ok fun t =>
        t.toList = (a.drop low).take (b - low) ∧ 2 ^ t.height ≤ high + 1 - low := by
      split
      · refine ⟨_, rfl, ?_, ?_⟩
        · have : b - low = 0 := by omega
          simp [STree.toList, this]
        · simp [STree.height]; omega
      · obtain ⟨t, e, t1, t2, t3⟩ := ih low (b - 1) (by omega) (by omega) (by omega)
        refine ⟨t, e, ?_, ?_⟩
        · rw [t1]; congr 1; omega
        · have hh : 1 ≤ t.height := by cases t with
            | nil => exact absurd rfl t3
            | node => simp [STree.height]
          have : t.height = (t.height - 1) + 1 := by omega
          rw [this, Nat.pow_succ]; omega
    have hR : (if b + 1 > high then Res.ok STree.nil else linkNodes a n (b + 1) high).Ok fun t =>
        t.toList = (a.drop (b + 1)).take (high - b) ∧ 2 ^ t.height ≤ high + 1 - low := by
      split
      · refine ⟨_, rfl, ?_, ?_⟩
        · have : high - b = 0 := by omega
          simp [STree.toList, this]
        · simp [STree.height]; omega
      · obtain ⟨t, e, t1, t2, t3⟩ := ih (b + 1) high (by omega) (by omega) (by omega)
        refine ⟨t, e, ?_, ?_⟩
        · rw [t1]; congr 1; omega
        · have hh : 1 ≤ t.height := by cases t with
            | nil => exact absurd rfl t3
            | node => simp [STree.height]
          have : t.height = (t.height - 1) + 1 := by omega
          rw [this, Nat.pow_succ]; omega
    obtain ⟨l, el, l1, l2⟩ := hL
    obtain ⟨r, er, r1, r2⟩ := hR
    rw [el, Res.ok_bind, er]
    refine ⟨_, rfl, ?_, ?_, by simp⟩
    · simp only [STree.toList]
      rw [l1, r1, ← hkv]
      have e1 : (a.drop low).take (high + 1 - low) =
          (a.drop low).take (b - low) ++ ((a.drop low).drop (b - low)).take (high + 1 - b) := by
        have : high + 1 - low = (b - low) + (high + 1 - b) := by omega
        rw [this, List.take_add]
      rw [e1, List.drop_drop]
      have : low + (b - low) = b := by omega
      rw [this, List.drop_eq_getElem_cons hbl]
      have : high + 1 - b = (high - b) + 1 := by omega
      rw [this, List.take_succ_cons]
    · simp only [STree.height, Nat.add_sub_cancel_left]
      rcases Nat.le_total l.height r.height with h | h
      · rw [Nat.max_eq_right h]; exact r2
      · rw [Nat.max_eq_left h]; exact l2

/-! ### The splay-tree object -/

/-- The state of a splay tree that stores the bindings `l`. -/
structure SInv (cmp : Option (Nat → Nat → Int)) (s : SplayTree) (l : SMap) : Prop where
  list : s.root.toList = l
  asc : Asc (cmpKeys cmp) l
  nodes : s.nodes = l.length
  cache : cmp = none → s.key ≠ 0 → s.root ≠ .nil → Adj (cmpKeys cmp) s.key s.root

theorem splayTop_spec {cmp : Option (Nat → Nat → Int)} (hC : IsOrder (cmpKeys cmp)) {s l}
    (h : SInv cmp s l) (hn : s.root ≠ .nil) (key : Nat) :
    (∃ t, splayTop cmp s key = .ok (true, { s with root := t }) ∧ t.toList = l ∧
      Adj (cmpKeys cmp) key t) ∨
    (splayTop cmp s key = .ok (false, s) ∧ maxSplayTreeDepth < s.root.height) := by
  have := splay_spec hC key s.root 0 none none (by intro f hf; cases hf) (by intro f hf; cases hf)
    (h.list ▸ h.asc)
  unfold splayTop
  cases hq : splay cmp key s.root 0 none none with
  | null => rw [hq] at this; exact absurd this hn
  | here t => rw [hq] at this; exact .inl ⟨t, rfl, this.2.1.trans h.list, this.2.2⟩
  | up1 t => rw [hq] at this; obtain ⟨p', h1, _⟩ := this; cases h1
  | up2 t => rw [hq] at this; obtain ⟨p', g', h1, _⟩ := this; cases h1
  | bal => rw [hq] at this; exact .inr ⟨rfl, by simpa [SplayPost] using this⟩

theorem balance_spec {cmp : Option (Nat → Nat → Int)} {s l} (h : SInv cmp s l)
    (hd : maxSplayTreeDepth < s.root.height) (hsz : l.length < 2 ^ 64) :
    (balanceSplayTree s).Ok fun s' => s'.root.toList = l ∧ s'.root ≠ .nil ∧
      s'.root.height ≤ maxSplayTreeDepth ∧ s'.nodes = s.nodes ∧ s'.next = s.next := by
  have hsize : s.nodes = s.root.size := by rw [h.nodes, ← h.list, toList_length]
  have hh := height_le_size s.root
  have hm : maxSplayTreeDepth = 1024 := rfl
  have hn : s.root ≠ .nil := by intro e; rw [e] at hd; simp [STree.height] at hd
  unfold balanceSplayTree
  rw [if_neg (by omega), hsize, iter_spec _ hn]
  simp only [Res.ok_bind]
  obtain ⟨t, e, t1, t2, t3⟩ := link_spec s.root.toList (s.root.size + 1) 0 (s.root.size - 1)
    (by omega) (by rw [toList_length]; omega) (by omega)
  rw [e]
  refine ⟨_, rfl, ?_, t3, ?_, rfl, rfl⟩
  · simp only []
    rw [t1, ← h.list, List.drop_zero, List.take_of_length_le (by rw [toList_length]; omega)]
  · simp only []
    have hlen : s.root.size = l.length := by rw [← h.list, toList_length]
    rcases Nat.lt_or_ge maxSplayTreeDepth t.height with hgt | hle
    · exfalso
      have h1 : 2 ^ 64 ≤ 2 ^ (t.height - 1) := Nat.pow_le_pow_right (by omega) (by omega)
      omega
    · exact hle

theorem splaySplayTree_spec {cmp : Option (Nat → Nat → Int)} (hC : IsOrder (cmpKeys cmp)) {s l}
    (h : SInv cmp s l) (hn : s.root ≠ .nil) (hsz : l.length < 2 ^ 64) (key : Nat) :
    (splaySplayTree cmp s key).Ok fun s' => SInv cmp s' l ∧ Adj (cmpKeys cmp) key s'.root ∧
      s'.next = s.next := by
  unfold splaySplayTree
  cases hr : s.root with
  | nil => exact absurd hr hn
  | node rl rk rv rr =>
    simp only []
    split
    · rename_i hk
      refine ⟨s, rfl, h, ?_, rfl⟩
      unfold isSplayed at hk
      split at hk
      · simp at hk
      rename_i hk0
      cases hcmp : cmp with
      | none =>
        subst hcmp
        simp only [beq_iff_eq] at hk
        rw [← hk]; exact h.cache rfl hk0 hn
      | some c =>
        subst hcmp
        simp only [beq_iff_eq] at hk
        have hc0 : cmpKeys (some c) rk key = 0 := hk
        have hs := h.asc
        rw [← h.list, hr] at hs
        simp only [STree.toList, Asc, List.pairwise_append, List.pairwise_cons, List.mem_cons] at hs
        obtain ⟨-, ⟨hkr, -⟩, hlk⟩ := hs
        rw [hr]
        refine ⟨fun x hx => ?_, fun x hx => ?_⟩
        · have := hlk x hx (rk, rv) (.inl rfl)
          exact hC.lt_trans this (Int.le_of_eq hc0)
        · exact hC.gt_trans (by omega) (hkr x hx)
    · rcases splayTop_spec hC h hn key with ⟨t, e, t1, t2⟩ | ⟨e, hd⟩
      · rw [e]
        refine ⟨_, rfl, ⟨t1, h.asc, h.nodes, fun _ _ _ => t2⟩, t2, rfl⟩
      · rw [e]
        simp only [Res.ok_bind, Bool.false_eq_true, if_false]
        unfold splayAgain
        refine (balance_spec h hd hsz).bind fun s' hs' => ?_
        obtain ⟨b1, b2, b3, b4, b5⟩ := hs'
        -- the key cache of the balanced tree plays no role
        have h' : SInv cmp { s' with key := 0 } l :=
          ⟨b1, h.asc, b4.trans h.nodes, fun _ h0 _ => absurd rfl h0⟩
        rcases splayTop_spec hC h' b2 key with ⟨t, e, t1, t2⟩ | ⟨e, hd'⟩
        · have e' : splayTop cmp s' key = .ok (true, { s' with root := t }) := by
            unfold splayTop at e ⊢
            simp only [] at e
            split at e <;> simp_all
          rw [e']
          exact ⟨_, rfl, ⟨t1, h.asc, b4.trans h.nodes, fun _ _ _ => t2⟩, t2, b5⟩
        · exact absurd hd' (by simp only []; omega)

/-! ### Operations -/

theorem adj_cases {C : Nat → Nat → Int} {key : Nat} {t : STree} (h : Adj C key t) :
    ∃ l k v r, t = .node l k v r ∧ (∀ x ∈ l.toList, C x.1 key < 0) ∧
      ∀ x ∈ r.toList, 0 < C x.1 key := by
  cases t with
  | nil => exact h.elim
  | node l k v r => exact ⟨l, k, v, r, rfl, h.1, h.2⟩

section
variable {C : Nat → Nat → Int} {L R : List (Nat × Nat)} {key k v : Nat}
  (hL : ∀ x ∈ L, C x.1 key < 0) (hR : ∀ x ∈ R, 0 < C x.1 key)
include hL hR

theorem smap_get_split : SMap.get C (L ++ (k, v) :: R) key = if C k key = 0 then v else 0 := by
  unfold SMap.get
  have h1 : L.find? (fun b => C b.1 key == 0) = none := by
    rw [List.find?_eq_none]; intro x hx; have := hL x hx; simp; omega
  have h2 : R.find? (fun b => C b.1 key == 0) = none := by
    rw [List.find?_eq_none]; intro x hx; have := hR x hx; simp; omega
  rw [List.find?_append, h1, Option.none_or]
  split
  · rw [List.find?_cons_of_pos (by simpa)]; rfl
  · rw [List.find?_cons_of_neg (by simpa), h2]; rfl

theorem filter_lt_split : (L ++ (k, v) :: R).filter (fun b => decide (C b.1 key < 0)) =
    L ++ if C k key < 0 then [(k, v)] else [] := by
  rw [List.filter_append, List.filter_cons]
  have h1 : L.filter (fun b => decide (C b.1 key < 0)) = L := by
    rw [List.filter_eq_self]; intro x hx; simpa using hL x hx
  have h2 : R.filter (fun b => decide (C b.1 key < 0)) = [] := by
    rw [List.filter_eq_nil_iff]; intro x hx; have := hR x hx; simp; omega
  rw [h1, h2]; simp

theorem filter_gt_split : (L ++ (k, v) :: R).filter (fun b => decide (0 < C b.1 key)) =
    (if 0 < C k key then [(k, v)] else []) ++ R := by
  rw [List.filter_append, List.filter_cons]
  have h1 : R.filter (fun b => decide (0 < C b.1 key)) = R := by
    rw [List.filter_eq_self]; intro x hx; simpa using hR x hx
  have h2 : L.filter (fun b => decide (0 < C b.1 key)) = [] := by
    rw [List.filter_eq_nil_iff]; intro x hx; have := hL x hx; simp; omega
  rw [h1, h2]; simp; split <;> rfl

theorem smap_remove_split : SMap.remove C (L ++ (k, v) :: R) key =
    L ++ (if C k key = 0 then [] else [(k, v)]) ++ R := by
  unfold SMap.remove
  rw [List.filter_append, List.filter_cons]
  have h1 : R.filter (fun b => C b.1 key != 0) = R := by
    rw [List.filter_eq_self]; intro x hx; have := hR x hx; simp; omega
  have h2 : L.filter (fun b => C b.1 key != 0) = L := by
    rw [List.filter_eq_self]; intro x hx; have := hL x hx; simp; omega
  rw [h1, h2]; split <;> rename_i h <;> split <;> simp_all
end

theorem put_asc {C : Nat → Nat → Int} (hC : IsOrder C) {s : SMap} (h : Asc C s) (k v : Nat) :
    Asc C (s.put C k v) := by
  unfold SMap.put Asc
  rw [List.pairwise_append, List.pairwise_cons]
  refine ⟨h.filter _, ⟨fun x hx => ?_, h.filter _⟩, fun x hx y hy => ?_⟩
  · have := (List.mem_filter.1 hx).2
    exact (hC.swap _ _).2 (by simpa using this)
  · have h1 : C x.1 k < 0 := by simpa using (List.mem_filter.1 hx).2
    rcases List.mem_cons.1 hy with rfl | hy
    · exact h1
    · have h2 : 0 < C y.1 k := by simpa using (List.mem_filter.1 hy).2
      have h3 := (hC.swap k y.1).2 h2
      exact hC.lt_trans h1 (by omega)

theorem remove_asc {C : Nat → Nat → Int} {s : SMap} (h : Asc C s) (k : Nat) :
    Asc C (s.remove C k) := h.filter _

theorem hangRight_toList (right t : STree) (ht : t ≠ .nil) :
    (hangRight right t).toList = t.toList ++ right.toList := by
  induction t with
  | nil => exact absurd rfl ht
  | node l k v r _ ihr =>
    cases r with
    | nil => simp [hangRight, STree.toList]
    | node rl rk rv rr =>
      rw [hangRight, STree.toList, ihr (by simp)]
      · simp [STree.toList]
      · simp

theorem joinSubtrees_toList (l r : STree) : (joinSubtrees l r).toList = l.toList ++ r.toList := by
  unfold joinSubtrees
  split
  · simp [STree.toList]
  · simp [STree.toList]
  · rename_i hl hr
    exact hangRight_toList _ _ hl

theorem firstKey_spec (t : STree) : firstKey t = ((t.toList.head?).map Prod.fst).getD 0 := by
  induction t with
  | nil => rfl
  | node l k v r ihl _ =>
    cases l with
    | nil => rfl
    | node ll lk lv lr =>
      rw [firstKey, ihl]
      · simp only [STree.toList]
        cases ll.toList <;> simp
      · simp

theorem addValue_spec {cmp : Option (Nat → Nat → Int)} (hC : IsOrder (cmpKeys cmp)) {s l}
    (h : SInv cmp s l) (hsz : l.length < 2 ^ 64) (key value : Nat) :
    (addValue cmp s key value).Ok fun s' => SInv cmp s' (SMap.put (cmpKeys cmp) l key value) ∧
      s'.next = s.next := by
  have hasc := put_asc hC h.asc key value
  unfold addValue
  by_cases hn : s.root = .nil
  · have hl : l = [] := by rw [← h.list, hn]; rfl
    have : splaySplayTree cmp s key = .ok s := by unfold splaySplayTree; rw [hn]
    rw [this]; simp only [Res.ok_bind, hn]
    subst hl
    refine ⟨_, rfl, ⟨rfl, hasc, ?_, fun _ h0 => absurd rfl h0⟩, rfl⟩
    simp [SMap.put, h.nodes]
  · refine (splaySplayTree_spec hC h hn hsz key).bind fun s' hs' => ?_
    obtain ⟨h', ha, hnx⟩ := hs'
    obtain ⟨tl, tk, tv, tr, ht, hL, hR⟩ := adj_cases ha
    have hl := h'.list
    rw [ht] at hl ⊢
    simp only [STree.toList] at hl
    have hput : SMap.put (cmpKeys cmp) l key value =
        (tl.toList ++ if cmpKeys cmp tk key < 0 then [(tk, tv)] else []) ++ (key, value) ::
          ((if 0 < cmpKeys cmp tk key then [(tk, tv)] else []) ++ tr.toList) := by
      unfold SMap.put
      rw [← hl, filter_lt_split hL hR, filter_gt_split hL hR]
    have hlen : l.length = tl.toList.length + tr.toList.length + 1 := by rw [← hl]; simp; omega
    simp only []
    split
    · rename_i hc
      rw [hput] at hasc ⊢
      simp only [hc, Int.lt_irrefl, if_false, List.append_nil, List.nil_append] at hasc ⊢
      refine ⟨_, rfl, ⟨rfl, hasc, ?_, ?_⟩, hnx⟩
      · simp [h'.nodes, hlen]; omega
      · intro h1 h2 _
        have := h'.cache h1 h2 (by rw [ht]; simp)
        rw [ht] at this
        exact this
    split
    · rename_i hc0 hc
      rw [hput] at hasc ⊢
      have h0 : ¬ 0 < cmpKeys cmp tk key := by omega
      simp only [hc, h0, if_true, if_false, List.nil_append] at hasc ⊢
      refine ⟨_, rfl, ⟨by simp [STree.toList], hasc, ?_, fun _ h0 => absurd rfl h0⟩, hnx⟩
      simp [h'.nodes, hlen]; omega
    · rename_i hc0 hc
      rw [hput] at hasc ⊢
      have h0 : 0 < cmpKeys cmp tk key := by omega
      simp only [hc, h0, if_true, if_false, List.append_nil] at hasc ⊢
      refine ⟨_, rfl, ⟨by simp [STree.toList], hasc, ?_, fun _ h0 => absurd rfl h0⟩, hnx⟩
      simp [h'.nodes, hlen]; omega

theorem getFromSplay_spec {cmp : Option (Nat → Nat → Int)} (hC : IsOrder (cmpKeys cmp)) {s l}
    (h : SInv cmp s l) (hsz : l.length < 2 ^ 64) (key : Nat) :
    (getFromSplay cmp s key).Ok fun o => o.1 = SMap.get (cmpKeys cmp) l key ∧ SInv cmp o.2 l ∧
      o.2.next = s.next := by
  unfold getFromSplay
  by_cases hn : s.root = .nil
  · have hl : l = [] := by rw [← h.list, hn]; rfl
    rw [hn]
    subst hl
    exact ⟨_, rfl, rfl, h, rfl⟩
  · have key2 : ((do
        let s ← splaySplayTree cmp s key
        match s.root with
        | .nil => Res.ub
        | .node _ k v _ => if cmpKeys cmp k key = 0 then .ok (v, s) else .ok (0, s) :
          Res (Nat × SplayTree))).Ok fun o => o.1 = SMap.get (cmpKeys cmp) l key ∧ SInv cmp o.2 l ∧
      o.2.next = s.next := by
      refine (splaySplayTree_spec hC h hn hsz key).bind fun s' hs' => ?_
      obtain ⟨h', ha, hnx⟩ := hs'
      obtain ⟨tl, tk, tv, tr, ht, hL, hR⟩ := adj_cases ha
      have hl := h'.list
      rw [ht] at hl ⊢
      simp only [STree.toList] at hl
      rw [← hl, smap_get_split hL hR, hl]
      simp only []
      split
      · exact ⟨_, rfl, rfl, h', hnx⟩
      · exact ⟨_, rfl, rfl, h', hnx⟩
    cases hr : s.root with
    | nil => exact absurd hr hn
    | node => exact key2

theorem removeFromSplay_spec {cmp : Option (Nat → Nat → Int)} (hC : IsOrder (cmpKeys cmp)) {s l}
    (h : SInv cmp s l) (hsz : l.length < 2 ^ 64) (key : Nat) :
    (removeFromSplay cmp s key).Ok fun o => o.1 = SMap.get (cmpKeys cmp) l key ∧
      (o.2.1 = true ↔ ∃ b ∈ l, cmpKeys cmp b.1 key = 0) ∧
      SInv cmp o.2.2 (SMap.remove (cmpKeys cmp) l key) ∧ o.2.2.next = s.next := by
  unfold removeFromSplay
  by_cases hn : s.root = .nil
  · have hl : l = [] := by rw [← h.list, hn]; rfl
    rw [hn]
    subst hl
    exact ⟨_, rfl, rfl, by simp, h, rfl⟩
  · have key2 : ((do
        let s ← splaySplayTree cmp s key
        match s.root with
        | .nil => Res.ub
        | .node l k v r =>
          if cmpKeys cmp k key ≠ 0 then .ok (0, false, { s with key := 0 })
          else .ok (v, true, { s with root := joinSubtrees l r, key := 0, nodes := s.nodes - 1 }) :
        Res (Nat × Bool × SplayTree))).Ok fun o => o.1 = SMap.get (cmpKeys cmp) l key ∧
          (o.2.1 = true ↔ ∃ b ∈ l, cmpKeys cmp b.1 key = 0) ∧
          SInv cmp o.2.2 (SMap.remove (cmpKeys cmp) l key) ∧ o.2.2.next = s.next := by
      refine (splaySplayTree_spec hC h hn hsz key).bind fun s' hs' => ?_
      obtain ⟨h', ha, hnx⟩ := hs'
      obtain ⟨tl, tk, tv, tr, ht, hL, hR⟩ := adj_cases ha
      have hl := h'.list
      have hasc := remove_asc h.asc key
      rw [ht] at hl ⊢
      simp only [STree.toList] at hl
      have hg := smap_get_split (v := tv) (k := tk) hL hR
      have hr := smap_remove_split (v := tv) (k := tk) hL hR
      have hlen : l.length = tl.toList.length + tr.toList.length + 1 := by rw [← hl]; simp; omega
      rw [hl] at hg hr
      rw [hg, hr]
      rw [hr] at hasc
      simp only []
      have hex : (∃ b ∈ l, cmpKeys cmp b.1 key = 0) ↔ cmpKeys cmp tk key = 0 := by
        rw [← hl]
        constructor
        · rintro ⟨b, hb, hb0⟩
          rcases List.mem_append.1 hb with hb | hb
          · have := hL b hb; omega
          · rcases List.mem_cons.1 hb with rfl | hb
            · exact hb0
            · have := hR b hb; omega
        · intro h0; exact ⟨(tk, tv), by simp, h0⟩
      rw [hex]
      by_cases hc : cmpKeys cmp tk key = 0
      · simp only [hc, ne_eq, not_true_eq_false, if_false, if_true] at hasc ⊢
        refine ⟨_, rfl, rfl, by simp, ⟨?_, hasc, ?_, fun _ h0 => absurd rfl h0⟩, hnx⟩
        · simp [joinSubtrees_toList]
        · simp [h'.nodes, hlen]
      · simp only [hc, ne_eq, not_false_eq_true, if_false, if_true] at hasc ⊢
        refine ⟨_, rfl, rfl, by simp, ⟨?_, hasc, ?_, fun _ h0 => absurd rfl h0⟩, hnx⟩
        · simp [ht, STree.toList]
        · simp [h'.nodes, hlen]; omega
    cases hr : s.root with
    | nil => exact absurd hr hn
    | node => exact key2

/-- An element of the sequence with the searched key is the root. -/
theorem adj_root {C : Nat → Nat → Int} {tl tr : List (Nat × Nat)} {tk tv key : Nat}
    {A B : List (Nat × Nat)} {b : Nat × Nat} (hC : IsOrder C)
    (hL : ∀ x ∈ tl, C x.1 key < 0) (hR : ∀ x ∈ tr, 0 < C x.1 key)
    (hasc : Asc C (A ++ b :: B)) (hb : C b.1 key = 0) (he : tl ++ (tk, tv) :: tr = A ++ b :: B) :
    tl = A ∧ (tk, tv) = b ∧ tr = B := by
  have hA : ∀ x ∈ A, C x.1 key < 0 := fun x hx =>
    hC.lt_trans ((List.pairwise_append.1 hasc).2.2 x hx b (by simp)) (by omega)
  have hB : ∀ x ∈ B, 0 < C x.1 key := fun x hx =>
    hC.gt_trans (a := b.1) (by omega)
      ((List.pairwise_cons.1 (List.pairwise_append.1 hasc).2.1).1 x hx)
  have hmem : b ∈ tl ++ (tk, tv) :: tr := by rw [he]; simp
  have hbt : b = (tk, tv) := by
    rcases List.mem_append.1 hmem with h | h
    · have := hL b h; omega
    · rcases List.mem_cons.1 h with h | h
      · exact h
      · have := hR b h; omega
  have key : ∀ (l1 l2 r1 r2 : List (Nat × Nat)) (c : Nat × Nat),
      (∀ x ∈ l1, C x.1 key < 0) → (∀ x ∈ l2, C x.1 key < 0) → C c.1 key = 0 →
      l1 ++ c :: r1 = l2 ++ c :: r2 → l1 = l2 ∧ r1 = r2 := by
    intro l1
    induction l1 with
    | nil =>
      intro l2 r1 r2 c _ h2 h3 h4
      cases l2 with
      | nil => simpa using h4
      | cons y l2 =>
        simp at h4
        have := h2 y (by simp)
        rw [← h4.1] at this; omega
    | cons x l1 ih =>
      intro l2 r1 r2 c h1 h2 h3 h4
      cases l2 with
      | nil =>
        simp at h4
        have := h1 x (by simp)
        rw [h4.1] at this; omega
      | cons y l2 =>
        simp only [List.cons_append, List.cons.injEq] at h4
        obtain ⟨e1, e2⟩ := ih l2 r1 r2 c (fun x hx => h1 x (by simp [hx]))
          (fun x hx => h2 x (by simp [hx])) h3 h4.2
        exact ⟨by rw [h4.1, e1], e2⟩
  rw [← hbt] at he
  obtain ⟨e1, e2⟩ := key tl A tr B b hL hA hb he
  exact ⟨e1, hbt.symm, e2⟩

/-- A step of the iterator, when the upcoming key is in the tree. -/
theorem nextInSplay_spec {cmp : Option (Nat → Nat → Int)} (hC : IsOrder (cmpKeys cmp)) {s l}
    (h : SInv cmp s l) (hsz : l.length < 2 ^ 64) {A B : List (Nat × Nat)} {b : Nat × Nat}
    (hl : l = A ++ b :: B) (hnx : s.next = b.1) (hb0 : b.1 ≠ 0) :
    (nextInSplay cmp s).Ok fun o => o.1 = some b ∧ SInv cmp o.2 l ∧
      o.2.next = (B.head?.map Prod.fst).getD 0 := by
  have hn : s.root ≠ .nil := by
    intro e
    have := h.list
    rw [e, hl] at this; simp [STree.toList] at this
  unfold nextInSplay
  have key2 : ((do
      let s ← splaySplayTree cmp s s.next
      match s.root with
      | .nil => Res.ub
      | .node _ k v r => .ok (some (k, v), { s with next := firstKey r }) :
      Res (Option (Nat × Nat) × SplayTree))).Ok fun o => o.1 = some b ∧ SInv cmp o.2 l ∧
      o.2.next = (B.head?.map Prod.fst).getD 0 := by
    refine (splaySplayTree_spec hC h hn hsz s.next).bind fun s' hs' => ?_
    obtain ⟨h', ha, -⟩ := hs'
    obtain ⟨tl, tk, tv, tr, ht, hL, hR⟩ := adj_cases ha
    have hl' := h'.list
    rw [ht] at hl' ⊢
    simp only [STree.toList] at hl'
    rw [hl] at hl'
    obtain ⟨e1, e2, e3⟩ := adj_root hC hL hR (hl ▸ h.asc) (by rw [hnx]; exact hC.refl _) hl'
    refine ⟨_, rfl, by rw [e2], ⟨?_, h'.asc, h'.nodes, ?_⟩, ?_⟩
    · rw [← h'.list, ht]
    · intro h1 h2 h3
      have := h'.cache h1 h2 (by rw [ht]; simp)
      rw [ht] at this; exact this
    · simp only []; rw [firstKey_spec, e3]
  cases hr : s.root with
  | nil => exact absurd hr hn
  | node =>
    simp only []
    rw [if_neg (by omega)]
    exact key2

theorem nextInSplay_end {cmp : Option (Nat → Nat → Int)} {s : SplayTree} (h0 : s.next = 0) :
    nextInSplay cmp s = .ok (none, s) := by
  unfold nextInSplay
  cases s.root with
  | nil => rfl
  | node => simp only [if_pos h0]

/-- A step of the iterator in any state (the upcoming key may have been removed meanwhile). -/
theorem nextInSplay_any {cmp : Option (Nat → Nat → Int)} (hC : IsOrder (cmpKeys cmp)) {s l}
    (h : SInv cmp s l) (hsz : l.length < 2 ^ 64) :
    (nextInSplay cmp s).Ok fun o => SInv cmp o.2 l := by
  by_cases h0 : s.next = 0
  · rw [nextInSplay_end h0]; exact ⟨_, rfl, h⟩
  unfold nextInSplay
  cases hr : s.root with
  | nil => exact ⟨_, rfl, h⟩
  | node rl rk rv rr =>
    simp only []
    rw [if_neg h0]
    refine (splaySplayTree_spec hC h (by rw [hr]; simp) hsz s.next).bind fun s' hs' => ?_
    obtain ⟨h', ha, -⟩ := hs'
    obtain ⟨tl, tk, tv, tr, ht, hL, hR⟩ := adj_cases ha
    rw [ht]
    refine ⟨_, rfl, ?_, h'.asc, h'.nodes, ?_⟩
    · rw [← h'.list, ht]
    · intro h1 h2 h3
      have := h'.cache h1 h2 (by rw [ht]; simp)
      rw [ht] at this; exact this

theorem removeValueLoop_spec {cmp : Option (Nat → Nat → Int)} (hC : IsOrder (cmpKeys cmp))
    (value : Nat) (n : Nat) : ∀ {s l} (A B : List (Nat × Nat)), SInv cmp s l → l.length < 2 ^ 64 →
    l = A ++ B → (∀ x ∈ A, x.2 ≠ value) → (∀ x ∈ l, x.1 ≠ 0) → B.length < n →
    (removeValueLoop cmp value n s ((B.head?.map Prod.fst).getD 0)).Ok fun o =>
      o.1 = (SMap.step (cmpKeys cmp) l (.removeValue value)).1 ∧
      SInv cmp o.2.2 (SMap.step (cmpKeys cmp) l (.removeValue value)).2 ∧
      (o.2.1 = true ↔ ∃ b ∈ l, b.2 = value) := by
  induction n with
  | zero => intro s l A B _ _ _ _ _ h; omega
  | succ n ih =>
    intro s l A B h hsz hl hA hnz hn
    have hfA : A.find? (fun b => b.2 == value) = none := by
      rw [List.find?_eq_none]; intro x hx; simpa using hA x hx
    cases B with
    | nil =>
      unfold removeValueLoop
      rw [List.append_nil] at hl
      subst hl
      simp only [List.head?_nil, Option.map_none, Option.getD_none, if_true]
      refine ⟨_, rfl, ?_, ?_, ?_⟩
      · simp only [SMap.step, hfA]
      · simp only [SMap.step, hfA]; exact h
      · simp only [Bool.false_eq_true, false_iff]
        rintro ⟨b, hb, hv⟩; exact hA b hb hv
    | cons b B =>
      have hb0 : b.1 ≠ 0 := hnz b (by rw [hl]; simp)
      have hroot : s.root ≠ .nil := by
        intro e
        have := h.list
        rw [e, hl] at this; simp [STree.toList] at this
      show Res.Ok _ (removeValueLoop cmp value (n + 1) s b.1)
      unfold removeValueLoop
      rw [if_neg hb0]
      refine (splaySplayTree_spec hC h hroot hsz b.1).bind fun s' hs' => ?_
      obtain ⟨h', ha, -⟩ := hs'
      obtain ⟨tl, tk, tv, tr, ht, hL, hR⟩ := adj_cases ha
      have hl' := h'.list
      rw [ht] at hl' ⊢
      simp only [STree.toList] at hl'
      rw [hl] at hl'
      obtain ⟨e1, e2, e3⟩ := adj_root hC hL hR (hl ▸ h.asc) (hC.refl _) hl'
      simp only []
      by_cases hv : tv = value
      · rw [if_pos hv]
        have hroot' : s'.root ≠ .nil := by rw [ht]; simp
        refine (splaySplayTree_spec hC h' hroot' hsz tk).bind fun s2 hs2 => ?_
        obtain ⟨h2, ha2, -⟩ := hs2
        obtain ⟨ul, uk, uv, ur, hu, hL2, hR2⟩ := adj_cases ha2
        have hl2 := h2.list
        rw [hu] at hl2 ⊢
        simp only [STree.toList] at hl2
        have htk : b.1 = tk := by rw [← e2]
        rw [hl] at hl2
        obtain ⟨f1, f2, f3⟩ := adj_root hC hL2 hR2 (hl ▸ h.asc) (by rw [htk]; exact hC.refl _) hl2
        have huk : uk = tk := by rw [← htk, ← f2]
        simp only []
        rw [if_neg (by rw [huk]; simp [hC.refl])]
        have hfind : l.find? (fun x => x.2 == value) = some b := by
          rw [hl, List.find?_append, hfA, Option.none_or, List.find?_cons_of_pos]
          rw [← e2]; simpa using hv
        have hrem : SMap.remove (cmpKeys cmp) l b.1 = A ++ B := by
          have hb' : b = (b.1, b.2) := rfl
          have h3 := smap_remove_split (C := cmpKeys cmp) (k := uk) (v := uv) hL2 hR2
          rw [hl2] at h3
          rw [htk, hl, h3, huk, if_pos (hC.refl _), f1, f3]; simp
        refine ⟨_, rfl, ?_, ?_, ?_⟩
        · simp only [SMap.step, hfind]; exact htk.symm
        · simp only [SMap.step, hfind]
          rw [hrem]
          refine ⟨by simp [joinSubtrees_toList, f1, f3], ?_, ?_, fun _ h0 => absurd rfl h0⟩
          · rw [← hrem]; exact remove_asc h.asc _
          · simp [h2.nodes, hl]
        · simp only [true_iff]
          exact ⟨b, by rw [hl]; simp, by rw [← e2]; exact hv⟩
      · rw [if_neg hv, firstKey_spec, e3]
        refine ih (A ++ [b]) B h' hsz (by simp [hl]) ?_ hnz (by simp at hn; omega)
        intro x hx
        rcases List.mem_append.1 hx with hx | hx
        · exact hA x hx
        · simp at hx; rw [hx, ← e2]; exact hv

theorem removeValue_spec {cmp : Option (Nat → Nat → Int)} (hC : IsOrder (cmpKeys cmp)) {s l}
    (h : SInv cmp s l) (hsz : l.length < 2 ^ 64) (hnz : ∀ x ∈ l, x.1 ≠ 0) (value : Nat) :
    (removeValueFromSplay cmp s value).Ok fun o =>
      o.1 = (SMap.step (cmpKeys cmp) l (.removeValue value)).1 ∧
      SInv cmp o.2.2 (SMap.step (cmpKeys cmp) l (.removeValue value)).2 ∧
      (o.2.1 = true ↔ ∃ b ∈ l, b.2 = value) := by
  unfold removeValueFromSplay
  by_cases hn : s.root = .nil
  · have hl : l = [] := by rw [← h.list, hn]; rfl
    rw [hn]
    subst hl
    exact ⟨_, rfl, rfl, h, by simp⟩
  · have := removeValueLoop_spec hC value (s.nodes + 1) [] l h hsz (by simp) (by simp) hnz
      (by rw [h.nodes]; omega)
    rw [← h.list, ← firstKey_spec, h.list] at this
    cases hr : s.root with
    | nil => exact absurd hr hn
    | node => rw [hr] at this; exact this

theorem put_last {C : Nat → Nat → Int} {l : SMap} {k v : Nat} (h : ∀ x ∈ l, C x.1 k < 0) :
    SMap.put C l k v = l ++ [(k, v)] := by
  unfold SMap.put
  have h1 : l.filter (fun b => decide (C b.1 k < 0)) = l := by
    rw [List.filter_eq_self]; intro x hx; simpa using h x hx
  have h2 : l.filter (fun b => decide (0 < C b.1 k)) = [] := by
    rw [List.filter_eq_nil_iff]; intro x hx; have := h x hx; simp; omega
  rw [h1, h2]

theorem cloneLoop_spec {cmp : Option (Nat → Nat → Int)} (hC : IsOrder (cmpKeys cmp))
    {ck cv : Nat → Nat} (hck : ∀ a b, cmpKeys cmp a b < 0 → cmpKeys cmp (ck a) (ck b) < 0)
    (n : Nat) : ∀ {s c l} (A B : List (Nat × Nat)), SInv cmp s l →
    SInv cmp c (A.map fun b => (ck b.1, cv b.2)) → l.length < 2 ^ 64 → l = A ++ B →
    (∀ x ∈ l, x.1 ≠ 0) → B.length < n →
    (cloneLoop cmp ck cv n s c ((B.head?.map Prod.fst).getD 0)).Ok fun o =>
      SInv cmp o.1 l ∧ SInv cmp o.2 (l.map fun b => (ck b.1, cv b.2)) := by
  induction n with
  | zero => intro s c l A B _ _ _ _ _ h; omega
  | succ n ih =>
    intro s c l A B h hc hsz hl hnz hn
    cases B with
    | nil =>
      rw [List.append_nil] at hl
      subst hl
      unfold cloneLoop
      simp only [List.head?_nil, Option.map_none, Option.getD_none, if_true]
      exact ⟨_, rfl, h, hc⟩
    | cons b B =>
      have hb0 : b.1 ≠ 0 := hnz b (by rw [hl]; simp)
      have hroot : s.root ≠ .nil := by
        intro e
        have := h.list
        rw [e, hl] at this; simp [STree.toList] at this
      show Res.Ok _ (cloneLoop cmp ck cv (n + 1) s c b.1)
      unfold cloneLoop
      rw [if_neg hb0]
      refine (splaySplayTree_spec hC h hroot hsz b.1).bind fun s' hs' => ?_
      obtain ⟨h', ha, -⟩ := hs'
      obtain ⟨tl, tk, tv, tr, ht, hL, hR⟩ := adj_cases ha
      have hl' := h'.list
      rw [ht] at hl' ⊢
      simp only [STree.toList] at hl'
      rw [hl] at hl'
      obtain ⟨e1, e2, e3⟩ := adj_root hC hL hR (hl ▸ h.asc) (hC.refl _) hl'
      simp only []
      have hlenA : (A.map fun b => (ck b.1, cv b.2)).length < 2 ^ 64 := by
        have : l.length = A.length + (B.length + 1) := by rw [hl]; simp
        simp; omega
      refine (addValue_spec hC hc hlenA (ck tk) (cv tv)).bind fun c' hc' => ?_
      rw [put_last] at hc'
      · rw [firstKey_spec, e3]
        refine ih (A ++ [b]) B h' ?_ hsz (by simp [hl]) hnz (by simp at hn; omega)
        have := hc'.1
        rw [← e2]; simpa using this
      · intro x hx
        obtain ⟨y, hy, rfl⟩ := List.mem_map.1 hx
        have h1 := (List.pairwise_append.1 (hl ▸ h.asc : Asc _ (A ++ b :: B))).2.2 y hy b (by simp)
        rw [← e2] at h1
        exact hck _ _ h1

theorem clone_spec {cmp : Option (Nat → Nat → Int)} (hC : IsOrder (cmpKeys cmp))
    {ck cv : Nat → Nat} (hck : ∀ a b, cmpKeys cmp a b < 0 → cmpKeys cmp (ck a) (ck b) < 0) {s l}
    (h : SInv cmp s l) (hsz : l.length < 2 ^ 64) (hnz : ∀ x ∈ l, x.1 ≠ 0) :
    (cloneSplayTree cmp ck cv s).Ok fun o => SInv cmp o.1 l ∧
      SInv cmp o.2 (l.map fun b => (ck b.1, cv b.2)) := by
  have hnew : SInv cmp newSplayTree [] :=
    ⟨rfl, List.Pairwise.nil, rfl, fun _ h0 => absurd rfl h0⟩
  unfold cloneSplayTree
  by_cases hn : s.root = .nil
  · have hl : l = [] := by rw [← h.list, hn]; rfl
    rw [hn]
    subst hl
    exact ⟨_, rfl, h, hnew⟩
  · have := cloneLoop_spec hC (cv := cv) hck (s.nodes + 1) [] l h hnew hsz (by simp) hnz
      (by rw [h.nodes]; omega)
    rw [← h.list, ← firstKey_spec, h.list] at this
    cases hr : s.root with
    | nil => exact absurd hr hn
    | node => rw [hr] at this; exact this

end Wizard

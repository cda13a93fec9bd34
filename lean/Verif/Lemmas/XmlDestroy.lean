import Verif.Model.XmlDestroy
import Verif.Props.XmlPrune
/-! Lemmas for C165: what `DestroyXMLTree` gives up. -/
namespace Wizard.XmlDes
open Wizard Wizard.XmlL Wizard.Spec.XmlTree Wizard.Props

/-- What hangs from a pointer along `child` and `ordered`. -/
inductive Bush where
  | nil
  | node (i : Nat) (down along : Bush)

def Bush.ids : Bush → List Nat
  | .nil => []
  | .node i d a => i :: (d.ids ++ a.ids)

def Bush.size : Bush → Nat
  | .nil => 0
  | .node _ d a => 1 + d.size + a.size

/-- The pointers are those of the bush. -/
def Shape (child ordered : Nat → Option Nat) : Option Nat → Bush → Prop
  | s, .nil => s = none
  | s, .node i d a => s = some i ∧ Shape child ordered (child i) d ∧ Shape child ordered (ordered i) a

theorem Shape.congr {c o c' o' : Nat → Option Nat} : ∀ {t : Bush} {s : Option Nat}, Shape c o s t → (∀ i ∈ t.ids, c' i = c i ∧ o' i = o i) → Shape c' o' s t := by
  intro t
  induction t with
  | nil => intro s h _; exact h
  | node i d a ihd iha =>
    intro s h e
    obtain ⟨h1, h2, h3⟩ := h
    have ei := e i (by simp [Bush.ids])
    refine ⟨h1, ?_, ?_⟩
    · rw [ei.1]; exact ihd h2 (fun j hj => e j (by simp [Bush.ids, hj]))
    · rw [ei.2]; exact iha h3 (fun j hj => e j (by simp [Bush.ids, hj]))

/-- What giving up a bush leaves: its nodes are gone, each once; nothing else changes. -/
structure Given (l l' : XmlLife) (ids : List Nat) : Prop where
  gone : ∃ g, l'.gone = g ++ l.gone ∧ g.Perm ids
  tables : l'.tables = l.tables
  whole : l'.whole = l.whole
  child : ∀ i, i ∉ ids → l'.heap.child i = l.heap.child i
  ordered : ∀ i, i ∉ ids → l'.heap.ordered i = l.heap.ordered i
  parent : l'.heap.parent = l.heap.parent
  size : l'.heap.size = l.heap.size

theorem Given.trans {l l' l'' : XmlLife} {a b c : List Nat} (h1 : Given l l' a) (h2 : Given l' l'' b) (hc : ∀ x, x ∈ c ↔ x ∈ a ∨ x ∈ b) (hp : (b ++ a).Perm c) : Given l l'' c where
  gone := by
    obtain ⟨g1, e1, p1⟩ := h1.gone
    obtain ⟨g2, e2, p2⟩ := h2.gone
    exact ⟨g2 ++ g1, by rw [e2, e1, List.append_assoc], (p2.append p1).trans hp⟩
  tables := h2.tables.trans h1.tables
  whole := h2.whole.trans h1.whole
  child := fun i hi => (h2.child i (fun h => hi ((hc i).2 (.inr h)))).trans (h1.child i (fun h => hi ((hc i).2 (.inl h))))
  ordered := fun i hi => (h2.ordered i (fun h => hi ((hc i).2 (.inr h)))).trans (h1.ordered i (fun h => hi ((hc i).2 (.inl h))))
  parent := h2.parent.trans h1.parent
  size := h2.size.trans h1.size

theorem Given.mem {l l' : XmlLife} {ids : List Nat} (h : Given l l' ids) (x : Nat) : x ∈ l'.gone ↔ x ∈ ids ∨ x ∈ l.gone := by
  obtain ⟨g, e, p⟩ := h.gone
  rw [e, List.mem_append, p.mem_iff]

theorem given_none (l : XmlLife) : Given l l [] := ⟨⟨[], rfl, .refl _⟩, rfl, rfl, fun _ _ => rfl, fun _ _ => rfl, rfl, rfl⟩

theorem given_free (l : XmlLife) (x : Nat) : Given l { l with gone := x :: l.gone } [x] := ⟨⟨[x], rfl, .refl _⟩, rfl, rfl, fun _ _ => rfl, fun _ _ => rfl, rfl, rfl⟩

/-- Giving up all that hangs from a pointer to nodes with parents. -/
theorem bush_destroyed : ∀ (n : Nat) (t : Bush), t.size ≤ n → ∀ (l : XmlLife) (s : Option Nat), Shape l.heap.child l.heap.ordered s t → t.ids.Nodup → (∀ i ∈ t.ids, i ∉ l.gone) →
    (∀ i ∈ t.ids, ∃ p, l.heap.parent i = some p) → ∀ f ≥ 3 * n + 1,
      (∃ l', destroyChild f l s = .ok l' ∧ Given l l' t.ids) ∧ (∃ l', destroyOrdered f l s = .ok l' ∧ Given l l' t.ids) := by
  intro n
  induction n with
  | zero =>
    intro t ht l s hs _ _ _ f hf
    cases t with
    | node i d a => simp only [Bush.size] at ht; omega
    | nil =>
      have : s = none := hs
      subst this
      obtain ⟨f, rfl⟩ : ∃ g, f = g + 1 := ⟨f - 1, by omega⟩
      exact ⟨⟨l, by simp [destroyChild], given_none l⟩, ⟨l, by simp [destroyOrdered], given_none l⟩⟩
  | succ n ih =>
    intro t ht l s hs hnd hlive hpar f hf
    cases t with
    | nil =>
      have : s = none := hs
      subst this
      obtain ⟨f, rfl⟩ : ∃ g, f = g + 1 := ⟨f - 1, by omega⟩
      exact ⟨⟨l, by simp [destroyChild], given_none l⟩, ⟨l, by simp [destroyOrdered], given_none l⟩⟩
    | node i d a =>
      obtain ⟨rfl, hd, ha⟩ := hs
      simp only [Bush.size] at ht
      simp only [Bush.ids, List.nodup_cons, List.mem_append, not_or, List.nodup_append] at hnd
      obtain ⟨⟨hid, hia⟩, hdn, han, hdis⟩ := hnd
      have hil : i ∉ l.gone := hlive i (by simp [Bush.ids])
      have hdl : ∀ j ∈ d.ids, j ∉ l.gone := fun j hj => hlive j (by simp [Bush.ids, hj])
      have hal : ∀ j ∈ a.ids, j ∉ l.gone := fun j hj => hlive j (by simp [Bush.ids, hj])
      obtain ⟨p, hp⟩ := hpar i (by simp [Bush.ids])
      have hdp : ∀ j ∈ d.ids, ∃ p, l.heap.parent j = some p := fun j hj => hpar j (by simp [Bush.ids, hj])
      have hap : ∀ j ∈ a.ids, ∃ p, l.heap.parent j = some p := fun j hj => hpar j (by simp [Bush.ids, hj])
      obtain ⟨f, rfl⟩ : ∃ g, f = g + 1 + 1 + 1 := ⟨f - 3, by omega⟩
      constructor
      · -- along the children: the node and what is behind it, then what is below it
        let l1 : XmlLife := { l with heap := { l.heap with child := upd l.heap.child i none } }
        have hne : ∀ j, j ∈ a.ids → j ≠ i := fun j hj e => hia (e ▸ hj)
        obtain ⟨_, l2, h2, g2⟩ := ih a (by omega) l1 (l.heap.ordered i) (Shape.congr ha (fun j hj => ⟨upd_ne _ _ (hne j hj), rfl⟩)) han hal hap (f + 1) (by omega)
        have hi2 : i ∉ l2.gone := fun h => ((g2.mem i).1 h).elim hia hil
        let l3 : XmlLife := { l2 with gone := i :: l2.gone }
        have hT : destroyTree (f + 1 + 1) l1 i = .ok l3 := by
          unfold destroyTree
          rw [if_neg hil]
          have hc : l1.heap.child i = none := upd_same _ _ _
          rw [hc]
          rw [show destroyChild (f + 1) l1 none = .ok l1 by simp [destroyChild], Res.ok_bind, if_neg hil]
          rw [show l1.heap.ordered i = l.heap.ordered i from rfl, h2, Res.ok_bind, if_neg hi2]
          have : destroyRoot l2 i = .ok l2 := by
            unfold destroyRoot
            rw [g2.parent, show l1.heap.parent i = some p from hp]
          rw [this, Res.ok_bind]
        have hl3 : ∀ j, j ∈ l3.gone ↔ j = i ∨ j ∈ a.ids ∨ j ∈ l.gone := by
          intro j
          show j ∈ i :: l2.gone ↔ _
          rw [List.mem_cons, g2.mem]
        have hdne : ∀ j ∈ d.ids, j ≠ i ∧ j ∉ a.ids := fun j hj => ⟨fun e => hid (e ▸ hj), fun h => hdis j hj j h rfl⟩
        obtain ⟨⟨l4, h4, g4⟩, _⟩ := ih d (by omega) l3 (l.heap.child i) (Shape.congr hd (fun j hj => ⟨by
            show l2.heap.child j = _
            rw [g2.child j (hdne j hj).2]
            exact upd_ne _ _ (hdne j hj).1, by
            show l2.heap.ordered j = _
            rw [g2.ordered j (hdne j hj).2]⟩)) hdn (fun j hj hg => by
              rcases (hl3 j).1 hg with h | h | h
              · exact (hdne j hj).1 h
              · exact (hdne j hj).2 h
              · exact hdl j hj h) (fun j hj => by
                show ∃ p, l2.heap.parent j = some p
                rw [g2.parent]; exact hdp j hj) (f + 1 + 1) (by omega)
        refine ⟨l4, ?_, ?_⟩
        · unfold destroyChild
          rw [if_neg hil]
          simp only []
          rw [hT, Res.ok_bind, h4]
        · have g13 : Given l1 l3 (i :: a.ids) := Given.trans g2 (given_free l2 i) (fun x => by simp [or_comm]) (by simp)
          have g03 : Given l l3 (i :: a.ids) := ⟨g13.gone, g13.tables, g13.whole, fun j hj => by
            rw [g13.child j hj]
            exact upd_ne _ _ (fun e => hj (by simp [e])), g13.ordered, g13.parent, g13.size⟩
          refine Given.trans g03 g4 (fun x => by simp only [Bush.ids, List.mem_cons, List.mem_append]; grind) ?_
          simp only [Bush.ids]
          exact List.perm_middle
      · -- along the list of all children: the node and what is below it, then what is behind it
        let l1 : XmlLife := { l with heap := { l.heap with ordered := upd l.heap.ordered i none } }
        have hne : ∀ j, j ∈ d.ids → j ≠ i := fun j hj e => hid (e ▸ hj)
        obtain ⟨⟨l2, h2, g2⟩, _⟩ := ih d (by omega) l1 (l.heap.child i) (Shape.congr hd (fun j hj => ⟨rfl, upd_ne _ _ (hne j hj)⟩)) hdn hdl hdp (f + 1) (by omega)
        have hi2 : i ∉ l2.gone := fun h => ((g2.mem i).1 h).elim hid hil
        let l3 : XmlLife := { l2 with gone := i :: l2.gone }
        have hT : destroyTree (f + 1 + 1) l1 i = .ok l3 := by
          unfold destroyTree
          rw [if_neg hil]
          rw [show l1.heap.child i = l.heap.child i from rfl, h2, Res.ok_bind, if_neg hi2]
          have ho : l2.heap.ordered i = none := by
            rw [g2.ordered i hid]
            exact upd_same _ _ _
          rw [ho, show destroyOrdered (f + 1) l2 none = .ok l2 by simp [destroyOrdered], Res.ok_bind, if_neg hi2]
          have : destroyRoot l2 i = .ok l2 := by
            unfold destroyRoot
            rw [g2.parent, show l1.heap.parent i = some p from hp]
          rw [this, Res.ok_bind]
        have hl3 : ∀ j, j ∈ l3.gone ↔ j = i ∨ j ∈ d.ids ∨ j ∈ l.gone := by
          intro j
          show j ∈ i :: l2.gone ↔ _
          rw [List.mem_cons, g2.mem]
        have hdne : ∀ j ∈ a.ids, j ≠ i ∧ j ∉ d.ids := fun j hj => ⟨fun e => hia (e ▸ hj), fun h => hdis j h j hj rfl⟩
        obtain ⟨_, l4, h4, g4⟩ := ih a (by omega) l3 (l.heap.ordered i) (Shape.congr ha (fun j hj => ⟨by
            show l2.heap.child j = _
            rw [g2.child j (hdne j hj).2], by
            show l2.heap.ordered j = _
            rw [g2.ordered j (hdne j hj).2]
            exact upd_ne _ _ (hdne j hj).1⟩)) han (fun j hj hg => by
              rcases (hl3 j).1 hg with h | h | h
              · exact (hdne j hj).1 h
              · exact (hdne j hj).2 h
              · exact hal j hj h) (fun j hj => by
                show ∃ p, l2.heap.parent j = some p
                rw [g2.parent]; exact hap j hj) (f + 1 + 1) (by omega)
        refine ⟨l4, ?_, ?_⟩
        · unfold destroyOrdered
          rw [if_neg hil]
          simp only []
          rw [hT, Res.ok_bind, h4]
        · have g13 : Given l1 l3 (i :: d.ids) := Given.trans g2 (given_free l2 i) (fun x => by simp [or_comm]) (by simp)
          have g03 : Given l l3 (i :: d.ids) := ⟨g13.gone, g13.tables, g13.whole, g13.child, fun j hj => by
            rw [g13.ordered j hj]
            exact upd_ne _ _ (fun e => hj (by simp [e])), g13.parent, g13.size⟩
          refine Given.trans g03 g4 (fun x => by simp only [Bush.ids, List.mem_cons, List.mem_append]; grind) ?_
          simp only [Bush.ids]
          exact (List.perm_middle).trans ((List.perm_append_comm).cons i)

/-! ### The nodes below a node -/

/-- `n` steps up from `y`. -/
def upBy (par : Nat → Option Nat) : Nat → Nat → Option Nat
  | 0, y => some y
  | n + 1, y => (par y).bind (upBy par n)

theorem upBy_add (par : Nat → Option Nat) : ∀ (m n y : Nat), upBy par (m + n) y = (upBy par m y).bind (upBy par n) := by
  intro m
  induction m with
  | zero => intro n y; simp [upBy]
  | succ m ih =>
    intro n y
    rw [show m + 1 + n = (m + n) + 1 by omega]
    show (par y).bind (upBy par (m + n)) = ((par y).bind (upBy par m)).bind (upBy par n)
    cases par y with
    | none => rfl
    | some z => exact ih n z

theorem upBy_one (par : Nat → Option Nat) (y : Nat) : upBy par 1 y = par y := by
  show (par y).bind (upBy par 0) = par y
  cases par y <;> rfl

/-- Trees as `child`, `ordered` and the parents `par` of the nodes say; `x` is the top of one of them. -/
structure Rooted (child ordered par : Nat → Option Nat) (size x : Nat) : Prop where
  kids : ∀ p, ∃ L, Seg ordered (child p) L none ∧ L.Nodup ∧ (∀ k, k ∈ L ↔ par k = some p)
  small : ∀ k p, par k = some p → k < size ∧ p < size
  top : par x = none
  lt : x < size

/-- The way up to the top has one length. -/
theorem depth_unique {child ordered par : Nat → Option Nat} {size x : Nat} (hr : Rooted child ordered par size x) {y a b : Nat} (ha : upBy par a y = some x) (hb : upBy par b y = some x) : a = b := by
  have key : ∀ a b, a < b → upBy par a y = some x → upBy par b y = some x → False := by
    intro a b hab ha hb
    rw [show b = a + (1 + (b - a - 1)) by omega, upBy_add, ha] at hb
    simp only [Option.bind_some] at hb
    rw [upBy_add, upBy_one, hr.top] at hb
    cases hb
  rcases Nat.lt_trichotomy a b with h | h | h
  · exact (key a b h ha hb).elim
  · exact h
  · exact (key b a h hb ha).elim

theorem upBy_small {child ordered par : Nat → Option Nat} {size x : Nat} (hr : Rooted child ordered par size x) : ∀ (n y : Nat), upBy par n y = some x → y < size := by
  intro n y h
  cases n with
  | zero => cases h; exact hr.lt
  | succ n =>
    cases hp : par y with
    | none => simp [upBy, hp] at h
    | some p => exact (hr.small y p hp).1

/-- The way up meets each node once, so it is short. -/
theorem depth_small {child ordered par : Nat → Option Nat} {size x : Nat} (hr : Rooted child ordered par size x) {y n : Nat} (h : upBy par n y = some x) : n < size := by
  have hmid : ∀ i ≤ n, ∃ z, upBy par i y = some z ∧ upBy par (n - i) z = some x := by
    intro i hi
    rw [show n = i + (n - i) by omega, upBy_add] at h
    cases hz : upBy par i y with
    | none => rw [hz] at h; cases h
    | some z => rw [hz] at h; exact ⟨z, rfl, h⟩
  let path : List Nat := (List.range (n + 1)).map (fun i => (upBy par i y).getD 0)
  have hnd : path.Nodup := by
    refine List.pairwise_map.2 (List.Pairwise.imp_of_mem ?_ (List.nodup_range (n := n + 1)))
    intro i j hi hj hne e
    obtain ⟨z, hz, hzx⟩ := hmid i (by simp at hi; omega)
    obtain ⟨w, hw, hwx⟩ := hmid j (by simp at hj; omega)
    rw [hz, hw] at e
    simp only [Option.getD_some] at e
    subst e
    have := depth_unique hr hzx hwx
    simp at hi hj
    omega
  have hb : ∀ z ∈ path, z < size := by
    intro z hz
    obtain ⟨i, hi, rfl⟩ := List.mem_map.1 hz
    obtain ⟨w, hw, hwx⟩ := hmid i (by simp at hi; omega)
    rw [hw]
    exact upBy_small hr _ _ hwx
  have := nodup_length size path hnd hb
  simp [path] at this
  omega

/-- Two children of one node are above different nodes. -/
theorem one_above {child ordered par : Nat → Option Nat} {size x : Nat} (hr : Rooted child ordered par size x) {p n y k k' m m' : Nat} (hp : upBy par n p = some x)
    (hk : par k = some p) (hk' : par k' = some p) (h : upBy par m y = some k) (h' : upBy par m' y = some k') : m = m' ∧ k = k' := by
  have e : ∀ m k, par k = some p → upBy par m y = some k → upBy par (m + (1 + n)) y = some x := by
    intro m k hk h
    rw [upBy_add, h]
    simp only [Option.bind_some]
    rw [upBy_add, upBy_one, hk]
    exact hp
  have := depth_unique hr (e m k hk h) (e m' k' hk' h')
  have hm : m = m' := by omega
  subst hm
  rw [h] at h'
  exact ⟨rfl, Option.some.inj h'⟩

/-- What hangs from the children of a node. -/
theorem bush_exists {child ordered par : Nat → Option Nat} {size x : Nat} (hr : Rooted child ordered par size x) : ∀ (d p n : Nat), upBy par n p = some x → size ≤ n + d →
    ∃ t, Shape child ordered (child p) t ∧ t.ids.Nodup ∧ ∀ y, y ∈ t.ids ↔ ∃ k m, par k = some p ∧ upBy par m y = some k := by
  intro d
  induction d with
  | zero => intro p n h hs; have := depth_small hr h; omega
  | succ d ih =>
    intro p n hp hs
    obtain ⟨L, hL, hLn, hLm⟩ := hr.kids p
    have chain : ∀ (l : List Nat) (s : Option Nat), Seg ordered s l none → l.Nodup → (∀ k ∈ l, par k = some p) →
        ∃ t, Shape child ordered s t ∧ t.ids.Nodup ∧ ∀ y, y ∈ t.ids ↔ ∃ k ∈ l, ∃ m, upBy par m y = some k := by
      intro l
      induction l with
      | nil => intro s h _ _; exact ⟨.nil, h, List.nodup_nil, fun y => by simp [Bush.ids]⟩
      | cons k l ihl =>
        intro s h hnd hpar
        obtain ⟨hs', hrest⟩ := h
        simp only [List.nodup_cons] at hnd
        have hk := hpar k List.mem_cons_self
        have hku : upBy par (n + 1) k = some x := by
          show (par k).bind _ = _
          rw [hk]
          exact hp
        obtain ⟨td, hd1, hd2, hd3⟩ := ih k (n + 1) hku (by omega)
        obtain ⟨ta, ha1, ha2, ha3⟩ := ihl _ hrest hnd.2 (fun j hj => hpar j (List.mem_cons_of_mem _ hj))
        have below : ∀ y, (∃ k' m, par k' = some k ∧ upBy par m y = some k') ↔ ∃ m, upBy par (m + 1) y = some k := by
          intro y
          constructor
          · rintro ⟨k', m, h1, h2⟩
            exact ⟨m, by rw [upBy_add, h2]; simp only [Option.bind_some]; rw [upBy_one, h1]⟩
          · rintro ⟨m, h⟩
            rw [upBy_add] at h
            cases hz : upBy par m y with
            | none => rw [hz] at h; cases h
            | some z => rw [hz] at h; simp only [Option.bind_some] at h; rw [upBy_one] at h; exact ⟨z, m, h, hz⟩
        refine ⟨.node k td ta, ⟨hs', hd1, ha1⟩, ?_, ?_⟩
        · simp only [Bush.ids, List.nodup_cons, List.mem_append, not_or, List.nodup_append]
          refine ⟨⟨?_, ?_⟩, hd2, ha2, ?_⟩
          · intro hm
            obtain ⟨m, h⟩ := (below k).1 ((hd3 k).1 hm)
            have := (one_above hr hp hk hk h (show upBy par 0 k = some k from rfl)).1
            omega
          · intro hm
            obtain ⟨k', hk', m, h⟩ := (ha3 k).1 hm
            have := (one_above hr hp (hpar k' (List.mem_cons_of_mem _ hk')) hk h (show upBy par 0 k = some k from rfl)).2
            exact hnd.1 (this ▸ hk')
          · intro y hy z hz e
            subst e
            obtain ⟨m, h⟩ := (below y).1 ((hd3 y).1 hy)
            obtain ⟨k', hk', m', h'⟩ := (ha3 y).1 hz
            have := (one_above hr hp (hpar k' (List.mem_cons_of_mem _ hk')) hk h' h).2
            exact hnd.1 (this ▸ hk')
        · intro y
          simp only [Bush.ids, List.mem_cons, List.mem_append]
          rw [hd3, below, ha3]
          constructor
          · rintro (rfl | ⟨m, h⟩ | ⟨k', hk', m, h⟩)
            · exact ⟨y, .inl rfl, 0, rfl⟩
            · exact ⟨k, .inl rfl, m + 1, h⟩
            · exact ⟨k', .inr hk', m, h⟩
          · rintro ⟨k', rfl | hk', m, h⟩
            · cases m with
              | zero => cases h; exact .inl rfl
              | succ m => exact .inr (.inl ⟨m, h⟩)
            · exact .inr (.inr ⟨k', hk', m, h⟩)
    obtain ⟨t, h1, h2, h3⟩ := chain L (child p) hL hLn (fun k hk => (hLm k).1 hk)
    refine ⟨t, h1, h2, fun y => ?_⟩
    rw [h3]
    constructor
    · rintro ⟨k, hk, m, h⟩; exact ⟨k, m, (hLm k).1 hk, h⟩
    · rintro ⟨k, m, hk, h⟩; exact ⟨k, (hLm k).2 hk, m, h⟩

/-- The nodes from the top down are those with a way up to it. -/
theorem below_top {par : Nat → Option Nat} {x y : Nat} : (y = x ∨ ∃ k m, par k = some x ∧ upBy par m y = some k) ↔ ∃ m, upBy par m y = some x := by
  constructor
  · rintro (rfl | ⟨k, m, h1, h2⟩)
    · exact ⟨0, rfl⟩
    · exact ⟨m + 1, by rw [upBy_add, h2]; simp only [Option.bind_some]; rw [upBy_one, h1]⟩
  · rintro ⟨m, h⟩
    cases m with
    | zero => cases h; exact .inl rfl
    | succ m =>
      rw [upBy_add] at h
      cases hz : upBy par m y with
      | none => rw [hz] at h; cases h
      | some z => rw [hz] at h; simp only [Option.bind_some] at h; rw [upBy_one] at h; exact .inr ⟨z, m, h, hz⟩

/-- What hangs below a top. -/
theorem top_bush {child ordered par : Nat → Option Nat} {size x : Nat} (hr : Rooted child ordered par size x) :
    ∃ t, Shape child ordered (child x) t ∧ t.ids.Nodup ∧ x ∉ t.ids ∧ (∀ y, y ∈ x :: t.ids ↔ ∃ m, upBy par m y = some x) ∧ ∀ y ∈ t.ids, ∃ p, par y = some p := by
  obtain ⟨t, h1, h2, h3⟩ := bush_exists hr size x 0 rfl (by omega)
  refine ⟨t, h1, h2, ?_, ?_, ?_⟩
  · intro h
    obtain ⟨k, m, hk, hm⟩ := (h3 x).1 h
    have : upBy par (m + 1) x = some x := by rw [upBy_add, hm]; simp only [Option.bind_some]; rw [upBy_one, hk]
    have := depth_unique hr this (show upBy par 0 x = some x from rfl)
    omega
  · intro y
    rw [List.mem_cons, h3, below_top]
  · intro y hy
    obtain ⟨k, m, hk, hm⟩ := (h3 y).1 hy
    cases m with
    | zero => cases hm; exact ⟨_, hk⟩
    | succ m =>
      cases hp : par y with
      | none => simp [upBy, hp] at hm
      | some p => exact ⟨p, rfl⟩

/-- Giving up a tree from its top. -/
theorem top_destroyed (l : XmlLife) (x : Nat) (t : Bush) (h1 : Shape l.heap.child l.heap.ordered (l.heap.child x) t) (h2 : t.ids.Nodup) (hx : x ∉ t.ids) (ho : l.heap.ordered x = none)
    (hpp : ∀ y ∈ t.ids, ∃ p, l.heap.parent y = some p) (hlive : ∀ y ∈ x :: t.ids, y ∉ l.gone) :
    ∀ f ≥ 3 * t.size + 2, ∃ l1, Given l l1 (x :: t.ids) ∧
      (∀ q, l.heap.parent x = some q → destroyTree f l x = .ok l1) ∧
      (l.heap.parent x = none → destroyTree f l x = if l.whole x ∧ x ∉ l.tables then .ok { l1 with tables := x :: l.tables } else .ub) := by
  intro f hf
  have hxl : x ∉ l.gone := hlive x List.mem_cons_self
  obtain ⟨f, rfl⟩ : ∃ g, f = g + 1 := ⟨f - 1, by omega⟩
  obtain ⟨⟨l1, e1, g1⟩, _⟩ := bush_destroyed t.size t (Nat.le_refl _) l _ h1 h2 (fun y hy => hlive y (List.mem_cons_of_mem _ hy)) hpp f (by omega)
  have hx1 : x ∉ l1.gone := fun h => ((g1.mem x).1 h).elim hx hxl
  have ho1 : l1.heap.ordered x = none := by rw [g1.ordered x hx, ho]
  have hf1 : ∃ g, f = g + 1 := ⟨f - 1, by omega⟩
  obtain ⟨g, rfl⟩ := hf1
  have hT : destroyTree (g + 1 + 1) l x = (destroyRoot l1 x >>= fun l => .ok { l with gone := x :: l.gone }) := by
    unfold destroyTree
    rw [if_neg hxl, e1, Res.ok_bind, if_neg hx1, ho1, show destroyOrdered (g + 1) l1 none = .ok l1 by simp [destroyOrdered], Res.ok_bind, if_neg hx1]
  refine ⟨{ l1 with gone := x :: l1.gone }, Given.trans g1 (given_free l1 x) (fun y => by simp [or_comm]) (by simp), ?_, ?_⟩
  · intro q hq
    rw [hT]
    unfold destroyRoot
    rw [g1.parent, hq, Res.ok_bind]
  · intro hq
    rw [hT]
    unfold destroyRoot
    rw [g1.parent, hq, g1.whole, g1.tables]
    simp only []
    split <;> rfl

/-- One node has one top. -/
theorem one_top {par : Nat → Option Nat} {x x' y m m' : Nat} (hx : par x = none) (hx' : par x' = none) (h : upBy par m y = some x) (h' : upBy par m' y = some x') : x = x' := by
  have key : ∀ m m' x x', m < m' → par x = none → upBy par m y = some x → upBy par m' y = some x' → False := by
    intro m m' x x' hlt hx h h'
    rw [show m' = m + (1 + (m' - m - 1)) by omega, upBy_add, h] at h'
    simp only [Option.bind_some] at h'
    rw [upBy_add, upBy_one, hx] at h'
    cases h'
  rcases Nat.lt_trichotomy m m' with e | e | e
  · exact (key m m' x x' e hx h h').elim
  · subst e; rw [h] at h'; exact Option.some.inj h'
  · exact (key m' m x' x e hx' h' h).elim

/-- Giving up the trees of several tops, after others. -/
theorem tops_destroyed_from (l : XmlLife) (par : Nat → Option Nat) (size : Nat) (hpar : ∀ k p, par k = some p → ∃ q, l.heap.parent k = some q) : ∀ (xs : List Nat),
    (∀ x ∈ xs, Rooted l.heap.child l.heap.ordered par size x ∧ l.heap.ordered x = none ∧ (l.heap.parent x = none → l.whole x = true)) → xs.Nodup →
    ∃ F, ∀ l1 : XmlLife, (∀ i, i ∉ l1.gone → l1.heap.child i = l.heap.child i ∧ l1.heap.ordered i = l.heap.ordered i) → l1.heap.parent = l.heap.parent → l1.whole = l.whole →
      l1.gone.Nodup → l1.tables.Nodup → (∀ x ∈ xs, x ∉ l1.tables ∧ ∀ y m, upBy par m y = some x → y ∉ l1.gone) →
      ∀ f ≥ F, ∃ l', destroyAll f l1 xs = .ok l' ∧ l'.gone.Nodup ∧ (∀ y, y ∈ l'.gone ↔ y ∈ l1.gone ∨ ∃ x ∈ xs, ∃ m, upBy par m y = some x) ∧
        l'.tables.Nodup ∧ (∀ x, x ∈ l'.tables ↔ x ∈ l1.tables ∨ (x ∈ xs ∧ l.heap.parent x = none)) ∧
        (∀ i, i ∉ l'.gone → l'.heap.child i = l.heap.child i ∧ l'.heap.ordered i = l.heap.ordered i) ∧ l'.heap.size = l1.heap.size := by
  intro xs
  induction xs with
  | nil => intro _ _; exact ⟨0, fun l1 ha _ _ h1 h2 _ f _ => ⟨l1, rfl, h1, by simp, h2, by simp, ha, rfl⟩⟩
  | cons x xs ih =>
    intro hxs hnd
    rw [List.nodup_cons] at hnd
    obtain ⟨hr, ho, hwx⟩ := hxs x List.mem_cons_self
    obtain ⟨t, t1, t2, t3, t4, t5⟩ := top_bush hr
    obtain ⟨F, ih⟩ := ih (fun y hy => hxs y (List.mem_cons_of_mem _ hy)) hnd.2
    refine ⟨F + (3 * t.size + 2), ?_⟩
    intro l1 hagree hp hw hg ht hlive f hf
    obtain ⟨htx, hlx⟩ := hlive x List.mem_cons_self
    have hl : ∀ y ∈ x :: t.ids, y ∉ l1.gone := by
      intro y hy
      obtain ⟨m, hm⟩ := (t4 y).1 hy
      exact hlx y m hm
    have hsh : Shape l1.heap.child l1.heap.ordered (l1.heap.child x) t := by
      rw [(hagree x (hl x List.mem_cons_self)).1]
      exact t1.congr (fun i hi => hagree i (hl i (List.mem_cons_of_mem _ hi)))
    have D := top_destroyed l1 x t hsh t2 t3 ((hagree x (hl x List.mem_cons_self)).2.trans ho) (fun y hy => by
      obtain ⟨p, hy⟩ := t5 y hy
      rw [hp]; exact hpar _ _ hy) hl
    have step : ∃ l2, destroyTree f l1 x = .ok l2 ∧ (∃ g, l2.gone = g ++ l1.gone ∧ g.Perm (x :: t.ids)) ∧ l2.whole = l1.whole ∧ l2.heap.parent = l1.heap.parent ∧
        (∀ i, i ∉ x :: t.ids → l2.heap.child i = l1.heap.child i ∧ l2.heap.ordered i = l1.heap.ordered i) ∧ l2.tables.Nodup ∧
        (∀ y, y ∈ l2.tables ↔ y ∈ l1.tables ∨ (y = x ∧ l.heap.parent x = none)) ∧ l2.heap.size = l1.heap.size := by
      obtain ⟨l2, G, d1, d2⟩ := D f (by omega)
      cases hpx : l1.heap.parent x with
      | some q =>
        refine ⟨l2, d1 q hpx, G.gone, G.whole, G.parent, fun i hi => ⟨G.child i hi, G.ordered i hi⟩, by rw [G.tables]; exact ht, fun y => ?_, G.size⟩
        rw [G.tables, ← hp, hpx]; simp
      | none =>
        have := d2 hpx
        rw [if_pos ⟨by rw [hw]; exact hwx (by rw [← hp]; exact hpx), htx⟩] at this
        refine ⟨_, this, G.gone, G.whole, G.parent, fun i hi => ⟨G.child i hi, G.ordered i hi⟩, List.nodup_cons.2 ⟨htx, ht⟩, fun y => ?_, G.size⟩
        rw [List.mem_cons, ← hp, hpx]; simp [or_comm]
    obtain ⟨l2, s1, ⟨g, s2, s3⟩, s4, s5, s6, s7, s8, s9⟩ := step
    have hmem : ∀ y, y ∈ l2.gone ↔ y ∈ l1.gone ∨ ∃ m, upBy par m y = some x := by
      intro y
      rw [s2, List.mem_append, s3.mem_iff, t4, or_comm]
    obtain ⟨l', r1, r2, r3, r4, r5, r6, r7⟩ := ih l2 (fun i hi => by
        have hi' : i ∉ l1.gone ∧ i ∉ x :: t.ids := by
          rw [hmem, ← t4] at hi
          exact not_or.1 hi
        have a := hagree i hi'.1
        have b := s6 i hi'.2
        exact ⟨b.1.trans a.1, b.2.trans a.2⟩) (s5.trans hp) (s4.trans hw) (by
        rw [s2, List.nodup_append]
        refine ⟨s3.nodup_iff.2 (List.nodup_cons.2 ⟨t3, t2⟩), hg, fun a ha b hb e => ?_⟩
        exact hl a (s3.mem_iff.1 ha) (e ▸ hb)) s7 (by
        intro z hz
        obtain ⟨z1, z2⟩ := hlive z (List.mem_cons_of_mem _ hz)
        have hzx : z ≠ x := fun e => hnd.1 (e ▸ hz)
        refine ⟨fun h => ?_, fun y m hm h => ?_⟩
        · rcases (s8 z).1 h with h | h
          · exact z1 h
          · exact hzx h.1
        · rcases (hmem y).1 h with h | ⟨m', h⟩
          · exact z2 y m hm h
          · exact hzx (one_top (hxs z (List.mem_cons_of_mem _ hz)).1.top hr.top hm h)) f (by omega)
    refine ⟨l', by rw [destroyAll, s1, Res.ok_bind, r1], r2, fun y => ?_, r4, fun y => ?_, r6, r7.trans s9⟩
    · rw [r3, hmem]
      simp only [List.mem_cons, exists_eq_or_imp, or_assoc]
    · rw [r5, s8]
      simp only [List.mem_cons, or_assoc]
      constructor
      · rintro (h | ⟨rfl, h⟩ | ⟨h, h'⟩)
        · exact .inl h
        · exact .inr ⟨.inl rfl, h⟩
        · exact .inr ⟨.inr h, h'⟩
      · rintro (h | ⟨rfl | h, h'⟩)
        · exact .inl h
        · exact .inr (.inl ⟨rfl, h'⟩)
        · exact .inr (.inr ⟨h, h'⟩)

/-- Giving up the trees of several tops. -/
theorem tops_destroyed (l : XmlLife) (par : Nat → Option Nat) (size : Nat) (hpar : ∀ k p, par k = some p → ∃ q, l.heap.parent k = some q) (xs : List Nat)
    (hxs : ∀ x ∈ xs, Rooted l.heap.child l.heap.ordered par size x ∧ l.heap.ordered x = none ∧ (l.heap.parent x = none → l.whole x = true)) (hnd : xs.Nodup) (hg : l.gone = []) (ht : l.tables = []) :
    ∃ F, ∀ f ≥ F, ∃ l', destroyAll f l xs = .ok l' ∧ l'.gone.Nodup ∧ (∀ y, y ∈ l'.gone ↔ ∃ x ∈ xs, ∃ m, upBy par m y = some x) ∧
      l'.tables.Nodup ∧ (∀ x, x ∈ l'.tables ↔ x ∈ xs ∧ l.heap.parent x = none) ∧
      (∀ i, i ∉ l'.gone → l'.heap.child i = l.heap.child i ∧ l'.heap.ordered i = l.heap.ordered i) ∧ l'.heap.size = l.heap.size := by
  obtain ⟨F, h⟩ := tops_destroyed_from l par size hpar xs hxs hnd
  refine ⟨F, fun f hf => ?_⟩
  have := h l (fun _ _ => ⟨rfl, rfl⟩) rfl rfl (by simp [hg]) (by simp [ht]) (fun x _ => by simp [hg, ht]) f hf
  simpa [hg, ht] using this

end Wizard.XmlDes

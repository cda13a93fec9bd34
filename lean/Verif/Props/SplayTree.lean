import Verif.Lemmas.SplayTree
/-! C19-C22, C63, C64: splay trees. -/
namespace Wizard.Props
open Wizard Wizard.Spec

/-- One call of the C interface. -/
def splayExec (cmp : Option (Nat → Nat → Int)) (s : SplayTree) : SMapOp → Res (Nat × SplayTree)
  | .put k v => do let s ← addValue cmp s k v; .ok (0, s)
  | .get k => getFromSplay cmp s k
  | .remove k => do let (v, _, s) ← removeFromSplay cmp s k; .ok (v, s)
  | .removeValue v => do let (k, _, s) ← removeValueFromSplay cmp s v; .ok (k, s)
  | .reset => .ok (0, resetSplay s)
  | .next => do let (_, s) ← nextInSplay cmp s; .ok (0, s)

/-- A history of calls. -/
def splayRun (cmp : Option (Nat → Nat → Int)) (s : SplayTree) :
    List SMapOp → Res (List Nat × SplayTree)
  | [] => .ok ([], s)
  | op :: ops => do
    let (v, s) ← splayExec cmp s op
    let (vs, s) ← splayRun cmp s ops
    .ok (v :: vs, s)

/-- The order of the keys: the comparison callback, or the order of the pointers. -/
def keyOrder (cmp : Option (Nat → Nat → Int)) : Nat → Nat → Int := cmp.getD natOrder

theorem keyOrder_eq (cmp : Option (Nat → Nat → Int)) : cmpKeys cmp = keyOrder cmp := by
  cases cmp <;> rfl

/-- No history step adds the NULL key. -/
def NonNullKeys (ops : List SMapOp) : Prop := ∀ k v, .put k v ∈ ops → k ≠ 0

theorem step_nonnull {C : Nat → Nat → Int} {l : SMap} (h : ∀ x ∈ l, x.1 ≠ 0) (op : SMapOp)
    (hop : ∀ k v, op = .put k v → k ≠ 0) : ∀ x ∈ (SMap.step C l op).2, x.1 ≠ 0 := by
  intro x hx
  cases op with
  | put k v =>
    simp only [SMap.step, SMap.put] at hx
    rcases List.mem_append.1 hx with hx | hx
    · exact h x ((List.mem_filter.1 hx).1)
    · rcases List.mem_cons.1 hx with rfl | hx
      · exact hop k v rfl
      · exact h x ((List.mem_filter.1 hx).1)
  | get k => exact h x hx
  | remove k => exact h x ((List.mem_filter.1 hx).1)
  | removeValue v =>
    simp only [SMap.step] at hx
    split at hx
    · exact h x hx
    · exact h x ((List.mem_filter.1 hx).1)
  | reset => exact h x hx
  | next => exact h x hx

theorem step_length {C : Nat → Nat → Int} {l : SMap} (op : SMapOp) :
    (SMap.step C l op).2.length ≤ l.length + 1 := by
  cases op with
  | put k v =>
    simp only [SMap.step, SMap.put, List.length_append, List.length_cons]
    have : ∀ l : SMap, (l.filter fun b => decide (C b.1 k < 0)).length +
        (l.filter fun b => decide (0 < C b.1 k)).length ≤ l.length := by
      intro l
      induction l with
      | nil => simp
      | cons a l ih =>
        rw [List.filter_cons, List.filter_cons]
        split <;> split <;> rename_i h1 h2 <;> simp at h1 h2 ⊢ <;> omega
    have := this l
    omega
  | get k => simp [SMap.step]
  | remove k =>
    have := List.length_filter_le (fun b : Nat × Nat => C b.1 k != 0) l
    simp only [SMap.step, SMap.remove]; omega
  | removeValue v =>
    simp only [SMap.step]
    split
    · simp
    · rename_i b _
      have := List.length_filter_le (fun x : Nat × Nat => C x.1 b.1 != 0) l
      simp only [SMap.remove]; omega
  | reset => simp [SMap.step]
  | next => simp [SMap.step]

theorem splay_step {cmp : Option (Nat → Nat → Int)} (hC : IsOrder (cmpKeys cmp)) {s l}
    (h : SInv cmp s l) (hsz : l.length < 2 ^ 64) (hnz : ∀ x ∈ l, x.1 ≠ 0) (op : SMapOp) :
    (splayExec cmp s op).Ok fun r => r.1 = (SMap.step (cmpKeys cmp) l op).1 ∧
      SInv cmp r.2 (SMap.step (cmpKeys cmp) l op).2 := by
  cases op with
  | put k v => exact (addValue_spec hC h hsz k v).bind fun r hr => ⟨_, rfl, rfl, hr.1⟩
  | get k => exact (getFromSplay_spec hC h hsz k).mono fun r hr => ⟨hr.1, hr.2.1⟩
  | remove k =>
    exact (removeFromSplay_spec hC h hsz k).bind fun r hr => ⟨_, rfl, hr.1, hr.2.2.1⟩
  | removeValue v =>
    exact (removeValue_spec hC h hsz hnz v).bind fun r hr => ⟨_, rfl, hr.1, hr.2.1⟩
  | reset => exact ⟨_, rfl, rfl, h.list, h.asc, h.nodes, h.cache⟩
  | next => exact (nextInSplay_any hC h hsz).bind fun r hr => ⟨_, rfl, rfl, hr⟩

theorem splay_run {cmp : Option (Nat → Nat → Int)} (hC : IsOrder (cmpKeys cmp)) {s l}
    (h : SInv cmp s l) (hnz : ∀ x ∈ l, x.1 ≠ 0) (ops : List SMapOp) (hops : NonNullKeys ops)
    (hsz : l.length + ops.length < 2 ^ 64) :
    (splayRun cmp s ops).Ok fun r => r.1 = (SMap.run (cmpKeys cmp) l ops).1 ∧
      SInv cmp r.2 (SMap.run (cmpKeys cmp) l ops).2 ∧
      (∀ x ∈ (SMap.run (cmpKeys cmp) l ops).2, x.1 ≠ 0) ∧
      (SMap.run (cmpKeys cmp) l ops).2.length ≤ l.length + ops.length := by
  induction ops generalizing s l with
  | nil => exact ⟨_, rfl, rfl, h, hnz, by simp [SMap.run]⟩
  | cons op ops ih =>
    refine (splay_step hC h (by omega) hnz op).bind fun r hr => ?_
    have hlen := step_length (C := cmpKeys cmp) (l := l) op
    refine (ih hr.2 (step_nonnull hnz op fun k v e => hops k v (by rw [e]; simp))
      (fun k v hm => hops k v (by simp [hm])) (by simp at hsz; omega)).bind fun r' hr' => ?_
    refine ⟨_, rfl, ?_, hr'.2.1, hr'.2.2.1, ?_⟩
    · simp only [SMap.run]; rw [hr.1, hr'.1]
    · have := hr'.2.2.2
      simp only [SMap.run, List.length_cons]; omega

theorem new_inv (cmp : Option (Nat → Nat → Int)) : SInv cmp newSplayTree [] :=
  ⟨rfl, List.Pairwise.nil, rfl, fun _ h0 => absurd rfl h0⟩

/-- **C19** For every comparison that orders the keys (or none) and every history, a splay tree
returns for every lookup and removal what the map of bindings says; no rotation or rebalancing loses,
duplicates or reorders a key. -/
theorem C19_map {cmp : Option (Nat → Nat → Int)} (hC : IsOrder (keyOrder cmp)) (ops : List SMapOp)
    (hops : NonNullKeys ops) (hsz : ops.length < 2 ^ 64) :
    ∃ s, splayRun cmp newSplayTree ops = .ok ((SMap.run (keyOrder cmp) [] ops).1, s) ∧
      s.root.toList = (SMap.run (keyOrder cmp) [] ops).2 ∧
      SMap.Ascending (keyOrder cmp) s.root.toList := by
  rw [← keyOrder_eq] at hC ⊢
  obtain ⟨r, h1, h2, h3, _⟩ := splay_run hC (new_inv cmp) (by simp) ops hops (by simpa using hsz)
  exact ⟨r.2, by rw [h1, ← h2], h3.list, by rw [h3.list]; exact h3.asc⟩

/-- `DeleteNodeFromSplayTree` reports success exactly when the key was bound. -/
theorem C19_delete_result {cmp : Option (Nat → Nat → Int)} (hC : IsOrder (keyOrder cmp))
    (ops : List SMapOp) (hops : NonNullKeys ops) (hsz : ops.length < 2 ^ 64) {vs s}
    (h : splayRun cmp newSplayTree ops = .ok (vs, s)) (k : Nat) :
    ∃ v b s', removeFromSplay cmp s k = .ok (v, b, s') ∧
      (b = true ↔ ∃ e ∈ (SMap.run (keyOrder cmp) [] ops).2, keyOrder cmp e.1 k = 0) := by
  rw [← keyOrder_eq] at hC ⊢
  obtain ⟨r, h1, h2, h3, _, h4⟩ := splay_run hC (new_inv cmp) (by simp) ops hops (by simpa using hsz)
  rw [h] at h1; cases h1
  obtain ⟨o, h5, _, h6, _⟩ := removeFromSplay_spec hC h3 (by simp at h4; omega) k
  exact ⟨o.1, o.2.1, o.2.2, h5, h6⟩

/-- The hypotheses are met: an order that is not the pointer order. -/
example : IsOrder (keyOrder (some fun a b => (b : Int) - a)) :=
  ⟨by simp [keyOrder], by simp [keyOrder]; omega, by simp [keyOrder]; omega⟩

example : (SMap.run natOrder [] [.put 5 50, .put 3 30, .put 9 90, .get 3, .put 3 31, .get 3,
    .remove 5, .get 5, .removeValue 90]).1 = [0, 0, 0, 30, 0, 31, 50, 0, 9] := by decide

/-- **C20** The node counter is the number of bindings after every history. -/
theorem C20_count {cmp : Option (Nat → Nat → Int)} (hC : IsOrder (keyOrder cmp)) (ops : List SMapOp)
    (hops : NonNullKeys ops) (hsz : ops.length < 2 ^ 64) :
    ∃ vs s, splayRun cmp newSplayTree ops = .ok (vs, s) ∧
      s.nodes = (SMap.run (keyOrder cmp) [] ops).2.length := by
  rw [← keyOrder_eq] at hC ⊢
  obtain ⟨r, h1, h2, h3, _⟩ := splay_run hC (new_inv cmp) (by simp) ops hops (by simpa using hsz)
  exact ⟨r.1, r.2, h1, h3.nodes⟩

/-! ### C21 -/

/-- **C21 (internal traversal)** On every non-empty tree of any shape, the explicit-stack traversal
with stacks of as many entries as the tree has nodes ends, stays inside its arrays and collects the
nodes in in-order sequence. -/
theorem C21_traversal (t : STree) (ht : t ≠ .nil) :
    iterLoop t.toList.length (4 * t.toList.length) [(t, .left)] [] = .ok t.toList := by
  rw [toList_length]; exact iter_spec t ht

/-- Calls while iterating: a step of the iterator, or a lookup. -/
inductive IterCall where
  | next
  | get (k : Nat)

/-- What the iterator steps of a schedule of calls return. -/
def iterRun (cmp : Option (Nat → Nat → Int)) (s : SplayTree) :
    List IterCall → Res (List (Option (Nat × Nat)))
  | [] => .ok []
  | .next :: cs => do
    let (o, s) ← nextInSplay cmp s
    let os ← iterRun cmp s cs
    .ok (o :: os)
  | .get k :: cs => do
    let (_, s) ← getFromSplay cmp s k
    iterRun cmp s cs

/-- The number of iterator steps of a schedule. -/
def steps : List IterCall → Nat
  | [] => 0
  | .next :: cs => steps cs + 1
  | .get _ :: cs => steps cs

theorem iterRun_spec {cmp : Option (Nat → Nat → Int)} (hC : IsOrder (cmpKeys cmp)) {l : SMap}
    (hsz : l.length < 2 ^ 64) (hnz : ∀ x ∈ l, x.1 ≠ 0) (cs : List IterCall) :
    ∀ {s : SplayTree} (A B : SMap), SInv cmp s l → l = A ++ B →
      s.next = (B.head?.map Prod.fst).getD 0 →
      iterRun cmp s cs = .ok ((List.range (steps cs)).map (B[·]?)) := by
  induction cs with
  | nil => intro s A B _ _ _; rfl
  | cons c cs ih =>
    intro s A B h hl hnx
    cases c with
    | next =>
      cases B with
      | nil =>
        simp only [iterRun, nextInSplay_end (by simpa using hnx : s.next = 0), Res.ok_bind]
        rw [ih A [] h hl hnx]
        simp [steps, List.range_succ_eq_map, Function.comp_def]
      | cons b B =>
        obtain ⟨o, h1, h2, h3, h4⟩ := nextInSplay_spec hC h hsz hl (by simpa using hnx)
          (hnz b (by rw [hl]; simp))
        simp only [iterRun, h1, Res.ok_bind]
        rw [ih (A ++ [b]) B h3 (by simp [hl]) h4, h2]
        simp [steps, List.range_succ_eq_map, Function.comp_def]
    | get k =>
      obtain ⟨o, h1, h2, h3, h4⟩ := getFromSplay_spec hC h hsz k
      simp only [iterRun, h1, Res.ok_bind]
      exact ih A B h3 hl (h4.trans hnx)

/-- **C21 (iterator)** After every history, resetting the iterator and stepping it returns the
bindings in ascending key order, each exactly once, and then NULL for ever - even when any lookups are
made in between. -/
theorem C21_iteration {cmp : Option (Nat → Nat → Int)} (hC : IsOrder (keyOrder cmp))
    (ops : List SMapOp) (hops : NonNullKeys ops) (hsz : ops.length < 2 ^ 64)
    (calls : List IterCall) :
    ∃ vs s, splayRun cmp newSplayTree ops = .ok (vs, s) ∧
      SMap.Ascending (keyOrder cmp) (SMap.run (keyOrder cmp) [] ops).2 ∧
      iterRun cmp (resetSplay s) calls =
        .ok ((List.range (steps calls)).map ((SMap.run (keyOrder cmp) [] ops).2[·]?)) := by
  rw [← keyOrder_eq] at hC ⊢
  obtain ⟨r, h1, h2, h3, h4, h5⟩ := splay_run hC (new_inv cmp) (by simp) ops hops
    (by simpa using hsz)
  refine ⟨r.1, r.2, h1, h3.asc, ?_⟩
  refine iterRun_spec hC (by simp at h5; omega) h4 calls [] _
    ⟨h3.list, h3.asc, h3.nodes, h3.cache⟩ rfl ?_
  simp only [resetSplay]; rw [firstKey_spec, h3.list]

/-! ### C22 -/

/-- **C22 (depth)** Rebalancing a tree of any shape keeps its bindings in order and gives a tree whose
height is at most one more than the binary logarithm of its number of nodes. -/
theorem C22_balance (t : STree) (key next : Nat) (h2 : 2 < t.toList.length) :
    ∃ t', balanceSplayTree ⟨t, key, next, t.toList.length⟩ = .ok ⟨t', key, next, t.toList.length⟩ ∧
      t'.toList = t.toList ∧ 2 ^ (t'.height - 1) ≤ t.toList.length := by
  have ht : t ≠ .nil := by rintro rfl; simp [STree.toList] at h2
  obtain ⟨t', e, t1, t2, t3⟩ := link_spec t.toList (t.toList.length + 1) 0 (t.toList.length - 1)
    (by omega) (by omega) (by omega)
  refine ⟨t', ?_, ?_, by omega⟩
  · unfold balanceSplayTree
    simp only []
    rw [if_neg (by omega), C21_traversal t ht]
    simp only [Res.ok_bind, e]
  · rw [t1, List.drop_zero, List.take_of_length_le (by omega)]

/-- **C22 (recovery)** An access to any key in a search tree of any shape, however deep, succeeds: it
never ends in the fatal error, keeps the bindings and brings the binding of the key, if there is one,
to the root. -/
theorem C22_access_succeeds {cmp : Option (Nat → Nat → Int)} (hC : IsOrder (keyOrder cmp)) (t : STree)
    (hn : t ≠ .nil) (hs : SMap.Ascending (keyOrder cmp) t.toList) (hsz : t.toList.length < 2 ^ 64)
    (next key : Nat) :
    ∃ l k v r, splaySplayTree cmp ⟨t, 0, next, t.toList.length⟩ key =
        .ok ⟨.node l k v r, key, next, t.toList.length⟩ ∧
      (STree.node l k v r).toList = t.toList ∧
      ((∃ b ∈ t.toList, keyOrder cmp b.1 key = 0) → keyOrder cmp k key = 0) := by
  rw [← keyOrder_eq] at hC hs ⊢
  have h : SInv cmp ⟨t, 0, next, t.toList.length⟩ t.toList :=
    ⟨rfl, hs, rfl, fun _ h0 => absurd rfl h0⟩
  obtain ⟨s', h1, h2, h3, h4⟩ := splaySplayTree_spec hC h hn hsz key
  obtain ⟨tl, tk, tv, tr, ht, hL, hR⟩ := adj_cases h3
  have hk : s'.key = key := by
    unfold splaySplayTree at h1
    cases t with
    | nil => exact absurd rfl hn
    | node =>
      simp only [isSplayed, if_true, Bool.false_eq_true, if_false] at h1
      rcases splayTop_spec hC h hn key with ⟨t, e, _⟩ | ⟨e, _⟩
      · rw [e] at h1
        simp only [Res.ok_bind, if_true] at h1
        cases h1; rfl
      · rw [e] at h1
        simp only [Res.ok_bind, Bool.false_eq_true, if_false, splayAgain] at h1
        cases hb : balanceSplayTree ⟨_, 0, next, _⟩ with
        | ok b =>
          rw [hb] at h1
          simp only [Res.ok_bind] at h1
          cases hq : splayTop cmp b key with
          | ok q =>
            rw [hq] at h1
            simp only [Res.ok_bind] at h1
            split at h1
            · cases h1; rfl
            · cases h1
          | ub => rw [hq] at h1; cases h1
          | fatal => rw [hq] at h1; cases h1
        | ub => rw [hb] at h1; cases h1
        | fatal => rw [hb] at h1; cases h1
  refine ⟨tl, tk, tv, tr, ?_, ht ▸ h2.list, ?_⟩
  · rw [h1]
    have hnodes := h2.nodes
    cases s'
    simp only [] at *
    subst ht hk h4 hnodes
    rfl
  · rintro ⟨b, hb, hb0⟩
    have hl := h2.list
    rw [ht] at hl
    rw [← hl] at hb
    simp only [STree.toList] at hb
    rcases List.mem_append.1 hb with hb | hb
    · have := hL b hb; omega
    · rcases List.mem_cons.1 hb with rfl | hb
      · exact hb0
      · have := hR b hb; omega

/-- A degenerate tree: a chain of `n` right children. -/
def rightChain : Nat → Nat → STree
  | 0, _ => .nil
  | n + 1, k => .node .nil k 7 (rightChain n (k + 1))

theorem rightChain_list (n k : Nat) : (rightChain n k).toList = (List.range' k n).map (·, 7) := by
  induction n generalizing k with
  | zero => rfl
  | succ n ih => simp [rightChain, STree.toList, ih, List.range'_succ]

/-- The hypotheses are met by a chain of 5000 nodes, far beyond the depth limit. -/
example : SMap.Ascending natOrder (rightChain 5000 1).toList ∧ rightChain 5000 1 ≠ .nil := by
  refine ⟨?_, fun h => by unfold rightChain at h; exact STree.noConfusion h⟩
  rw [rightChain_list]
  unfold SMap.Ascending
  rw [List.pairwise_map]
  refine List.Pairwise.imp ?_ (List.pairwise_lt_range' (s := 1) (n := 5000))
  intro a b h
  simp only [natOrder]; split <;> (try split) <;> omega

/-! ### C63, C64 -/

/-- **C63** Removing by value removes exactly one binding, the one with the smallest key among those
with that value, and returns its key; when no binding has the value, NULL is returned, the deletion
reports failure and nothing changes. -/
theorem C63_remove_by_value {cmp : Option (Nat → Nat → Int)} (hC : IsOrder (keyOrder cmp))
    (ops : List SMapOp) (hops : NonNullKeys ops) (hsz : ops.length < 2 ^ 64) {vs s}
    (h : splayRun cmp newSplayTree ops = .ok (vs, s)) (value : Nat) :
    ∃ k b s', removeValueFromSplay cmp s value = .ok (k, b, s') ∧
      ((b = false ∧ k = 0 ∧ (∀ e ∈ s.root.toList, e.2 ≠ value) ∧
          s'.root.toList = s.root.toList) ∨
       (b = true ∧ ∃ A B, s.root.toList = A ++ (k, value) :: B ∧ (∀ e ∈ A, e.2 ≠ value) ∧
          s'.root.toList = A ++ B ∧ s'.nodes + 1 = s.nodes)) := by
  rw [← keyOrder_eq] at hC
  obtain ⟨r, h1, h2, h3, h4, h5⟩ := splay_run hC (new_inv cmp) (by simp) ops hops
    (by simpa using hsz)
  rw [h] at h1; cases h1
  generalize hl : (SMap.run (cmpKeys cmp) [] ops).2 = l at h3 h4 h5
  obtain ⟨o, h6, h7, h8, h9⟩ := removeValue_spec hC h3 (by simp at h5; omega) h4 value
  refine ⟨o.1, o.2.1, o.2.2, h6, ?_⟩
  rw [h3.list]
  simp only [SMap.step] at h7 h8
  cases hf : l.find? (fun b => b.2 == value) with
  | none =>
    rw [hf] at h7 h8
    have hno : ∀ e ∈ l, e.2 ≠ value := by
      intro e he; simpa using List.find?_eq_none.1 hf e he
    refine .inl ⟨?_, h7, hno, h8.list⟩
    cases hb : o.2.1 with
    | false => rfl
    | true => obtain ⟨e, he, hv⟩ := h9.1 hb; exact absurd hv (hno e he)
  | some e =>
    rw [hf] at h7 h8
    obtain ⟨hv, A, B, hAB, hA⟩ := List.find?_eq_some_iff_append.1 hf
    have hv : e.2 = value := by simpa using hv
    have hA : ∀ x ∈ A, x.2 ≠ value := fun x hx => by simpa using hA x hx
    have hmem : e ∈ l := by rw [hAB]; simp
    refine .inr ⟨h9.2 ⟨e, hmem, hv⟩, A, B, ?_, hA, ?_, ?_⟩
    · rw [h7, ← hv]; exact hAB
    all_goals
      have hasc := h3.asc
      rw [hAB] at hasc
      have hL : ∀ x ∈ A, cmpKeys cmp x.1 e.1 < 0 := fun x hx =>
        (List.pairwise_append.1 hasc).2.2 x hx e (by simp)
      have hR : ∀ x ∈ B, 0 < cmpKeys cmp x.1 e.1 := fun x hx =>
        (hC.swap _ _).1 ((List.pairwise_cons.1 (List.pairwise_append.1 hasc).2.1).1 x hx)
      have hrem := smap_remove_split (k := e.1) (v := e.2) hL hR
      rw [show A ++ (e.1, e.2) :: B = l from hAB.symm, if_pos (hC.refl _)] at hrem
      simp only [List.append_nil] at hrem
      simp only [hrem] at h8
    · exact h8.list
    · rw [h8.nodes, h3.nodes, hAB]; simp; omega

/-- **C64** A clone made with a key cloner that respects the order has exactly the cloned bindings in
the same order, and the original keeps its bindings. -/
theorem C64_clone {cmp : Option (Nat → Nat → Int)} (hC : IsOrder (keyOrder cmp))
    (ops : List SMapOp) (hops : NonNullKeys ops) (hsz : ops.length < 2 ^ 64) {vs s}
    (h : splayRun cmp newSplayTree ops = .ok (vs, s)) {cloneKey cloneValue : Nat → Nat}
    (hck : ∀ a b, keyOrder cmp a b < 0 → keyOrder cmp (cloneKey a) (cloneKey b) < 0) :
    ∃ s' c, cloneSplayTree cmp cloneKey cloneValue s = .ok (s', c) ∧
      s'.root.toList = s.root.toList ∧
      c.root.toList = s.root.toList.map (fun b => (cloneKey b.1, cloneValue b.2)) ∧
      c.nodes = s.nodes := by
  rw [← keyOrder_eq] at hC hck
  obtain ⟨r, h1, h2, h3, h4, h5⟩ := splay_run hC (new_inv cmp) (by simp) ops hops
    (by simpa using hsz)
  rw [h] at h1; cases h1
  obtain ⟨o, h6, h7, h8⟩ := clone_spec hC (cv := cloneValue) hck h3 (by simp at h5; omega) h4
  refine ⟨o.1, o.2, h6, by rw [h7.list, h3.list], by rw [h8.list, h3.list], ?_⟩
  rw [h8.nodes, h3.nodes]; simp

end Wizard.Props

import Verif.Props.SharedMap
/-! C120: a splay tree whose threads take turns. -/
namespace Wizard.Props
open Wizard Wizard.Spec Wizard.Spec.Shared

theorem tree_alone {cmp : Option (Nat → Nat → Int)} {s : SplayTree} {op : SMapOp} (hc : treeCheck op s = none) :
    ((treeEnter cmp op s).bind fun r => treeLeave cmp op r.2 r.1) = splayExec cmp s op := by
  cases op with
  | put k v => exact splayExec_locked (by simp [NoRemoval]) hc
  | get k => exact splayExec_locked (by simp [NoRemoval]) hc
  | reset => exact splayExec_locked (by simp [NoRemoval]) hc
  | next => exact splayExec_locked (by simp [NoRemoval]) hc
  | remove k =>
    simp only [treeCheck] at hc
    simp only [treeEnter, removeEnter, splayExec, removeFromSplay]
    cases h : s.root with
    | nil => simp [h, STree.isNil] at hc
    | node l k' v' r =>
      cases splaySplayTree cmp s k with
      | ok s1 =>
        simp only [Res.ok_bind]
        cases h1 : s1.root with
        | nil => rfl
        | node l1 k1 v1 r1 =>
          simp only []
          by_cases e : cmpKeys cmp k1 k ≠ 0
          · rw [if_pos e, if_pos e]; rfl
          · rw [if_neg e, if_neg e]; rfl
      | ub => rfl
      | fatal => rfl
  | removeValue v =>
    simp only [treeCheck] at hc
    simp only [treeEnter, removeValueEnter, splayExec, removeValueFromSplay]
    cases h : s.root with
    | nil => simp [h, STree.isNil] at hc
    | node l k' v' r =>
      rw [← h]
      simp only [h]
      cases removeValueLoop cmp v (s.nodes + 1) s (firstKey (.node l k' v' r)) with
      | ok x =>
        obtain ⟨k, b, s1⟩ := x
        cases b <;> rfl
      | ub => rfl
      | fatal => rfl

theorem tree_settled {s : SplayTree} {op : SMapOp} {r : Nat} (cmp : Option (Nat → Nat → Int)) (hc : treeCheck op s = some r) : splayExec cmp s op = .ok (r, s) := by
  cases op with
  | put k v => cases hc
  | reset => cases hc
  | get k =>
    simp only [treeCheck] at hc
    cases h : s.root with
    | nil => simp [h, STree.isNil] at hc; simp only [splayExec, getFromSplay, h, ← hc]
    | node l k' v' r => simp [h, STree.isNil] at hc
  | remove k =>
    simp only [treeCheck] at hc
    cases h : s.root with
    | nil => simp [h, STree.isNil] at hc; simp only [splayExec, removeFromSplay, h, ← hc]; rfl
    | node l k' v' r => simp [h, STree.isNil] at hc
  | removeValue k =>
    simp only [treeCheck] at hc
    cases h : s.root with
    | nil => simp [h, STree.isNil] at hc; simp only [splayExec, removeValueFromSplay, h, ← hc]; rfl
    | node l k' v' r => simp [h, STree.isNil] at hc
  | next =>
    simp only [treeCheck] at hc
    split at hc
    · rename_i h0
      cases hc
      simp only [splayExec, nextInSplay]
      cases h : s.root with
      | nil => rfl
      | node l k v r =>
        have : s.next = 0 := h0.resolve_left (by simp [h, STree.isNil])
        simp only [this, if_true]; rfl
    · cases hc

/-- Where the threads are: nobody is in a call; or one is, and waits; or one is, and what is left of the call does what the call does. -/
inductive TurnPhase (cmp : Option (Nat → Nat → Int)) (prog : Nat → List SMapOp) (l : SMap) (n : Nat) (w : World SplayTree SMapOp (Option (Option STree × Nat)) Nat) : Prop where
  | rest (h : ∀ t, w.phase t = .rest) (hh : w.holder = none) (hR : TreeRel cmp n w.obj l)
  | wait (t : Nat) (op : SMapOp) (ht : w.phase t = .wait op) (h : ∀ u, u ≠ t → w.phase u = .rest) (hh : w.holder = none) (hR : TreeRel cmp n w.obj l)
      (hc : treeCheck op w.obj = none) (hop : op ∈ prog t)
  | hold (t : Nat) (op : SMapOp) (k : Option (Option STree × Nat)) (s : SplayTree) (ht : w.phase t = .hold op k) (h : ∀ u, u ≠ t → w.phase u = .rest)
      (hR : TreeRel cmp n s l) (hl : treeLeave cmp op k w.obj = splayExec cmp s op) (hop : op ∈ prog t)

structure TurnInv (cmp : Option (Nat → Nat → Int)) (prog : Nat → List SMapOp) (w : World SplayTree SMapOp (Option (Option STree × Nat)) Nat) : Prop where
  phase : TurnPhase cmp prog (seqRun (SMap.step (cmpKeys cmp)) [] (w.log.map (fun x => x.2.1))).2 w.log.length w
  answers : w.log.map (fun x => x.2.2) = (seqRun (SMap.step (cmpKeys cmp)) [] (w.log.map (fun x => x.2.1))).1
  order : ∀ t, returned w.log t ++ (pending (w.phase t) ++ w.todo t) = prog t

theorem tree_call {cmp : Option (Nat → Nat → Int)} (hC : IsOrder (cmpKeys cmp)) {prog : Nat → List SMapOp} (hz : ∀ t, NonNullKeys (prog t)) {t : Nat} {op : SMapOp} (hop : op ∈ prog t)
    {n : Nat} {s : SplayTree} {l : SMap} (hR : TreeRel cmp n s l) (hn : n < 2 ^ 64) :
    ∃ s', splayExec cmp s op = .ok ((SMap.step (cmpKeys cmp) l op).1, s') ∧ TreeRel cmp (n + 1) s' (SMap.step (cmpKeys cmp) l op).2 := by
  obtain ⟨h1, h2, h3⟩ := hR
  obtain ⟨r, e1, e2, e3⟩ := splay_step hC h1 (by omega) h2 op
  refine ⟨r.2, by rw [e1, ← e2], e3, step_nonnull h2 op (fun k v e => hz t k v (e ▸ hop)), ?_⟩
  have := step_length (C := cmpKeys cmp) (l := l) op
  omega

theorem turn_step {cmp : Option (Nat → Nat → Int)} (hC : IsOrder (cmpKeys cmp)) {prog : Nat → List SMapOp} (hz : ∀ t, NonNullKeys (prog t))
    {w : World SplayTree SMapOp (Option (Option STree × Nat)) Nat} (h : TurnInv cmp prog w) (hn : w.log.length < 2 ^ 64) {t : Nat} (ht : ∀ u, u ≠ t → w.phase u = .rest) :
    ∃ w', (sharedTree cmp).step w t = .ok w' ∧ TurnInv cmp prog w' ∧ w'.log.length ≤ w.log.length + 1 := by
  have hord := h.order t
  unfold Shared.step
  cases hp : w.phase t with
  | rest =>
    simp only []
    have hrest : ∀ u, w.phase u = .rest := fun u => by by_cases e : u = t; exact e ▸ hp; exact ht u e
    have hbase : w.holder = none ∧ TreeRel cmp w.log.length w.obj (seqRun (SMap.step (cmpKeys cmp)) [] (w.log.map (fun x => x.2.1))).2 := by
      cases h.phase with
      | rest _ hh hR => exact ⟨hh, hR⟩
      | wait t' _ e _ hh hR => exact ⟨hh, hR⟩
      | hold t' op k s e => rw [hrest t'] at e; cases e
    cases hq : w.todo t with
    | nil => exact ⟨w, rfl, h, by omega⟩
    | cons op ops =>
      rw [hp, hq] at hord
      have hop : op ∈ prog t := by rw [← hord]; simp [pending]
      simp only []
      cases hc : (sharedTree cmp).check op w.obj with
      | some r =>
        refine ⟨_, rfl, ⟨?_, ?_, ?_⟩, by simp⟩
        · refine .rest hrest hbase.1 ?_
          simp only [List.map_append, List.map_cons, List.map_nil, seqRun_concat, List.length_append, List.length_singleton]
          obtain ⟨s', e1, e2⟩ := tree_call hC hz hop hbase.2 hn
          rw [tree_settled cmp hc] at e1
          cases e1
          exact e2
        · obtain ⟨s', e1, e2⟩ := tree_call hC hz hop hbase.2 hn
          rw [tree_settled cmp hc] at e1
          simp only [List.map_append, List.map_cons, List.map_nil, seqRun_concat, h.answers]
          cases e1
          rfl
        · intro u
          by_cases e : u = t
          · subst e
            simp only [returned_concat_same, putAt_same, hp]
            rw [← hord]
            simp [pending]
          · simp only [returned_concat_ne _ e, putAt_ne _ _ e]
            exact h.order u
      | none =>
        refine ⟨_, rfl, ⟨.wait t op (putAt_same _ _ _) (fun u e => by simp only [putAt_ne _ _ e]; exact ht u e) hbase.1 hbase.2 hc hop, h.answers, ?_⟩, by simp⟩
        intro u
        by_cases e : u = t
        · subst e
          simp only [putAt_same]
          rw [← hord]
          simp [pending]
        · simp only [putAt_ne _ _ e]
          exact h.order u
  | wait op =>
    simp only []
    cases h.phase with
    | rest e => rw [e t] at hp; cases hp
    | hold t' op' k s e hoth =>
      by_cases e' : t' = t
      · subst e'; rw [e] at hp; cases hp
      · rw [ht t' e'] at e; cases e
    | wait t' op' e hoth hh hR hc hop =>
      obtain rfl : t' = t := by
        by_cases e' : t' = t
        · exact e'
        · rw [ht t' e'] at e; cases e
      obtain rfl : op' = op := by rw [e] at hp; cases hp; rfl
      rw [hh]
      simp only []
      obtain ⟨s', e1, e2⟩ := tree_call hC hz hop hR hn
      have ha := tree_alone (cmp := cmp) hc
      rw [e1] at ha
      cases he : treeEnter cmp op' w.obj with
      | ub => rw [he] at ha; cases ha
      | fatal => rw [he] at ha; cases ha
      | ok r =>
        rw [he] at ha
        have he' : (sharedTree cmp).enter op' w.obj = .ok r := he
        rw [he']
        refine ⟨_, rfl, ⟨.hold t' op' r.2 w.obj (putAt_same _ _ _) (fun u e => by simp only [putAt_ne _ _ e]; exact ht u e) hR ?_ hop, h.answers, ?_⟩, by simp⟩
        · rw [e1]; exact ha
        · intro u
          by_cases e : u = t'
          · subst e
            simp only [putAt_same]
            rw [← hord, hp]
            simp [pending]
          · simp only [putAt_ne _ _ e]
            exact h.order u
  | hold op k =>
    simp only []
    cases h.phase with
    | rest e => rw [e t] at hp; cases hp
    | wait t' op' e =>
      by_cases e' : t' = t
      · subst e'; rw [e] at hp; cases hp
      · rw [ht t' e'] at e; cases e
    | hold t' op' k' s e hoth hR hl hop =>
      obtain rfl : t' = t := by
        by_cases e' : t' = t
        · exact e'
        · rw [ht t' e'] at e; cases e
      rw [e] at hp
      cases hp
      obtain ⟨s', e1, e2⟩ := tree_call hC hz hop hR hn
      rw [e1] at hl
      have hl' : (sharedTree cmp).leave op k w.obj = _ := hl
      rw [hl']
      refine ⟨_, rfl, ⟨?_, ?_, ?_⟩, by simp⟩
      · refine .rest (fun u => ?_) rfl ?_
        · by_cases e : u = t'
          · subst e; exact putAt_same _ _ _
          · simp only [putAt_ne _ _ e]; exact ht u e
        · simp only [List.map_append, List.map_cons, List.map_nil, seqRun_concat, List.length_append, List.length_singleton]
          exact e2
      · simp only [List.map_append, List.map_cons, List.map_nil, seqRun_concat, h.answers]
      · intro u
        by_cases e' : u = t'
        · subst e'
          simp only [returned_concat_same, putAt_same]
          rw [← hord, e]
          simp [pending]
        · simp only [returned_concat_ne _ e', putAt_ne _ _ e']
          exact h.order u

theorem turn_run {cmp : Option (Nat → Nat → Int)} (hC : IsOrder (cmpKeys cmp)) {prog : Nat → List SMapOp} (hz : ∀ t, NonNullKeys (prog t)) :
    ∀ (xs : List Nat) (w : World SplayTree SMapOp (Option (Option STree × Nat)) Nat), TurnInv cmp prog w → w.log.length + xs.length < 2 ^ 64 → InTurns (sharedTree cmp) w xs →
    ∃ w', (sharedTree cmp).run w xs = .ok w' ∧ TurnInv cmp prog w'
  | [], w, h, _, _ => ⟨w, rfl, h⟩
  | t :: xs, w, h, hn, ht => by
    simp only [List.length_cons] at hn
    obtain ⟨w1, h1, h2, h3⟩ := turn_step hC hz h (by omega) ht.1
    obtain ⟨w2, h4, h5⟩ := turn_run hC hz xs w1 h2 (by omega) (ht.2 w1 h1)
    exact ⟨w2, by simp only [Shared.run, h1, Res.ok_bind]; exact h4, h5⟩

/-- **C120** (partial) As long as no thread begins or goes on with a call while another thread is in one, threads may also remove entries: all answers
are those of an ordered map. -/
theorem C120_turns_partial {cmp : Option (Nat → Nat → Int)} (hC : IsOrder (keyOrder cmp)) (prog : Nat → List SMapOp) (hz : ∀ t, NonNullKeys (prog t))
    (xs : List Nat) (hx : xs.length < 2 ^ 64) (ht : InTurns (sharedTree cmp) (.start newSplayTree prog) xs) :
    ∃ w, (sharedTree cmp).run (.start newSplayTree prog) xs = .ok w ∧ OneByOne (fun ops => (SMap.run (keyOrder cmp) [] ops).1) prog w := by
  rw [← keyOrder_eq] at hC ⊢
  obtain ⟨w, h1, h2⟩ := turn_run hC hz xs (.start newSplayTree prog)
    ⟨.rest (fun _ => rfl) rfl ⟨new_inv cmp, by simp [World.start, seqRun], by simp [World.start, seqRun]⟩, rfl, fun _ => rfl⟩ (by simpa [World.start] using hx) ht
  exact ⟨w, h1, ⟨by rw [h2.answers, smap_seqRun], h2.order⟩⟩

theorem turn_next {σ ω κ ρ : Type} {o : Shared σ ω κ ρ} {w w1 : World σ ω κ ρ} {t : Nat} {ts : List Nat} (h : o.step w t = .ok w1) (hr : ∀ u, u ≠ t → w.phase u = .rest)
    (ht : InTurns o w1 ts) : InTurns o w (t :: ts) :=
  ⟨hr, fun w' e => by rw [h] at e; cases e; exact ht⟩

/-- Two threads take turns: one puts an entry and removes it, the other looks it up before and after. -/
example : ∃ (prog : Nat → List SMapOp) (xs : List Nat), (∀ t, NonNullKeys (prog t)) ∧ InTurns (sharedTree none) (.start newSplayTree prog) xs ∧
    ∃ w, (sharedTree none).run (.start newSplayTree prog) xs = .ok w ∧
      w.log = [(0, .put 5 50, 0), (0, .put 6 60, 0), (1, .get 5, 50), (0, .remove 5, 50), (1, .get 5, 0), (1, .get 6, 60)] := by
  refine ⟨fun t => match t with | 0 => [.put 5 50, .put 6 60, .remove 5] | 1 => [.get 5, .get 5, .get 6] | _ => [],
    [0, 0, 0, 0, 0, 0, 1, 1, 1, 0, 0, 0, 1, 1, 1, 1, 1, 1], ?_, ?_, _, rfl, rfl⟩
  · intro t k v h
    match t, h with
    | 0, h => simp at h; omega
    | 1, h => simp at h
    | n + 2, h => simp at h
  · repeat (first
      | exact trivial
      | refine turn_next rfl (fun u hu => by first | rfl | (simp only [World.start, putAt]; grind)) ?_)

end Wizard.Props

import Verif.Spec.Cursor
import Verif.Lemmas.LinkedList
/-! C13, C14, C15: linked lists. -/
namespace Wizard.Props
open Wizard Wizard.Spec

/-- One call of the C interface. `count` and `isEmpty` read the element counter
(hashmap.c:678-685 `GetNumberOfElementsInLinkedList`, 1206-1212 `IsLinkedListEmpty`). -/
def listExec (s : LList) : ListOp → Res (ListOut × LList)
  | .append a v => do let (b, s) ← appendValue s a v; .ok (.bool b, s)
  | .insertFirst a v => do let (b, s) ← insertValue s a 0 v; .ok (.bool b, s)
  | .insertLast a v => do let (b, s) ← insertValue s a s.elements v; .ok (.bool b, s)
  | .insertSorted compare a v => do
    let (b, _, s) ← insertSorted compare false s a v
    .ok (.bool b, s)
  | .remove i => do let (v, s) ← removeElement s i; .ok (.val v, s)
  | .removeValue v => do let (v, s) ← removeByValue s v; .ok (.val v, s)
  | .removeLast => do let (v, s) ← removeLast s; .ok (.val v, s)
  | .clear => do let s ← clearLinkedList s; .ok (.none, s)
  | .get i => do let v ← getValue s i; .ok (.val v, s)
  | .last => do let v ← getLastValue s; .ok (.val v, s)
  | .count => .ok (.num s.elements, s)
  | .isEmpty => .ok (.bool (s.elements == 0), s)
  | .toArray => do let l ← linkedListToArray s; .ok (.vals l, s)
  | .reset => .ok (.none, resetIterator s)
  | .next => do let (v, s) ← getNextValue s; .ok (.val v, s)

/-- A history of calls. -/
def listRun (s : LList) : List ListOp → Res (List ListOut × LList)
  | [] => .ok ([], s)
  | op :: ops => do
    let (o, s) ← listExec s op
    let (os, s) ← listRun s ops
    .ok (o :: os, s)

/-- The address an allocating call got from the allocator. -/
def opAddr : ListOp → Nat
  | .append a _ => a
  | .insertFirst a _ => a
  | .insertLast a _ => a
  | .insertSorted _ a _ => a
  | _ => 0

/-- The allocator never returns memory that is in use. -/
def AllocOk (s : LList) : List ListOp → Prop
  | [] => True
  | op :: ops => (opAddr op = 0 ∨ s.heap (opAddr op) = none) ∧
    ∀ o s', listExec s op = .ok (o, s') → AllocOk s' ops

/-- The list object `s` is the sequence and cursor `c`, and owns no other element. -/
def IsList (s : LList) (c : Cursor) : Prop :=
  ∃ ns, Wizard.Repr s true ns c.pos ∧ ns.map Prod.snd = c.vals

theorem takeWhile_eq_of_split {p : Nat → Bool} {xs ys : List Nat} (h1 : ∀ x ∈ xs, p x = true)
    (h2 : ∀ y ∈ ys.head?, p y = false) : (xs ++ ys).takeWhile p = xs := by
  rw [List.takeWhile_append_of_pos h1]
  cases ys with
  | nil => simp
  | cons y ys => simp [h2 y rfl]

theorem list_step (s : LList) (c : Cursor) (op : ListOp) (h : IsList s c)
    (ha : opAddr op = 0 ∨ s.heap (opAddr op) = none) :
    (listExec s op).Ok fun o => o.1 = (c.step s.capacity op).1 ∧
      IsList o.2 (c.step s.capacity op).2 ∧ o.2.capacity = s.capacity := by
  obtain ⟨ns, hr, hv⟩ := h
  have hlen : ns.length = c.vals.length := by rw [← hv]; simp
  cases op with
  | append a v =>
    simp only [opAddr] at ha
    refine (append_repr (v := v) hr ha).bind fun o ho => ?_
    unfold IfPost at ho
    rw [hlen] at ho
    refine ⟨_, rfl, ?_⟩
    simp only [Cursor.step]
    split at ho
    · rename_i hc; rw [if_pos hc, ho]; exact ⟨rfl, ⟨ns, hr, hv⟩, rfl⟩
    · rename_i hc
      rw [if_neg hc]
      obtain ⟨h1, ⟨ns', h2, h3⟩, h4⟩ := ho
      exact ⟨by rw [h1], ⟨ns', h3, by rw [h2, hv]⟩, h4⟩
  | insertFirst a v =>
    simp only [opAddr] at ha
    refine (insertFront_repr (v := v) hr ha).bind fun o ho => ?_
    unfold IfPost at ho
    rw [hlen] at ho
    refine ⟨_, rfl, ?_⟩
    simp only [Cursor.step]
    split at ho
    · rename_i hc; rw [if_pos hc, ho]; exact ⟨rfl, ⟨ns, hr, hv⟩, rfl⟩
    · rename_i hc
      rw [if_neg hc]
      obtain ⟨h1, ⟨ns', h2, h3⟩, h4⟩ := ho
      exact ⟨by rw [h1], ⟨ns', by simpa [posFront] using h3, by rw [h2, hv]⟩, h4⟩
  | insertLast a v =>
    simp only [opAddr] at ha
    refine (insertBack_repr (v := v) hr ha).bind fun o ho => ?_
    unfold IfPost at ho
    rw [hlen] at ho
    refine ⟨_, rfl, ?_⟩
    simp only [Cursor.step]
    split at ho
    · rename_i hc; rw [if_pos hc, ho]; exact ⟨rfl, ⟨ns, hr, hv⟩, rfl⟩
    · rename_i hc
      rw [if_neg hc]
      obtain ⟨h1, ⟨ns', h2, h3⟩, h4⟩ := ho
      exact ⟨by rw [h1], ⟨ns', h3, by rw [h2, hv]⟩, h4⟩
  | insertSorted compare a v =>
    simp only [opAddr] at ha
    simp only [listExec, Cursor.step]
    by_cases hc : v = 0 ∨ c.vals.length = s.capacity ∨ a = 0
    · have : Wizard.insertSorted compare false s a v = .ok (false, none, s) := by
        unfold Wizard.insertSorted
        have hcnt := hr.cnt
        rcases hc with hc | hc | hc
        · rw [if_pos hc]
        · split
          · rfl
          · rw [if_pos (by omega)]
        · split
          · rfl
          · split
            · rfl
            · simp [hc]
      rw [this, if_pos hc]
      exact ⟨_, rfl, rfl, ⟨ns, hr, hv⟩, rfl⟩
    · rw [if_neg hc]
      have hcnt := hr.cnt
      obtain ⟨xs, ys, rep, s', h1, h2, h3, h4, h5⟩ := insertSorted_repr compare false (v := v) hr
        (by omega) (by omega) (by omega) (ha.resolve_left (by omega))
      rw [h1]
      refine ⟨_, rfl, rfl, ?_, h2⟩
      rcases h5 with ⟨_, hns, hy, hr'⟩ | ⟨y, _, _, hfalse, _⟩
      · have htw : (c.vals.takeWhile fun x => !decide (compare v x < 0)) = xs.map Prod.snd := by
          rw [← hv, hns, List.map_append]
          refine takeWhile_eq_of_split ?_ ?_
          · intro x hx
            obtain ⟨z, hz, rfl⟩ := List.mem_map.mp hx
            simpa [sortedStop] using h3 z hz
          · intro y hyy
            cases ys with
            | nil => simp at hyy
            | cons z zs =>
              simp at hyy
              subst hyy
              simpa using hy z rfl
        rw [htw]
        refine ⟨_, by simpa [posInsert] using hr', ?_⟩
        rw [← hv, hns]
        simp
      · cases hfalse
  | remove i =>
    refine (removeElement_repr hr i).bind fun o ho => ?_
    obtain ⟨h1, ⟨ns', h2, h3⟩, h4⟩ := ho
    refine ⟨_, rfl, by simp only [Cursor.step, nth]; rw [h1, hv], ?_, h4⟩
    simp only [Cursor.step, Cursor.removeAt]
    unfold posRemove at h3
    rw [hlen] at h3
    split
    · rename_i hi
      rw [if_pos hi] at h3
      exact ⟨ns', h3, by rw [h2, hv]⟩
    · rename_i hi
      rw [if_neg hi] at h3
      refine ⟨ns', h3, ?_⟩
      rw [h2, hv, List.eraseIdx_of_length_le (by omega)]
  | removeValue v =>
    by_cases hz : v = 0
    · subst hz
      simp only [listExec, removeByValue, or_true, if_true, Res.ok_bind, Cursor.step]
      exact ⟨_, rfl, rfl, ⟨ns, hr, hv⟩, rfl⟩
    · refine (removeByValue_repr hr v hz).bind fun o ho => ?_
      obtain ⟨h1, ⟨ns', h2, h3⟩, h4⟩ := ho
      rw [hv] at h1 h2 h3
      simp only [Cursor.step, if_neg hz]
      refine ⟨_, rfl, by rw [h1]; rfl, ?_, h4⟩
      unfold posRemove at h3
      rw [hlen] at h3
      simp only [Cursor.removeAt]
      split
      · rename_i hi
        rw [if_pos hi] at h3
        exact ⟨ns', h3, by rw [h2, List.erase_eq_eraseIdx_of_idxOf rfl]⟩
      · rename_i hi
        rw [if_neg hi] at h3
        refine ⟨ns', h3, ?_⟩
        rw [h2, List.erase_eq_eraseIdx_of_idxOf rfl, List.eraseIdx_of_length_le (by omega)]
  | removeLast =>
    refine (removeLast_repr hr).bind fun o ho => ?_
    obtain ⟨h1, ⟨ns', h2, h3⟩, h4⟩ := ho
    rw [hv] at h1 h2
    rw [hlen] at h3
    exact ⟨_, rfl, by rw [h1]; rfl, ⟨ns', h3, h2⟩, h4⟩
  | clear =>
    refine (clear_repr hr).bind fun o ho => ?_
    exact ⟨_, rfl, rfl, ⟨[], ho.1, rfl⟩, ho.2⟩
  | get i =>
    simp only [listExec, getValue_repr hr, Res.ok_bind, hv]
    exact ⟨_, rfl, rfl, ⟨ns, hr, hv⟩, rfl⟩
  | last =>
    simp only [listExec, getLastValue_repr hr, Res.ok_bind, hv]
    exact ⟨_, rfl, rfl, ⟨ns, hr, hv⟩, rfl⟩
  | count =>
    refine ⟨_, rfl, ?_, ⟨ns, hr, hv⟩, rfl⟩
    simp only [Cursor.step]
    rw [hr.cnt, hlen]
  | isEmpty =>
    refine ⟨_, rfl, ?_, ⟨ns, hr, hv⟩, rfl⟩
    simp only [Cursor.step]
    rw [hr.cnt, hlen]
    cases c.vals <;> rfl
  | toArray =>
    simp only [listExec, toArray_repr hr, Res.ok_bind, hv]
    exact ⟨_, rfl, rfl, ⟨ns, hr, hv⟩, rfl⟩
  | reset => exact ⟨_, rfl, rfl, ⟨ns, reset_repr hr, hv⟩, rfl⟩
  | next =>
    refine (getNextValue_repr hr).bind fun o ho => ?_
    refine ⟨_, rfl, by rw [ho.1, hv]; rfl, ⟨ns, ?_, hv⟩, ho.2.2⟩
    simpa [Cursor.step, hlen] using ho.2.1

theorem new_isList (capacity : Nat) : IsList (newLinkedList capacity) ⟨[], 0⟩ :=
  ⟨[], ⟨rfl, by simp, by intro a h; exact absurd rfl h, rfl, Nat.zero_le _, by simp, rfl, by simp⟩,
    rfl⟩

theorem list_run : ∀ (ops : List ListOp) (s : LList) (c : Cursor), IsList s c → AllocOk s ops →
    ∃ s', listRun s ops = .ok ((c.run s.capacity ops).1, s') ∧
      IsList s' (c.run s.capacity ops).2 := by
  intro ops
  induction ops with
  | nil => intro s c h _; exact ⟨s, rfl, h⟩
  | cons op ops ih =>
    intro s c h ha
    obtain ⟨⟨o, s1⟩, h1, h2, h3, h4⟩ := list_step s c op h ha.1
    obtain ⟨s2, h5, h6⟩ := ih s1 _ h3 (ha.2 _ _ h1)
    simp only at h2 h4
    rw [h4] at h5 h6
    refine ⟨s2, ?_, h6⟩
    simp only [listRun, h1, h5, Res.ok_bind]
    rw [h2]
    rfl

/-- **C13** On a new list of any capacity, every history of calls runs without undefined behaviour and
returns exactly what the sequence-with-cursor returns, provided the allocator hands out unused
memory. -/
theorem C13_sequence (capacity : Nat) (ops : List ListOp)
    (ha : AllocOk (newLinkedList capacity) ops) :
    ∃ s, listRun (newLinkedList capacity) ops =
      .ok (((⟨[], 0⟩ : Cursor).run (if capacity = 0 then 2 ^ 64 - 1 else capacity) ops).1, s) := by
  obtain ⟨s, h, _⟩ := list_run ops _ _ (new_isList capacity) ha
  exact ⟨s, h⟩

/-- **C13** Nothing is leaked or freed twice along any history: the live elements are exactly the
elements of the list, so clearing it releases everything. -/
theorem C13_no_leak (capacity : Nat) (ops : List ListOp)
    (ha : AllocOk (newLinkedList capacity) ops) :
    ∃ outs s s', listRun (newLinkedList capacity) ops = .ok (outs, s) ∧
      clearLinkedList s = .ok s' ∧ ∀ a, s'.heap a = none := by
  obtain ⟨s, h, ⟨ns, hr, _⟩⟩ := list_run ops _ _ (new_isList capacity) ha
  obtain ⟨s', h1, h2, _⟩ := clear_repr hr
  refine ⟨_, s, s', h, h1, fun a => ?_⟩
  by_cases hn : s'.heap a = none
  · exact hn
  · have := h2.dom a hn
    simp at this

/-- The capacity is a bound on the number of values, whatever the history. -/
theorem C13_capacity (capacity : Nat) (ops : List ListOp)
    (ha : AllocOk (newLinkedList capacity) ops) :
    ∃ outs s, listRun (newLinkedList capacity) ops = .ok (outs, s) ∧
      s.elements ≤ (if capacity = 0 then 2 ^ 64 - 1 else capacity) := by
  suffices h : ∀ (ops : List ListOp) (s : LList) (c : Cursor), IsList s c → AllocOk s ops →
      ∃ outs s', listRun s ops = .ok (outs, s') ∧ s'.elements ≤ s.capacity from
    h ops _ _ (new_isList capacity) ha
  intro ops
  induction ops with
  | nil => intro s c ⟨ns, h, _⟩ _; exact ⟨_, s, rfl, h.cap⟩
  | cons op ops ih =>
    intro s c h ha
    obtain ⟨⟨o, s1⟩, h1, _, h3, h4⟩ := list_step s c op h ha.1
    obtain ⟨outs, s2, h5, h6⟩ := ih s1 _ h3 (ha.2 _ _ h1)
    refine ⟨o :: outs, s2, ?_, by rw [h4] at h6; exact h6⟩
    simp only [listRun, h1, h5, Res.ok_bind]

/-- A concrete history meeting the hypothesis: two appends at different addresses, a removal and an
append that reuses the freed address. -/
example : AllocOk (newLinkedList 2) [.append 8 5, .append 16 6, .remove 0, .append 8 7] := by
  refine ⟨.inr rfl, fun o s h => ⟨?_, fun o s' h' => ⟨.inl rfl, fun o s'' h'' => ⟨?_, ?_⟩⟩⟩⟩
  · cases h; exact .inr rfl
  · cases h; cases h'; cases h''; exact .inr rfl
  · intros; trivial

/-- **C14** (partial: the ends only) At index 0 and at the end the value is inserted where it should
be, for every list. -/
theorem C14_insert_ends_partial (s : LList) (c : Cursor) (a v : Nat) (h : IsList s c)
    (hv : v ≠ 0) (ha : a ≠ 0) (hf : s.heap a = none) (hroom : c.vals.length < s.capacity) (i : Nat)
    (hi : i = 0 ∨ i = c.vals.length) :
    ∃ s' p, insertValue s a i v = .ok (true, s') ∧ IsList s' ⟨c.vals.insertIdx i v, p⟩ := by
  have hcnt : s.elements = c.vals.length := by
    obtain ⟨ns, hr, hvv⟩ := h; rw [hr.cnt, ← hvv]; simp
  rcases hi with rfl | rfl
  · obtain ⟨⟨o, s1⟩, h1, h2, h3, h4⟩ := list_step s c (.insertFirst a v) h (.inr hf)
    simp only [listExec, Cursor.step] at h1 h2 h3
    rw [if_neg (by omega)] at h2 h3
    cases hx : insertValue s a 0 v with
    | ok r =>
      rw [hx] at h1
      obtain ⟨b, s''⟩ := r
      simp only [Res.ok_bind] at h1
      cases h1
      cases h2
      exact ⟨_, _, rfl, by simpa using h3⟩
    | ub => rw [hx] at h1; cases h1
    | fatal => rw [hx] at h1; cases h1
  · obtain ⟨⟨o, s1⟩, h1, h2, h3, h4⟩ := list_step s c (.insertLast a v) h (.inr hf)
    simp only [listExec, Cursor.step] at h1 h2 h3
    rw [if_neg (by omega)] at h2 h3
    rw [hcnt] at h1
    cases hx : insertValue s a c.vals.length v with
    | ok r =>
      rw [hx] at h1
      obtain ⟨b, s''⟩ := r
      simp only [Res.ok_bind] at h1
      cases h1
      cases h2
      refine ⟨_, c.pos, rfl, ?_⟩
      rw [List.insertIdx_length_self]
      exact h3
    | ub => rw [hx] at h1; cases h1
    | fatal => rw [hx] at h1; cases h1

theorem insertWalk_seg {h : LHeap} {p q : Nat × Nat} {ys : List (Nat × Nat)} :
    ∀ {xs : List (Nat × Nat)} {a : Nat}, Seg h a (xs ++ p :: q :: ys) 0 →
    insertWalk h a xs.length = .ok (p.1, q.1) := by
  intro xs
  induction xs with
  | nil =>
    rintro a ⟨h1, h2, n, h3, h4, _⟩
    simp only [List.length_nil, insertWalk, ldE, h3, Res.ok_bind, h4]
    rw [h1]
  | cons x xs ih =>
    rintro a ⟨h1, h2, n, h3, h4⟩
    simp only [List.length_cons, insertWalk, ldE, h3, Res.ok_bind]
    exact ih h4

/-- C14 is false: for every list with room and every index strictly inside it, the call reports
success, but the sequence of values is unchanged while the count grows by one (so the count is
wrong), the new element is leaked, and removing "the last element" by its index then dereferences a
null pointer. -/
theorem C14_insert_middle_violated (s : LList) (c : Cursor) (a v i : Nat) (h : IsList s c)
    (hv : v ≠ 0) (ha : a ≠ 0) (hf : s.heap a = none) (hroom : c.vals.length < s.capacity)
    (hi : 0 < i) (hi' : i < c.vals.length) :
    ∃ s', insertValue s a i v = .ok (true, s') ∧ linkedListToArray s' = .ok c.vals ∧
      s'.elements = c.vals.length + 1 ∧ s'.heap a ≠ none ∧
      removeElement s' c.vals.length = .ub := by
  obtain ⟨ns, hr, hvv⟩ := h
  have hlen : ns.length = c.vals.length := by rw [← hvv]; simp
  have hcnt := hr.cnt
  have hfr := hr.fresh hf
  obtain ⟨xs, p, q, ys, rfl, rfl⟩ : ∃ xs p q ys, ns = xs ++ p :: q :: ys ∧ xs.length + 1 = i := by
    have hi1 : i - 1 < ns.length := by omega
    have hi2 : i < ns.length := by omega
    refine ⟨ns.take (i - 1), ns[i-1], ns[i], ns.drop (i + 1), ?_, by simp; omega⟩
    rw [← List.drop_eq_getElem_cons hi2]
    have : ns.drop i = ns.drop (i - 1 + 1) := by congr 1; omega
    rw [this, ← List.drop_eq_getElem_cons hi1, List.take_append_drop]
  have hnd := hr.nodup
  have hpa : p.1 ≠ a := by intro hh; exact hfr (by simp [← hh])
  have hqa : q.1 ≠ a := by intro hh; exact hfr (by simp [← hh])
  have hqp : q.1 ≠ p.1 := by intro hh; simp [List.nodup_append, hh] at hnd
  have hseg : Seg (setE s.heap a (v, 0)) s.head (xs ++ p :: q :: ys) 0 :=
    seg_congr (fun x hx => by
      have : x ≠ a := by rintro rfl; exact hfr hx
      simp [setE, this]) hr.seg
  have hp := seg_live hseg
  have hq : setE s.heap a (v, 0) q.1 = some (q.2, addrAt ys 0) := by
    have : Seg (setE s.heap a (v, 0)) s.head ((xs ++ [p]) ++ q :: ys) 0 := by simpa using hseg
    exact seg_live this
  have hp' : setE s.heap a (v, 0) p.1 = some (p.2, q.1) := by simpa [addrAt] using hp
  have hw := insertWalk_seg hseg
  have hins : insertValue s a (xs.length + 1) v = .ok (true, { s with
      heap := setE (setE (setE s.heap a (v, 0)) a (v, q.1)) p.1 (p.2, q.1)
      next := if s.next = addrAt ys 0 then q.1 else s.next
      elements := s.elements + 1 }) := by
    unfold insertValue
    rw [if_neg hv, if_neg (by omega), if_neg ha]
    simp only
    rw [if_neg (by omega), if_neg (by omega), if_neg (by omega)]
    rw [setE_ne _ _ hqa] at hq
    rw [setE_ne _ _ hpa] at hp'
    simp only [Nat.add_sub_cancel, hw, Res.ok_bind, stNext, setE_same, setE_ne _ _ hpa, hp', ldE,
      setE_ne _ _ hqp, setE_ne _ _ hqa, hq]
  have hseg' : Seg (setE (setE (setE s.heap a (v, 0)) a (v, q.1)) p.1 (p.2, q.1)) s.head
      (xs ++ p :: q :: ys) 0 := by
    refine seg_congr (fun x hx => ?_) hseg
    have hxa : x ≠ a := by rintro rfl; exact hfr hx
    by_cases hxp : x = p.1
    · subst hxp; rw [setE_same, hp']
    · rw [setE_ne _ _ hxp, setE_ne _ _ hxa]
  refine ⟨_, hins, ?_, by simp; omega, ?_, ?_⟩
  · unfold linkedListToArray
    rw [toArray_seg (by simp at hcnt ⊢; omega) hseg', hvv]
  · simp only
    rw [setE_ne _ _ (Ne.symm hpa), setE_same]
    simp
  · unfold removeElement
    simp only
    rw [if_neg (by omega), if_neg (by omega)]
    have hne : xs ++ p :: q :: ys ≠ [] := by simp
    have hsp : xs ++ p :: q :: ys = (xs ++ p :: q :: ys).dropLast ++
        (xs ++ p :: q :: ys).getLast hne :: [] := (List.dropLast_concat_getLast hne).symm
    have hseg2 := hseg'
    rw [hsp] at hseg2
    have hwalk := walk_seg hseg2
    have hlv := seg_live hseg2
    have hl : (xs ++ p :: q :: ys).dropLast.length = c.vals.length - 1 := by
      rw [List.length_dropLast]; omega
    rw [hl] at hwalk
    rw [hwalk]
    simp only [Res.ok_bind, unlinkAfter, ldE, hlv, addrAt, List.getElem?_nil, Option.map_none,
      Option.getD_none]
    have h0 : setE (setE (setE s.heap a (v, 0)) a (v, q.1)) p.1 (p.2, q.1) 0 = none := by
      have hz := seg_ne_zero hseg'
      have : (0 : Nat) ≠ p.1 := by intro hh; exact hz (by simp [← hh])
      rw [setE_ne _ _ this, setE_ne _ _ (Ne.symm ha), setE_ne _ _ (Ne.symm ha)]
      by_cases hn : s.heap 0 = none
      · exact hn
      · exact absurd (hr.dom 0 hn) hz
    rw [h0]
    rfl

/-! ### C15 -/

/-- A list is sorted for the comparison: each value compares below all later ones. -/
def SortedBy (compare : Nat → Nat → Int) (l : List Nat) : Prop :=
  l.Pairwise fun x y => compare x y < 0

/-- A comparison function that is a total order up to its own equality. -/
structure IsCompare (compare : Nat → Nat → Int) : Prop where
  swap : ∀ x y, compare x y < 0 ↔ 0 < compare y x
  trans : ∀ x y z, compare x y < 0 → compare y z < 0 → compare x z < 0
  congr_left : ∀ x y z, compare x y = 0 → (compare x z < 0 ↔ compare y z < 0)

theorem IsCompare.eq_symm {compare : Nat → Nat → Int} (h : IsCompare compare) {x y : Nat}
    (e : compare x y = 0) : compare y x = 0 := by
  have h1 := h.swap x y
  have h2 := h.swap y x
  omega

/-- **C15** With a replacement pointer, inserting into a sorted list leaves it sorted: it consists of
the old values that compare below the new one, the new value, and the old values that compare above
it; the compare-equal old value, if any, is the one returned through the pointer. -/
theorem C15_sorted_replace (compare : Nat → Nat → Int) (hcmp : IsCompare compare) (s : LList)
    (c : Cursor) (a v : Nat) (h : IsList s c) (hv : v ≠ 0) (ha : a ≠ 0) (hf : s.heap a = none)
    (hroom : c.vals.length < s.capacity) (hs : SortedBy compare c.vals) :
    ∃ rep s' l', Wizard.insertSorted compare true s a v = .ok (true, rep, s') ∧
      linkedListToArray s' = .ok l' ∧ SortedBy compare l' ∧ s'.elements = l'.length ∧
      (∀ w, w ∈ l' ↔ w = v ∨ (w ∈ c.vals ∧ compare v w ≠ 0)) ∧
      (∀ w, rep = some w ↔ w ∈ c.vals ∧ compare v w = 0) := by
  obtain ⟨ns, hr, hvv⟩ := h
  have hcnt := hr.cnt
  have hlen : ns.length = c.vals.length := by rw [← hvv]; simp
  obtain ⟨xs, ys, rep, s', h1, h2, h3, h4, h5⟩ := insertSorted_repr compare true (v := v) hr
    hv (by omega) ha hf
  have hx : ∀ x ∈ xs, compare x.2 v < 0 := by
    intro x hx
    have := h3 x hx
    simp only [sortedStop, Bool.true_and, Bool.or_eq_false_iff, decide_eq_false_iff_not] at this
    have := (hcmp.swap x.2 v).mpr
    omega
  have hne : ∀ {p q}, compare p q < 0 → compare q p ≠ 0 := by
    intro p q hpq
    have := (hcmp.swap p q).mp hpq
    omega
  have harr : linkedListToArray s' = .ok ((xs ++ (a, v) :: ys).map Prod.snd) := by
    unfold linkedListToArray
    exact toArray_seg (by rw [h4.cnt]; omega) h4.seg
  refine ⟨rep, s', _, h1, harr, ?_⟩
  unfold SortedBy at hs ⊢
  rcases h5 with ⟨hrep, hns, hy, _⟩ | ⟨y, hrep, hns, _, hy0, _⟩
  · subst hns
    rw [← hvv] at hs ⊢
    simp only [List.map_append, List.map_cons, List.pairwise_append, List.pairwise_cons] at hs ⊢
    have hys : ∀ w ∈ ys.map Prod.snd, compare v w < 0 := by
      intro w hw
      cases ys with
      | nil => simp at hw
      | cons y ys =>
        have hvy : compare v y.2 < 0 := hy y rfl
        simp only [List.map_cons, List.mem_cons] at hw
        rcases hw with rfl | hw
        · exact hvy
        · have := hs.2.1
          simp only [List.map_cons, List.pairwise_cons] at this
          exact hcmp.trans _ _ _ hvy (this.1 w hw)
    have hxs : ∀ w ∈ xs.map Prod.snd, compare w v < 0 := by
      intro w hw
      obtain ⟨x, hxx, rfl⟩ := List.mem_map.mp hw
      exact hx x hxx
    refine ⟨⟨hs.1, ⟨hys, hs.2.1⟩, ?_⟩, by rw [h4.cnt]; simp, ?_, ?_⟩
    · intro p hp q hq
      simp only [List.mem_cons] at hq
      rcases hq with rfl | hq
      · exact hxs p hp
      · exact hs.2.2 p hp q hq
    · intro w
      simp only [List.mem_append, List.mem_cons]
      constructor
      · rintro (hw | rfl | hw)
        · exact .inr ⟨.inl hw, hne (hxs w hw)⟩
        · exact .inl rfl
        · exact .inr ⟨.inr hw, by have := hys w hw; omega⟩
      · rintro (rfl | ⟨hw | hw, _⟩)
        · exact .inr (.inl rfl)
        · exact .inl hw
        · exact .inr (.inr hw)
    · intro w
      rw [hrep]
      simp only [reduceCtorEq, List.mem_append, false_iff, not_and]
      rintro (hw | hw)
      · exact hne (hxs w hw)
      · have := hys w hw; omega
  · subst hns
    rw [← hvv] at hs ⊢
    simp only [List.map_append, List.map_cons, List.pairwise_append, List.pairwise_cons] at hs ⊢
    have hys : ∀ w ∈ ys.map Prod.snd, compare v w < 0 := by
      intro w hw
      exact (hcmp.congr_left v y.2 w hy0).mpr (hs.2.1.1 w hw)
    have hxs : ∀ w ∈ xs.map Prod.snd, compare w v < 0 := by
      intro w hw
      obtain ⟨x, hxx, rfl⟩ := List.mem_map.mp hw
      exact hx x hxx
    refine ⟨⟨hs.1, ⟨hys, hs.2.1.2⟩, ?_⟩, by rw [h4.cnt]; simp, ?_, ?_⟩
    · intro p hp q hq
      simp only [List.mem_cons] at hq
      rcases hq with rfl | hq
      · exact hxs p hp
      · exact hs.2.2 p hp q (by simp; right; simpa using hq)
    · intro w
      simp only [List.mem_append, List.mem_cons]
      constructor
      · rintro (hw | rfl | hw)
        · exact .inr ⟨.inl hw, hne (hxs w hw)⟩
        · exact .inl rfl
        · exact .inr ⟨.inr (.inr hw), by have := hys w hw; omega⟩
      · rintro (rfl | ⟨hw | rfl | hw, hw0⟩)
        · exact .inr (.inl rfl)
        · exact .inl hw
        · exact absurd hy0 hw0
        · exact .inr (.inr hw)
    · intro w
      rw [hrep]
      simp only [Option.some.injEq, List.mem_append, List.mem_cons]
      constructor
      · rintro rfl; exact ⟨.inr (.inl rfl), hy0⟩
      · rintro ⟨hw | rfl | hw, hw0⟩
        · exact absurd hw0 (hne (hxs w hw))
        · rfl
        · have := hys w hw; omega

/-- **C15** Without a replacement pointer, inserting into a list sorted up to ties keeps it sorted up
to ties and adds exactly the new value. -/
theorem C15_sorted_insert (compare : Nat → Nat → Int) (hcmp : IsCompare compare) (s : LList)
    (c : Cursor) (a v : Nat) (h : IsList s c) (hv : v ≠ 0) (ha : a ≠ 0) (hf : s.heap a = none)
    (hroom : c.vals.length < s.capacity) (hs : c.vals.Pairwise fun x y => compare x y ≤ 0) :
    ∃ s' c', Wizard.insertSorted compare false s a v = .ok (true, none, s') ∧ IsList s' c' ∧
      (c'.vals.Pairwise fun x y => compare x y ≤ 0) ∧ c'.vals.Perm (v :: c.vals) := by
  obtain ⟨ns, hr, hvv⟩ := h
  have hcnt := hr.cnt
  have hlen : ns.length = c.vals.length := by rw [← hvv]; simp
  obtain ⟨xs, ys, rep, s', h1, h2, h3, h4, h5⟩ := insertSorted_repr compare false (v := v) hr
    hv (by omega) ha hf
  rcases h5 with ⟨hrep, hns, hy, hr'⟩ | ⟨y, _, _, hfalse, _⟩
  · subst hns
    subst hrep
    refine ⟨s', ⟨(xs ++ (a, v) :: ys).map Prod.snd, posInsert c.pos xs.length⟩, h1,
      ⟨_, hr', rfl⟩, ?_, ?_⟩
    · rw [← hvv] at hs
      simp only [List.map_append, List.map_cons, List.pairwise_append, List.pairwise_cons] at hs ⊢
      have hxs : ∀ w ∈ xs.map Prod.snd, compare w v ≤ 0 := by
        intro w hw
        obtain ⟨x, hxx, rfl⟩ := List.mem_map.mp hw
        have := h3 x hxx
        simp [sortedStop] at this
        have := hcmp.swap v x.2
        omega
      have hys : ∀ w ∈ ys.map Prod.snd, compare v w ≤ 0 := by
        intro w hw
        cases ys with
        | nil => simp at hw
        | cons y ys =>
          have hvy : compare v y.2 < 0 := hy y rfl
          simp only [List.map_cons, List.mem_cons] at hw
          rcases hw with rfl | hw
          · omega
          · have := hs.2.1
            simp only [List.map_cons, List.pairwise_cons] at this
            have hyw := this.1 w hw
            rcases Int.lt_or_eq_of_le hyw with hlt | heq
            · have := hcmp.trans _ _ _ hvy hlt; omega
            · have h6 := hcmp.eq_symm heq
              have h7 := (hcmp.congr_left _ _ v heq)
              have h8 := (hcmp.congr_left _ _ v h6)
              have h9 := hcmp.swap v y.2
              have h10 := hcmp.swap v w
              have h11 := hcmp.swap w v
              have h12 := hcmp.swap y.2 v
              omega
      refine ⟨hs.1, ⟨hys, hs.2.1⟩, ?_⟩
      intro p hp q hq
      simp only [List.mem_cons] at hq
      rcases hq with rfl | hq
      · exact hxs p hp
      · exact hs.2.2 p hp q hq
    · rw [← hvv]
      simp only [List.map_append, List.map_cons]
      exact List.perm_middle
  · cases hfalse

/-- A sorted insertion that replaces an element other than the first frees it while an iterator
standing there still points to it: the next iteration step reads freed memory. This holds for every
list, value and position. -/
theorem C15_replace_iterator_violated (compare : Nat → Nat → Int) (s : LList) (c : Cursor)
    (a v : Nat) (h : IsList s c) (hv : v ≠ 0) (ha : a ≠ 0) (hf : s.heap a = none)
    (hroom : c.vals.length < s.capacity) (hpos : 0 < c.pos) (hlt : c.pos < c.vals.length)
    (hbefore : ∀ i < c.pos, 0 < compare v (nth c.vals i))
    (hat : compare v (nth c.vals c.pos) = 0) :
    ∃ s' w, Wizard.insertSorted compare true s a v = .ok (true, some w, s') ∧
      getNextValue s' = .ub := by
  obtain ⟨ns, hr, hvv⟩ := h
  have hcnt := hr.cnt
  have hlen : ns.length = c.vals.length := by rw [← hvv]; simp
  obtain ⟨xs, ys, rep, s', h1, h2, h3, h4, h5⟩ := insertSorted_repr compare true (v := v) hr
    hv (by omega) ha hf
  have hnth : ∀ (zs : List (Nat × Nat)) (y : Nat × Nat) (zs' : List (Nat × Nat)),
      ns = zs ++ y :: zs' → nth c.vals zs.length = y.2 := by
    intro zs y zs' hz
    rw [← hvv, hz]; simp [nth]
  have hxpos : c.pos ≥ xs.length := by
    rcases Nat.lt_or_ge c.pos xs.length with hl | hl
    · exfalso
      have hs := h3 xs[c.pos] (List.getElem_mem hl)
      have : nth c.vals c.pos = xs[c.pos].2 := by
        have hpre : ∃ t, ns = xs ++ t := by
          rcases h5 with ⟨_, hns, _⟩ | ⟨y, _, hns, _⟩
          · exact ⟨ys, hns⟩
          · exact ⟨_, hns⟩
        obtain ⟨t, ht⟩ := hpre
        unfold nth
        rw [← hvv, ht, List.map_append, List.getElem?_append_left (by simpa using hl),
          List.getElem?_map, List.getElem?_eq_getElem hl]
        rfl
      rw [this] at hat
      simp [sortedStop, hat] at hs
    · exact hl
  rcases h5 with ⟨_, hns, hy, _⟩ | ⟨y, hrep, hns, _, hy0, hnx, hfree, _⟩
  · exfalso
    cases ys with
    | nil =>
      simp at hns
      rw [hns] at hlen
      omega
    | cons y ys =>
      have hvy := hy y rfl
      have hyn := hnth xs y ys hns
      rcases Nat.lt_or_ge xs.length c.pos with hl | hl
      · have := hbefore _ hl; rw [hyn] at this; omega
      · have : c.pos = xs.length := by omega
        rw [this, hyn] at hat; omega
  · have hyn := hnth xs y ys hns
    have hpe : c.pos = xs.length := by
      rcases Nat.lt_or_ge xs.length c.pos with hl | hl
      · have := hbefore _ hl; rw [hyn] at this; omega
      · omega
    have hxne : xs ≠ [] := by rintro rfl; simp at hpe; omega
    refine ⟨s', y.2, by rw [h1, hrep], ?_⟩
    have hsn : s'.next = y.1 := by
      rw [hnx, hr.next, hpe, hns, addrAt_mid]
    have hy1 : y.1 ≠ 0 := by
      intro hh; exact hr.nz (by rw [hns]; simp [← hh])
    unfold getNextValue
    rw [hsn, if_neg hy1]
    simp [ldE, (hfree hxne).1]

/-- A sorted insertion that replaces the first element leaks it: it stays allocated although it is no
longer an element of the list. -/
theorem C15_replace_head_leak_violated (compare : Nat → Nat → Int) (s : LList) (c : Cursor)
    (a v w : Nat) (rest : List Nat) (h : IsList s c) (hc : c.vals = w :: rest)
    (hv : v ≠ 0) (ha : a ≠ 0) (hf : s.heap a = none)
    (hroom : c.vals.length < s.capacity) (hat : compare v w = 0) :
    ∃ s', Wizard.insertSorted compare true s a v = .ok (true, some w, s') ∧
      linkedListToArray s' = .ok (v :: rest) ∧ s'.heap s.head ≠ none ∧
      ∀ s'', clearLinkedList s' = .ok s'' → s''.heap s.head ≠ none := by
  obtain ⟨ns, hr, hvv⟩ := h
  have hcnt := hr.cnt
  have hlen : ns.length = c.vals.length := by rw [← hvv]; simp
  obtain ⟨xs, ys, rep, s', h1, h2, h3, h4, h5⟩ := insertSorted_repr compare true (v := v) hr
    hv (by omega) ha hf
  have hxs : xs = [] := by
    cases xs with
    | nil => rfl
    | cons x xs =>
      exfalso
      have hs := h3 x (by simp)
      have : x.2 = w := by
        have e : ns.map Prod.snd = x.2 :: (ns.map Prod.snd).tail := by
          rcases h5 with ⟨_, hns, _⟩ | ⟨y, _, hns, _⟩ <;> rw [hns] <;> rfl
        rw [hvv, hc] at e
        injection e with e _
        exact e.symm
      simp [sortedStop, this, hat] at hs
  subst hxs
  rcases h5 with ⟨_, hns, hy, _⟩ | ⟨y, hrep, hns, _, hy0, hnx, _, hkeep⟩
  · exfalso
    simp only [List.nil_append] at hns
    subst hns
    cases ns with
    | nil => rw [← hvv] at hc; cases hc
    | cons y ys =>
      have := hy y rfl
      rw [← hvv] at hc
      injection hc with e _
      rw [e] at this; omega
  · simp only [List.nil_append] at hns h4
    subst hns
    rw [← hvv] at hc
    simp only [List.map_cons, List.cons.injEq] at hc
    have hh : s.head = y.1 := hr.head_eq
    have hlive : s.heap y.1 = some (y.2, addrAt ys 0) := seg_live (xs := []) hr.seg
    have hl' : s'.heap s.head ≠ none := by
      rw [hh, hkeep rfl, hlive]; simp
    refine ⟨s', by rw [h1, hrep, hc.1], ?_, hl', ?_⟩
    · unfold linkedListToArray
      rw [toArray_seg (by rw [h4.cnt]; omega) h4.seg]
      simp [hc.2]
    · intro s'' hs''
      obtain ⟨h', k1, k2⟩ := freeChain_seg (f := s'.elements + 1) (by rw [h4.cnt]; omega) h4.seg
        h4.nodup
      simp only [clearLinkedList, k1, Res.ok_bind] at hs''
      cases hs''
      simp only
      rw [k2, if_neg]
      · exact hl'
      · have hnd := hr.nodup
        have hya : y.1 ≠ a := by rintro hh; rw [hh, hf] at hlive; cases hlive
        simp only [addrs, List.map_cons, List.nodup_cons, List.mem_cons, not_or] at hnd ⊢
        rw [hh]
        exact ⟨hya, hnd.1⟩

/-- A concrete sorted list meeting the hypotheses of the C15 theorems. -/
example : ∃ s, IsList s ⟨[3, 5], 1⟩ ∧ s.capacity = 9 ∧ s.heap 24 = none ∧
    SortedBy (fun x y => (x : Int) - y) [3, 5] ∧ IsCompare (fun x y => (x : Int) - y) := by
  have ha : AllocOk (newLinkedList 9) [.append 8 3, .append 16 5, .next] := by
    refine ⟨.inr rfl, fun o s h => ⟨?_, fun o s' h' => ⟨.inl rfl, fun _ _ _ => trivial⟩⟩⟩
    cases h; exact .inr rfl
  obtain ⟨s, h1, h2⟩ := list_run _ _ _ (new_isList 9) ha
  refine ⟨s, h2, ?_, ?_, ?_, ?_⟩
  · cases h1; rfl
  · cases h1; rfl
  · simp [SortedBy]
  · exact ⟨fun x y => by omega, fun x y z => by omega, fun x y z => by omega⟩

end Wizard.Props

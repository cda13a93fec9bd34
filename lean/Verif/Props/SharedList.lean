import Verif.Lemmas.Shared
import Verif.Model.SharedList
import Verif.Props.LinkedList
/-! C118: linked lists that several threads use. -/
namespace Wizard.Props
open Wizard Wizard.Spec Wizard.Spec.Shared

/-- A call that puts a value in. -/
def Adds : ListOp → Prop
  | .append _ _ => True
  | .insertFirst _ _ => True
  | .insertLast _ _ => True
  | .insertSorted _ _ _ => True
  | _ => False

/-- A call that takes values out. -/
def Takes : ListOp → Prop
  | .remove _ => True
  | .removeValue _ => True
  | .removeLast => True
  | .clear => True
  | _ => False

/-- A call that is for a value that has to be there. -/
def Wants : ListOp → Prop
  | .remove _ => True
  | .removeValue _ => True
  | .removeLast => True
  | .get _ => True
  | .last => True
  | _ => False

theorem check_settled {s : LList} {op : ListOp} {r : ListOut} (h : listCheck op s = some r) : listExec s op = .ok (r, s) := by
  cases op with
  | append a v =>
    simp only [listCheck] at h
    split at h
    · rename_i hc
      cases h
      simp only [listExec, appendValue]
      by_cases h1 : s.elements = s.capacity
      · simp [h1]
      · simp [h1, hc.resolve_left h1]
    · cases h
  | insertFirst a v =>
    simp only [listCheck] at h
    split at h
    · rename_i hc
      cases h
      simp only [listExec, insertValue]
      rcases hc with h1 | h1 | h1 <;> simp [h1]
    · cases h
  | insertLast a v =>
    simp only [listCheck] at h
    split at h
    · rename_i hc
      cases h
      simp only [listExec, insertValue]
      rcases hc with h1 | h1 | h1 <;> simp [h1]
    · cases h
  | insertSorted f a v =>
    simp only [listCheck] at h
    split at h
    · rename_i hc
      cases h
      simp only [listExec, insertSorted]
      rcases hc with h1 | h1 | h1 <;> simp [h1]
    · cases h
  | remove i =>
    simp only [listCheck] at h
    split at h
    · rename_i hc
      cases h
      simp [listExec, removeElement, hc]
    · cases h
  | removeValue v =>
    simp only [listCheck] at h
    split at h
    · rename_i hc
      cases h
      simp [listExec, removeByValue, hc]
    · cases h
  | removeLast =>
    simp only [listCheck] at h
    split at h
    · rename_i hc
      cases h
      simp [listExec, removeLast, hc]
    · cases h
  | get i =>
    simp only [listCheck] at h
    split at h
    · rename_i hc
      cases h
      simp [listExec, getValue, hc]
    · cases h
  | last =>
    simp only [listCheck] at h
    split at h
    · rename_i hc
      cases h
      simp [listExec, getLastValue, hc]
    · cases h
  | count => cases h; rfl
  | isEmpty => cases h; rfl
  | clear => cases h
  | toArray => cases h
  | reset => cases h
  | next => cases h

theorem check_passed {s : LList} {op : ListOp} (h : listCheck op s = none) : listLocked op s = listExec s op := by
  cases op with
  | append a v =>
    simp only [listCheck] at h
    split at h
    · cases h
    · rename_i hc
      simp only [not_or] at hc
      simp only [listLocked, listExec, appendLocked, appendValue, hc.1, hc.2, if_false]
      by_cases h0 : s.elements = 0
      · simp [h0]
      · simp only [h0, if_false]
        cases stNext (setE s.heap a (v, 0)) s.tail a <;> rfl
  | insertFirst a v =>
    simp only [listCheck] at h
    split at h
    · cases h
    · rename_i hc
      simp only [not_or] at hc
      simp only [listLocked, listExec, insertFirstLocked, insertValue, hc.1, hc.2, if_false, Nat.not_lt_zero, or_self]
      by_cases h0 : s.elements = 0
      · simp [h0]
      · simp only [h0, if_false, if_true]
        cases stNext (setE s.heap a (v, 0)) a s.head <;> rfl
  | insertLast a v => rfl
  | insertSorted f a v =>
    simp only [listCheck] at h
    split at h
    · cases h
    · rename_i hc
      simp only [not_or] at hc
      simp only [listLocked, listExec, insertSortedLocked, insertSorted, hc.1, hc.2, if_false]
      cases h1 : sortedLoop f false a v (s.elements + 1) (setE s.heap a (v, 0)) s.head s.elements 0 s.head with
      | ok x =>
        obtain ⟨h', head, elements, e, nn, rep⟩ := x
        simp only [Res.ok_bind]
        cases h2 : stNext h' a nn with
        | ok h'' =>
          simp only [Res.ok_bind]
          split
          · split
            · cases stNext h'' e a <;> rfl
            · rfl
          · rfl
        | ub => rfl
        | fatal => rfl
      | ub => rfl
      | fatal => rfl
  | remove i =>
    simp only [listCheck] at h
    split at h
    · cases h
    · rename_i hc
      simp only [listLocked, listExec, removeLocked, removeElement, hc, if_false]
  | removeValue v =>
    simp only [listCheck] at h
    split at h
    · cases h
    · rename_i hc
      simp only [listLocked, listExec, removeValueLocked, removeByValue, hc, if_false]
      cases ldE s.heap s.head with
      | ok c =>
        simp only [Res.ok_bind]
        split
        · cases unlinkHead s <;> rfl
        · cases findBefore s.heap v (s.elements + 1) s.head with
          | ok x =>
            simp only [Res.ok_bind]
            cases x with
            | none => rfl
            | some p => simp only []; cases unlinkAfter s p <;> rfl
          | ub => rfl
          | fatal => rfl
      | ub => rfl
      | fatal => rfl
  | removeLast =>
    simp only [listCheck] at h
    split at h
    · cases h
    · rename_i hc
      simp only [listLocked, listExec, removeLastLocked, removeLast, hc, if_false]
      split
      · cases ldE s.heap s.head with
        | ok c => cases freeE s.heap s.tail <;> rfl
        | ub => rfl
        | fatal => rfl
      · cases ldE s.heap s.tail with
        | ok c =>
          simp only [Res.ok_bind]
          cases findPrev s.heap s.tail (s.elements + 1) s.head with
          | ok p =>
            simp only [Res.ok_bind]
            cases freeE s.heap s.tail with
            | ok h' => simp only [Res.ok_bind]; cases stNext h' p 0 <;> rfl
            | ub => rfl
            | fatal => rfl
          | ub => rfl
          | fatal => rfl
        | ub => rfl
        | fatal => rfl
  | get i =>
    simp only [listCheck] at h
    split at h
    · cases h
    · rename_i hc
      simp only [listLocked, listExec, getLocked, getValue, hc, if_false]
      split
      · cases ldE s.heap s.head <;> rfl
      · split
        · cases ldE s.heap s.tail <;> rfl
        · cases walkE s.heap s.head i with
          | ok p => simp only [Res.ok_bind]; cases ldE s.heap p <;> rfl
          | ub => rfl
          | fatal => rfl
  | last =>
    simp only [listCheck] at h
    split at h
    · cases h
    · rename_i hc
      simp only [listLocked, listExec, lastLocked, getLastValue, hc, if_false]
      cases ldE s.heap s.tail <;> rfl
  | count => rfl
  | isEmpty => rfl
  | clear => rfl
  | toArray => rfl
  | reset => rfl
  | next => rfl

theorem cursor_seqRun (cap : Nat) : ∀ (ops : List ListOp) (c : Cursor), Cursor.run cap c ops = seqRun (Cursor.step cap) c ops
  | [], _ => rfl
  | op :: ops, c => by
    simp only [Cursor.run, seqRun]
    rw [cursor_seqRun cap ops]

/-- The list object is the sequence `c`, after `n` calls that have returned. -/
def ListAfter (cap n : Nat) (s : LList) (c : Cursor) : Prop := IsList s c ∧ s.capacity = cap ∧ c.vals.length ≤ n

theorem isList_elements {s : LList} {c : Cursor} (h : IsList s c) : s.elements = c.vals.length := by
  obtain ⟨ns, hr, hv⟩ := h
  rw [hr.cnt, ← hv]; simp

theorem removeAt_length (c : Cursor) (i : Nat) : (c.removeAt i).vals.length ≤ c.vals.length := by
  unfold Cursor.removeAt
  split
  · exact List.length_eraseIdx_le _ _
  · exact Nat.le_refl _

theorem cursor_length_le (cap : Nat) (c : Cursor) (op : ListOp) : (c.step cap op).2.vals.length ≤ c.vals.length + 1 := by
  cases op <;> simp only [Cursor.step]
  case append => split <;> simp
  case insertFirst => split <;> simp
  case insertLast => split <;> simp
  case insertSorted f a v =>
    split
    · simp
    · simp only [List.length_append, List.length_cons, List.length_take, List.length_drop]; omega
  case remove i => have := removeAt_length c i; omega
  case removeValue v =>
    split
    · simp
    · have := removeAt_length c (c.vals.idxOf v); simp only; omega
  case removeLast => simp only [List.length_dropLast]; omega
  all_goals simp

theorem cursor_length_ge (cap : Nat) (c : Cursor) (op : ListOp) (h : ¬ Takes op) :
    c.vals.length ≤ (c.step cap op).2.vals.length := by
  cases op <;> simp only [Cursor.step] <;> (try (exact absurd trivial h))
  case append => split <;> simp
  case insertFirst => split <;> simp
  case insertLast => split <;> simp
  case insertSorted f a v =>
    split
    · simp
    · simp only [List.length_append, List.length_cons, List.length_take, List.length_drop]; omega
  all_goals simp

theorem cursor_length_add (cap : Nat) (c : Cursor) (op : ListOp) (h : ¬ Adds op) :
    (c.step cap op).2.vals.length ≤ c.vals.length := by
  cases op <;> simp only [Cursor.step] <;> (try (exact absurd trivial h))
  case remove i => exact removeAt_length c i
  case removeValue v =>
    split
    · simp
    · exact removeAt_length c (c.vals.idxOf v)
  case removeLast => simp only [List.length_dropLast]; omega
  all_goals simp

theorem isList_le {s : LList} {c : Cursor} (h : IsList s c) : c.vals.length ≤ s.capacity := by
  rw [← isList_elements h]
  obtain ⟨ns, hr, hv⟩ := h
  exact hr.cap

theorem list_stable {s s' : LList} {op op' : ListOp} (hc : s'.capacity = s.capacity)
    (hw : Wants op → s.elements ≤ s'.elements) (ha : Adds op → s.elements ≠ s.capacity → s'.elements ≠ s'.capacity)
    (h : listCheck op s = none) : listCheck op s' = none := by
  cases op <;> simp only [listCheck, ite_eq_right_iff, not_or, reduceCtorEq, imp_false] at h ⊢
  case append => exact ⟨ha trivial h.1, h.2⟩
  case insertFirst => exact ⟨h.1, ha trivial h.2.1, h.2.2⟩
  case insertLast => exact ⟨h.1, ha trivial h.2.1, h.2.2⟩
  case insertSorted => exact ⟨h.1, ha trivial h.2.1, h.2.2⟩
  case remove => have := hw trivial; omega
  case removeValue => have := hw trivial; omega
  case removeLast => have := hw trivial; omega
  case get => have := hw trivial; omega
  case last => have := hw trivial; omega

theorem list_settled {s : LList} {c : Cursor} {op : ListOp} {r : ListOut} (h : IsList s c) (hc : listCheck op s = some r) :
    (c.step s.capacity op).1 = r ∧ IsList s (c.step s.capacity op).2 := by
  have e := isList_elements h
  have easy : opAddr op = 0 → (c.step s.capacity op).1 = r ∧ IsList s (c.step s.capacity op).2 := by
    intro h0
    obtain ⟨⟨r', s'⟩, h1, h2, h3, _⟩ := list_step s c op h (.inl h0)
    rw [check_settled hc] at h1
    cases h1
    exact ⟨h2.symm, h3⟩
  cases op with
  | append a v =>
    simp only [listCheck] at hc
    split at hc
    · rename_i hx
      rw [e] at hx
      cases hc
      simp only [Cursor.step, if_pos hx]
      exact ⟨trivial, h⟩
    · cases hc
  | insertFirst a v =>
    simp only [listCheck] at hc
    split at hc
    · rename_i hx
      rw [e] at hx
      cases hc
      simp only [Cursor.step, if_pos hx]
      exact ⟨trivial, h⟩
    · cases hc
  | insertLast a v =>
    simp only [listCheck] at hc
    split at hc
    · rename_i hx
      rw [e] at hx
      cases hc
      simp only [Cursor.step, if_pos hx]
      exact ⟨trivial, h⟩
    · cases hc
  | insertSorted f a v =>
    simp only [listCheck] at hc
    split at hc
    · rename_i hx
      rw [e] at hx
      cases hc
      simp only [Cursor.step, if_pos hx]
      exact ⟨trivial, h⟩
    · cases hc
  | remove i => exact easy rfl
  | removeValue v => exact easy rfl
  | removeLast => exact easy rfl
  | get i => exact easy rfl
  | last => exact easy rfl
  | count => exact easy rfl
  | isEmpty => exact easy rfl
  | clear => exact easy rfl
  | toArray => exact easy rfl
  | reset => exact easy rfl
  | next => exact easy rfl

/-- Whenever a thread is about to link an element, the memory the allocator gave it is not part of the list. -/
def MemoryFree (w : World LList ListOp Unit ListOut) : Prop :=
  ∀ t op k, w.phase t = .hold op k → opAddr op = 0 ∨ w.obj.heap (opAddr op) = none

theorem list_shared_ok (cap N : Nat) (prog : Nat → List ListOp)
    (hw : ∀ t u op op', t ≠ u → op ∈ prog t → op' ∈ prog u → Wants op → ¬ Takes op')
    (ha : N < cap ∨ ∀ t u op op', t ≠ u → op ∈ prog t → op' ∈ prog u → Adds op → ¬ Adds op') :
    SharedOk sharedList (Cursor.step cap) (ListAfter cap) (fun op s => opAddr op = 0 ∨ s.heap (opAddr op) = none)
      (fun _ => ()) prog N where
  enter := fun _ _ _ _ => rfl
  settled := by
    intro n s c t op r hop hR hn hc
    obtain ⟨h1, h2, h3⟩ := hR
    have he := list_settled h1 hc
    rw [h2] at he
    exact ⟨he.1, he.2, h2, by have := isList_elements he.2; have := isList_elements h1; omega⟩
  done := by
    intro n s c t op hop hR hn hc hg
    obtain ⟨h1, h2, h3⟩ := hR
    obtain ⟨⟨r, s'⟩, h4, h5, h6, h7⟩ := list_step s c op h1 hg
    simp only [h2] at h4 h5 h6 h7
    refine ⟨s', ?_, h6, h7, ?_⟩
    · show listLocked op s = _
      rw [check_passed hc, h4, h5]
    · have := cursor_length_le cap c op
      omega
  stable := by
    intro n s c t u op op' s' htu hop hop' hR hn hc hc' hg hl hR'
    obtain ⟨h1, h2, h3⟩ := hR
    obtain ⟨h4, h5, h6⟩ := hR'
    have e1 := isList_elements h1
    have e2 := isList_elements h4
    refine list_stable (op' := op') (by rw [h2, h5]) (fun hx => ?_) (fun hx hne => ?_) hc
    · rw [e1, e2]
      exact cursor_length_ge cap c op' (hw t u op op' htu hop hop' hx)
    · rw [e2, h5]
      rcases ha with ha | ha
      · omega
      · have := cursor_length_add cap c op' (ha t u op op' htu hop hop' hx)
        have hle := isList_le h1
        rw [e1, h2] at hne
        omega

/-- The capacity that `NewLinkedList` sets. -/
def listCapacity (capacity : Nat) : Nat := if capacity = 0 then 2 ^ 64 - 1 else capacity

/-- **C118** (partial) Any number of threads call a list, in any interleaving.  If a value that one thread looks for is not
taken out by another (`hw`), and no two threads add to a list that may become full (`ha`), no thread runs into undefined
behaviour, and all answers are those of a list whose calls are made one after the other.  Missing: see the violations. -/
theorem C118_threads_partial (capacity : Nat) (prog : Nat → List ListOp) (xs : List Nat)
    (hw : ∀ t u op op', t ≠ u → op ∈ prog t → op' ∈ prog u → Wants op → ¬ Takes op')
    (ha : xs.length < listCapacity capacity ∨
      ∀ t u op op', t ≠ u → op ∈ prog t → op' ∈ prog u → Adds op → ¬ Adds op')
    (hm : ∀ ys w, ys <+: xs → sharedList.run (.start (newLinkedList capacity) prog) ys = .ok w → MemoryFree w) :
    ∃ w, sharedList.run (.start (newLinkedList capacity) prog) xs = .ok w ∧
      OneByOne (fun ops => ((⟨[], 0⟩ : Cursor).run (listCapacity capacity) ops).1) prog w ∧
      w.obj.elements ≤ listCapacity capacity := by
  obtain ⟨w, h1, h2⟩ := shared_run (a := (⟨[], 0⟩ : Cursor)) (list_shared_ok (listCapacity capacity) xs.length prog hw ha) xs
    (.start (newLinkedList capacity) prog) (shared_start ⟨new_isList capacity, rfl, Nat.zero_le _⟩)
    (by simp [World.start]) hm
  refine ⟨w, h1, ⟨?_, h2.order⟩, ?_⟩
  · rw [h2.answers, cursor_seqRun]
  · have hr := h2.rel
    have hle := isList_le hr.1
    rw [hr.2.1] at hle
    rw [isList_elements hr.1]
    exact hle

/-- Two producers and a consumer. -/
def producers : Nat → List ListOp
  | 0 => [.append 8 5, .append 16 6]
  | 1 => [.append 24 7]
  | 2 => [.remove 0, .next]
  | _ => []

/-- An interleaving: the consumer takes a value while a producer waits for the semaphore. -/
example : ∃ w, sharedList.run (.start (newLinkedList 0) producers) [0, 1, 1, 0, 1, 2, 2, 0, 2, 0, 0, 0, 0, 0] = .ok w ∧
    w.log.map (fun x => x.1) = [1, 2, 0, 0] ∧ w.obj.elements = 2 := by
  refine ⟨_, rfl, rfl, rfl⟩

theorem producers_memory (ys : List Nat) (w) (hp : ys <+: [0, 1, 1, 0, 1, 2, 2, 0, 2, 0, 0, 0, 0, 0])
    (hr : sharedList.run (.start (newLinkedList 0) producers) ys = .ok w) : MemoryFree w := by
  rw [List.prefix_iff_eq_take] at hp
  have hl : ys.length ≤ 14 := by rw [hp]; simp; omega
  generalize ys.length = n at hp hl
  subst hp
  have : n = 0 ∨ n = 1 ∨ n = 2 ∨ n = 3 ∨ n = 4 ∨ n = 5 ∨ n = 6 ∨ n = 7 ∨ n = 8 ∨ n = 9 ∨ n = 10 ∨ n = 11 ∨ n = 12 ∨ n = 13 ∨
    n = 14 := by omega
  rcases this with h | h | h | h | h | h | h | h | h | h | h | h | h | h | h <;> subst h <;> cases hr <;> intro t op k hk <;>
    simp only [putAt, World.start] at hk <;> (repeat' (split at hk)) <;> (try cases hk) <;>
    (first | exact .inl rfl | exact .inr rfl)

/-- The hypotheses of the theorem hold in it. -/
example : ∃ w, sharedList.run (.start (newLinkedList 0) producers) [0, 1, 1, 0, 1, 2, 2, 0, 2, 0, 0, 0, 0, 0] = .ok w ∧
    OneByOne (fun ops => ((⟨[], 0⟩ : Cursor).run (listCapacity 0) ops).1) producers w ∧ w.obj.elements ≤ listCapacity 0 := by
  refine C118_threads_partial 0 producers _ ?_ (.inl (by simp [listCapacity])) producers_memory
  intro t u op op' htu h1 h2 hw ht
  match t, u with
  | 0, _ => simp [producers] at h1; rcases h1 with h | h <;> subst h <;> exact hw
  | 1, _ => simp [producers] at h1; subst h1; exact hw
  | 2, 0 => simp [producers] at h2; rcases h2 with h | h <;> subst h <;> exact ht
  | 2, 1 => simp [producers] at h2; subst h2; exact ht
  | 2, 2 => exact htu rfl
  | 2, _ + 3 => simp [producers] at h2
  | _ + 3, _ => simp [producers] at h1

/-- A thread that appends a value and takes the last one out, and a second thread with the call `op`. -/
def takeAnd (a v : Nat) (op : ListOp) : Nat → List ListOp
  | 0 => [.append a v, .removeLast]
  | 1 => [op]
  | _ => []

/-- **C118** (violated) Two threads take the last value out of a list with one value: both find that there is one before either
takes the semaphore.  The second follows a NULL pointer. -/
theorem C118_remove_last_violated (a v : Nat) (ha : a ≠ 0) :
    sharedList.run (.start (newLinkedList 0) (takeAnd a v .removeLast)) [0, 0, 0, 0, 1, 0, 0, 1, 1] = .ub := by
  simp [Shared.run, Shared.step, World.start, takeAnd, sharedList, listCheck, listLocked, newLinkedList, ha, Ne.symm ha, putAt,
    appendLocked, removeLastLocked, setE, ldE, freeE]

/-- **C118** (violated) A thread asks for the last value while another takes it out: it follows a NULL pointer. -/
theorem C118_last_violated (a v : Nat) (ha : a ≠ 0) :
    sharedList.run (.start (newLinkedList 0) (takeAnd a v .last)) [0, 0, 0, 0, 1, 0, 0, 1, 1] = .ub := by
  simp [Shared.run, Shared.step, World.start, takeAnd, sharedList, listCheck, listLocked, newLinkedList, ha, Ne.symm ha, putAt,
    appendLocked, removeLastLocked, lastLocked, setE, ldE, freeE]

/-- **C118** (violated) A thread asks for the value at index 0 while another takes it out: it follows a NULL pointer. -/
theorem C118_get_violated (a v : Nat) (ha : a ≠ 0) :
    sharedList.run (.start (newLinkedList 0) (takeAnd a v (.get 0))) [0, 0, 0, 0, 1, 0, 0, 1, 1] = .ub := by
  simp [Shared.run, Shared.step, World.start, takeAnd, sharedList, listCheck, listLocked, newLinkedList, ha, Ne.symm ha, putAt,
    appendLocked, removeLastLocked, getLocked, setE, ldE, freeE]

/-- Appends at the addresses 2, 3, 4, … -/
def appends (n : Nat) : List ListOp := (List.range' 2 n).map (fun a => .append a 7)

/-- Two threads that append: one once, one `n + 1` times. -/
def twoAppend (n : Nat) : Nat → List ListOp
  | 0 => .append (n + 2) 5 :: appends n
  | 1 => [.append 1 6]
  | _ => []

theorem overfull : ∀ (n k : Nat) (w : World LList ListOp Unit ListOut), w.phase 0 = .rest → w.holder = none →
    w.todo 0 = (List.range' (k + 1) n).map (fun a => .append a 7) → w.obj.capacity = 1 → 1 < w.obj.elements →
    w.obj.heap w.obj.tail ≠ none → ∃ w', sharedList.run w (List.replicate (3 * n) 0) = .ok w' ∧
      w'.obj.capacity = 1 ∧ w'.obj.elements = w.obj.elements + n
  | 0, k, w, _, _, _, h, _, _ => ⟨w, rfl, h, rfl⟩
  | n + 1, k, w, hp, hh, ht, hc, he, hl => by
    rw [List.range'_succ] at ht
    simp only [List.map_cons] at ht
    have e : List.replicate (3 * (n + 1)) 0 = 0 :: 0 :: 0 :: List.replicate (3 * n) 0 := by
      rw [show 3 * (n + 1) = 3 * n + 3 by omega]; rfl
    rw [e]
    have hne : w.obj.elements ≠ 1 := by omega
    have h0 : w.obj.elements ≠ 0 := by omega
    have hs : ∃ h', stNext (setE w.obj.heap (k + 1) (7, 0)) w.obj.tail (k + 1) = .ok h' ∧ h' (k + 1) ≠ none := by
      unfold stNext
      by_cases hk : w.obj.tail = k + 1
      · refine ⟨setE (setE w.obj.heap (k + 1) (7, 0)) (k + 1) (7, k + 1), by simp [setE, hk], by simp [setE]⟩
      · cases hx : w.obj.heap w.obj.tail with
        | none => exact absurd hx hl
        | some c =>
          refine ⟨setE (setE w.obj.heap (k + 1) (7, 0)) w.obj.tail (c.1, k + 1), by simp [setE, hk, hx], ?_⟩
          simp [setE, Ne.symm hk]
    obtain ⟨h', h1, h2⟩ := hs
    have hstep : sharedList.run w [0, 0, 0] = .ok { w with
        obj := { w.obj with heap := h', next := if w.obj.next = 0 then k + 1 else w.obj.next, tail := k + 1,
                            elements := w.obj.elements + 1 },
        holder := none
        phase := putAt (putAt (putAt w.phase 0 (.wait (.append (k + 1) 7))) 0 (.hold (.append (k + 1) 7) ())) 0 .rest
        todo := putAt w.todo 0 ((List.range' (k + 1 + 1) n).map (fun a => .append a 7))
        log := w.log ++ [(0, .append (k + 1) 7, .bool true)] } := by
      simp [Shared.run, Shared.step, hp, ht, sharedList, listCheck, hc, hne, putAt, hh, listLocked, appendLocked, h0, h1]
    rw [show (0 :: 0 :: 0 :: List.replicate (3 * n) 0) = [0, 0, 0] ++ List.replicate (3 * n) 0 from rfl, run_append, hstep]
    obtain ⟨w', h3, h5, h4⟩ := overfull n (k + 1) ({ w with
        obj := { w.obj with heap := h', next := if w.obj.next = 0 then k + 1 else w.obj.next, tail := k + 1,
                            elements := w.obj.elements + 1 },
        holder := none
        phase := putAt (putAt (putAt w.phase 0 (.wait (.append (k + 1) 7))) 0 (.hold (.append (k + 1) 7) ())) 0 .rest
        todo := putAt w.todo 0 ((List.range' (k + 1 + 1) n).map (fun a => .append a 7))
        log := w.log ++ [(0, .append (k + 1) 7, .bool true)] }) (by simp [putAt]) rfl (by simp [putAt]) hc (by simp; omega) h2
    exact ⟨w', h3, h5, by rw [h4]; simp; omega⟩

/-- **C118** (violated) Two threads append to a list of capacity 1: both find room before either takes the semaphore, and the
list gets two values.  From then on the test for a full list (`elements == capacity`) never holds, and the list takes any number
of values. -/
theorem C118_capacity_violated (n : Nat) :
    ∃ xs w, sharedList.run (.start (newLinkedList 1) (twoAppend n)) xs = .ok w ∧ w.obj.capacity = 1 ∧ w.obj.elements = n + 2 := by
  have hx : ∃ w, sharedList.run (.start (newLinkedList 1) (twoAppend n)) [0, 1, 0, 0, 1, 1] = .ok w ∧ w.phase 0 = .rest ∧
      w.holder = none ∧ w.todo 0 = (List.range' (1 + 1) n).map (fun a => .append a 7) ∧ w.obj.capacity = 1 ∧
      w.obj.elements = 2 ∧ w.obj.heap w.obj.tail ≠ none := by
    have e : setE (fun _ => none) (n + 2) (5, 0) (n + 2) = some (5, 0) := by simp [setE]
    have e' : (setE (setE (fun _ => none) (n + 2) (5, 0)) 1 (6, 0)) (n + 2) = some (5, 0) := by simp [setE]
    refine ⟨⟨⟨setE (setE (setE (fun _ => none) (n + 2) (5, 0)) 1 (6, 0)) (n + 2) (5, 1), 1, 2, n + 2, 1, n + 2⟩, none,
      putAt (putAt (putAt (putAt (putAt (putAt (fun _ => .rest) 0 (.wait (.append (n + 2) 5))) 1 (.wait (.append 1 6))) 0
        (.hold (.append (n + 2) 5) ())) 0 .rest) 1 (.hold (.append 1 6) ())) 1 .rest,
      putAt (putAt (twoAppend n) 0 (appends n)) 1 [], [(0, .append (n + 2) 5, .bool true), (1, .append 1 6, .bool true)]⟩,
      ?_, rfl, rfl, rfl, rfl, rfl, ?_⟩
    · simp [Shared.run, Shared.step, World.start, twoAppend, sharedList, listCheck, listLocked, newLinkedList, putAt,
        appendLocked, stNext, e']
    · simp [setE]
  obtain ⟨w, h1, h2, h3, h4, h5, h6, h7⟩ := hx
  obtain ⟨w', h8, h9, h10⟩ := overfull n 1 w h2 h3 h4 h5 (by omega) h7
  refine ⟨[0, 1, 0, 0, 1, 1] ++ List.replicate (3 * n) 0, w', ?_, h9, by omega⟩
  rw [run_append, h1]
  exact h8

end Wizard.Props

import Verif.Lemmas.Shared
import Verif.Model.SharedMap
import Verif.Props.Hashmap
import Verif.Props.SplayTree
/-! C119, C120: hash maps and splay trees that several threads use. -/
namespace Wizard.Props
open Wizard Wizard.Spec Wizard.Spec.Shared

theorem bindings_seqRun (same : Nat → Nat → Bool) : ∀ (ops : List MapOp) (s : Bindings),
    Bindings.run same s ops = seqRun (Bindings.step same) s ops
  | [], _ => rfl
  | op :: ops, s => by
    simp only [Bindings.run, seqRun]
    rw [bindings_seqRun same ops]

theorem smap_seqRun (C : Nat → Nat → Int) : ∀ (ops : List SMapOp) (s : SMap),
    SMap.run C s ops = seqRun (SMap.step C) s ops
  | [], _ => rfl
  | op :: ops, s => by
    simp only [SMap.run, seqRun]
    rw [smap_seqRun C ops]

theorem hash_shared_ok {o : HashOps} (he : Spec.Equiv o.same) (prog : Nat → List MapOp) (N : Nat) :
    SharedOk (sharedHashmap o) (Bindings.step o.same) (fun _ => HInv o) (fun _ _ => True) (fun _ => ()) prog N where
  enter := fun _ _ _ _ => rfl
  settled := by
    intro n m s t op r _ hR _ hc
    cases op <;> simp only [sharedHashmap, hashCheck] at hc <;> (try cases hc)
    all_goals
      split at hc
      · rename_i hx
        cases hc
        simp only [Bindings.step, if_pos hx]
        exact ⟨trivial, hR⟩
      · cases hc
  done := by
    intro n m s t op _ hR _ _ _
    obtain ⟨r, h1, h2, h3⟩ := hash_step he hR op
    refine ⟨r.2, ?_, h3⟩
    show hashLocked o op m = _
    rw [← h2]
    exact h1
  stable := by
    intro n m s t u op op' m' _ _ _ _ _ hc _ _ _ _
    exact hc

/-- **C119** Any number of threads put entries into a hash map, look them up, remove them and iterate, in any interleaving: no
thread runs into undefined behaviour, and all answers are those of a finite map whose calls are made one after the other. -/
theorem C119_threads {o : HashOps} {same : Nat → Nat → Bool} {capacity : Nat} (hc : 0 < capacity)
    (he : Spec.Equiv same) (ho : Implements o same) (prog : Nat → List MapOp) (xs : List Nat) :
    ∃ w, (sharedHashmap o).run (.start (newHashmap capacity) prog) xs = .ok w ∧
      OneByOne (fun ops => (Bindings.run same [] ops).1) prog w := by
  have hs := implements_same ho
  obtain ⟨w, h1, h2⟩ := shared_run (a := ([] : Bindings)) (hash_shared_ok (o := o) (hs ▸ he) prog xs.length) xs
    (.start (newHashmap capacity) prog) (shared_start (new_ok o hc)) (by simp [World.start]) (fun _ _ _ _ _ _ _ _ => trivial)
  refine ⟨w, h1, ⟨?_, h2.order⟩⟩
  rw [h2.answers, ← hs, bindings_seqRun]

/-- The call changes the entry of the key. -/
def Touches (same : Nat → Nat → Bool) (k : Nat) : MapOp → Prop
  | .put k' _ => same k k' = true
  | .remove k' => same k k' = true
  | _ => False

/-- What a call does to the value that is bound to `k`. -/
def onKey (same : Nat → Nat → Bool) (k : Nat) (x : Nat) : MapOp → Nat
  | .put k' v => if k' = 0 ∨ v = 0 then x else if same k k' then v else x
  | .remove k' => if k' = 0 then x else if same k k' then 0 else x
  | _ => x

theorem lookup_without {same : Nat → Nat → Bool} (he : Spec.Equiv same) (s : Bindings) (k k' : Nat) :
    (s.without same k').lookup same k = if same k k' then 0 else s.lookup same k := by
  obtain ⟨h1, h2, h3⟩ := he
  unfold Bindings.lookup Bindings.without
  induction s with
  | nil => simp
  | cons b s ih =>
    rw [List.filter_cons]
    by_cases hb : same k' b.1 = true
    · rw [if_neg (by simp [hb])]
      rw [ih]
      by_cases hk : same k k' = true
      · simp [hk]
      · simp only [hk]
        rw [List.find?_cons_of_neg]
        intro hx
        exact hk (h3 _ _ _ hx (h2 _ _ hb))
    · rw [if_pos (by simp [hb])]
      by_cases hx : same k b.1 = true
      · simp only [List.find?_cons, hx]
        have hk : ¬ same k k' = true := fun e => hb (h3 _ _ _ (h2 _ _ e) hx)
        simp [hk]
      · simp only [List.find?_cons, hx]
        exact ih

theorem lookup_step {same : Nat → Nat → Bool} (he : Spec.Equiv same) (s : Bindings) (k : Nat) (op : MapOp) :
    (Bindings.step same s op).2.lookup same k = onKey same k (s.lookup same k) op := by
  cases op with
  | put k' v =>
    simp only [Bindings.step, onKey]
    split
    · rfl
    · by_cases hk : same k k' = true
      · simp [Bindings.lookup, hk]
      · have := lookup_without he s k k'
        simp only [hk] at this ⊢
        simp only [Bindings.lookup] at this ⊢
        rw [List.find?_cons_of_neg (by simpa using hk)]
        simpa using this
  | get k' => simp only [Bindings.step, onKey]; split <;> rfl
  | remove k' =>
    simp only [Bindings.step, onKey]
    split
    · rfl
    · exact lookup_without he s k k'
  | reset => rfl
  | next => rfl

theorem onKey_untouched {same : Nat → Nat → Bool} {k x : Nat} {op : MapOp} (h : ¬ Touches same k op) : onKey same k x op = x := by
  cases op <;> simp only [onKey, Touches] at h ⊢
  · split
    · rfl
    · rfl
  · split
    · rfl
    · rfl

theorem lookup_own {same : Nat → Nat → Bool} (he : Spec.Equiv same) (t k : Nat) :
    ∀ (log : List (Nat × MapOp × Nat)) (s s' : Bindings), s.lookup same k = s'.lookup same k →
      (∀ x ∈ log, x.1 ≠ t → ¬ Touches same k x.2.1) →
      (seqRun (Bindings.step same) s (log.map (fun x => x.2.1))).2.lookup same k =
        (seqRun (Bindings.step same) s' (returned log t)).2.lookup same k
  | [], s, s', h, _ => h
  | x :: log, s, s', h, hx => by
    have ih := lookup_own he t k log
    by_cases ht : x.1 = t
    · have e : returned (x :: log) t = x.2.1 :: returned log t := by simp [returned, ht]
      rw [e]
      simp only [List.map_cons, seqRun]
      exact ih _ _ (by rw [lookup_step he, lookup_step he, h]) (fun y hy => hx y (by simp [hy]))
    · have e : returned (x :: log) t = returned log t := by simp [returned, ht]
      rw [e]
      simp only [List.map_cons, seqRun]
      exact ih _ _ (by rw [lookup_step he, onKey_untouched (hx x (by simp) ht), h]) (fun y hy => hx y (by simp [hy]))

theorem onKey_answer {same : Nat → Nat → Bool} {s : Bindings} {k : Nat} (hk : k ≠ 0) :
    (Bindings.step same s (.get k)).1 = s.lookup same k := by simp [Bindings.step, hk]

/-- **C119** A thread that alone puts and removes the entry of a key (the others may look it up, and do anything with other
keys) finds under this key what it would find if no other thread used the map. -/
theorem C119_own_key {o : HashOps} {same : Nat → Nat → Bool} {capacity : Nat} (hc : 0 < capacity)
    (he : Spec.Equiv same) (ho : Implements o same) (prog : Nat → List MapOp) (xs : List Nat) {t k r : Nat} (hk : k ≠ 0)
    (hown : ∀ u op, u ≠ t → op ∈ prog u → ¬ Touches same k op)
    {w : World HMap MapOp Unit Nat} (hw : (sharedHashmap o).run (.start (newHashmap capacity) prog) xs = .ok w)
    {pre post : List (Nat × MapOp × Nat)} (hl : w.log = pre ++ (t, .get k, r) :: post) :
    r = (Bindings.run same [] (returned pre t)).2.lookup same k := by
  obtain ⟨w', h1, h2, h3⟩ := C119_threads hc he ho prog xs
  rw [hw] at h1
  cases h1
  have ha : ∀ (l1 l2 : List MapOp) (op : MapOp) (s : Bindings), (seqRun (Bindings.step same) s (l1 ++ op :: l2)).1 =
      (seqRun (Bindings.step same) s l1).1 ++ (Bindings.step same (seqRun (Bindings.step same) s l1).2 op).1 ::
        (seqRun (Bindings.step same) (Bindings.step same (seqRun (Bindings.step same) s l1).2 op).2 l2).1 := by
    intro l1
    induction l1 with
    | nil => intro l2 op s; rfl
    | cons y l1 ih => intro l2 op s; simp only [List.cons_append, seqRun]; rw [ih]
  have hlen : ∀ (l : List MapOp) (s : Bindings), (seqRun (Bindings.step same) s l).1.length = l.length := by
    intro l
    induction l with
    | nil => intro s; rfl
    | cons y l ih => intro s; simp only [seqRun, List.length_cons, ih]
  rw [hl] at h2
  simp only [List.map_append, List.map_cons] at h2
  rw [bindings_seqRun, ha] at h2
  have h4 := List.append_inj_right h2 (by simp [hlen])
  injection h4 with h4 _
  rw [h4, onKey_answer hk, bindings_seqRun]
  refine lookup_own he t k pre [] [] rfl ?_
  intro x hx hxt
  refine hown x.1 x.2.1 hxt ?_
  rw [← h3 x.1]
  refine List.mem_append_left _ ?_
  rw [hl]
  simp only [returned, List.mem_map, List.mem_filter]
  exact ⟨x, ⟨List.mem_append_left _ hx, by simp⟩, rfl⟩

/-- Two threads store under keys of their own, a third removes and looks up one of them: what comes out in one interleaving
of their calls (each thread has up to three steps in a call). -/
example : Implements ⟨fun _ => 4, some (· == ·)⟩ (· == ·) ∧ Spec.Equiv (fun a b : Nat => a == b) ∧
    (∀ u op, u ≠ 1 → op ∈ (fun t => match t with | 0 => [MapOp.put 7 70, .get 7] | 1 => [.put 8 80, .get 8] | 2 => [.remove 7, .get 8] | _ => []) u →
      ¬ Touches (· == ·) 8 op) ∧
    ∃ w, (sharedHashmap ⟨fun _ => 4, some (· == ·)⟩).run (.start (newHashmap 3)
        fun t => match t with | 0 => [.put 7 70, .get 7] | 1 => [.put 8 80, .get 8] | 2 => [.remove 7, .get 8] | _ => [])
        [0, 1, 0, 1, 0, 1, 2, 1, 2, 1, 2, 0, 2, 0, 2, 0, 0, 1, 2, 2, 1, 2, 1, 1, 2, 2] = .ok w ∧
      w.log = [(0, .put 7 70, 0), (1, .put 8 80, 0), (2, .remove 7, 70), (0, .get 7, 0), (1, .get 8, 80), (2, .get 8, 80)] := by
  refine ⟨Or.inl ⟨rfl, fun _ _ _ => rfl⟩, ⟨by simp, by simp, by simp⟩, ?_, _, rfl, ?_⟩
  · intro u op hu hop
    match u, hop with
    | 0, hop => simp only [List.mem_cons, List.not_mem_nil, or_false] at hop; rcases hop with rfl | rfl <;> simp [Touches]
    | 1, _ => exact absurd rfl hu
    | 2, hop => simp only [List.mem_cons, List.not_mem_nil, or_false] at hop; rcases hop with rfl | rfl <;> simp [Touches]
    | n + 3, hop => simp at hop
  · rfl

/-! ## Splay trees -/

theorem splayTop_next {cmp : Option (Nat → Nat → Int)} {s s' : SplayTree} {key : Nat} {b : Bool}
    (h : splayTop cmp s key = .ok (b, s')) : s'.next = s.next := by
  unfold splayTop at h
  split at h <;> cases h <;> rfl

theorem balance_next {s s' : SplayTree} (h : balanceSplayTree s = .ok s') : s'.next = s.next := by
  unfold balanceSplayTree at h
  split at h
  · cases h; rfl
  · cases h1 : iterLoop s.nodes (4 * s.nodes) [(s.root, .left)] [] with
    | ok a =>
      rw [h1] at h
      simp only [Res.ok_bind] at h
      cases h2 : linkNodes a (s.nodes + 1) 0 (s.nodes - 1) with
      | ok t => rw [h2] at h; simp only [Res.ok_bind] at h; cases h; rfl
      | ub => rw [h2] at h; cases h
      | fatal => rw [h2] at h; cases h
    | ub => rw [h1] at h; cases h
    | fatal => rw [h1] at h; cases h

theorem splaySplay_next {cmp : Option (Nat → Nat → Int)} {s s' : SplayTree} {key : Nat}
    (h : splaySplayTree cmp s key = .ok s') : s'.next = s.next := by
  unfold splaySplayTree at h
  split at h
  · cases h; rfl
  · split at h
    · cases h; rfl
    · cases h1 : splayTop cmp s key with
      | ub => rw [h1] at h; cases h
      | fatal => rw [h1] at h; cases h
      | ok x =>
        obtain ⟨b, s1⟩ := x
        have e1 := splayTop_next h1
        rw [h1] at h
        simp only [Res.ok_bind] at h
        split at h
        · cases h; exact e1
        · unfold splayAgain at h
          cases h2 : balanceSplayTree s1 with
          | ub => rw [h2] at h; cases h
          | fatal => rw [h2] at h; cases h
          | ok s2 =>
            have e2 := balance_next h2
            rw [h2] at h
            simp only [Res.ok_bind] at h
            cases h3 : splayTop cmp s2 key with
            | ub => rw [h3] at h; cases h
            | fatal => rw [h3] at h; cases h
            | ok y =>
              obtain ⟨b', s3⟩ := y
              have e3 := splayTop_next h3
              rw [h3] at h
              simp only [Res.ok_bind] at h
              split at h
              · cases h; exact e3.trans (e2.trans e1)
              · cases h

theorem addValue_next {cmp : Option (Nat → Nat → Int)} {s s' : SplayTree} {key v : Nat}
    (h : addValue cmp s key v = .ok s') : s'.next = s.next := by
  unfold addValue at h
  cases h1 : splaySplayTree cmp s key with
  | ub => rw [h1] at h; cases h
  | fatal => rw [h1] at h; cases h
  | ok s1 =>
    have e1 := splaySplay_next h1
    rw [h1] at h
    simp only [Res.ok_bind] at h
    split at h
    · cases h; exact e1
    · split at h
      · cases h; exact e1
      · split at h <;> (cases h; exact e1)

theorem treeGet_next {cmp : Option (Nat → Nat → Int)} {s : SplayTree} {key : Nat} {r : Nat × SplayTree}
    (h : treeGetLocked cmp s key = .ok r) : r.2.next = s.next := by
  unfold treeGetLocked at h
  cases h1 : splaySplayTree cmp s key with
  | ub => rw [h1] at h; cases h
  | fatal => rw [h1] at h; cases h
  | ok s1 =>
    have e1 := splaySplay_next h1
    rw [h1] at h
    simp only [Res.ok_bind] at h
    split at h
    · cases h
    · split at h <;> (cases h; exact e1)

theorem isNil_toList (t : STree) : t.isNil = true ↔ t.toList = [] := by
  cases t <;> simp [STree.isNil, STree.toList]

/-- The call takes nothing out of the tree. -/
def NoRemoval : SMapOp → Prop
  | .remove _ => False
  | .removeValue _ => False
  | _ => True

/-- The call moves the iterator. -/
def MovesIterator : SMapOp → Prop
  | .reset => True
  | .next => True
  | _ => False

theorem step_nonempty {C : Nat → Nat → Int} {l : SMap} {op : SMapOp} (ho : NoRemoval op) (h : l ≠ []) : (SMap.step C l op).2 ≠ [] := by
  cases op <;> simp_all [SMap.step, NoRemoval, SMap.put]

theorem splayExec_locked {cmp : Option (Nat → Nat → Int)} {s : SplayTree} {op : SMapOp} (hr : NoRemoval op) (hc : treeCheck op s = none) :
    treeLeave cmp op none s = splayExec cmp s op := by
  cases op with
  | put k v => rfl
  | get k =>
    simp only [treeCheck] at hc
    simp only [treeLeave, splayExec, treeGetLocked, getFromSplay]
    cases h : s.root with
    | nil => simp [h, STree.isNil] at hc
    | node => rfl
  | remove k => exact hr.elim
  | removeValue v => exact hr.elim
  | reset => rfl
  | next =>
    simp only [treeCheck] at hc
    simp only [treeLeave, splayExec, treeNextLocked, nextInSplay]
    cases h : s.root with
    | nil => simp [h, STree.isNil] at hc
    | node l k v r =>
      have h0 : ¬ s.next = 0 := by
        intro e
        simp [e] at hc
      simp only [h0, if_false]
      cases splaySplayTree cmp s s.next with
      | ok s1 =>
        simp only [Res.ok_bind]
        cases s1.root <;> rfl
      | ub => rfl
      | fatal => rfl

/-- What is kept up: the tree holds the bindings, and not too many. -/
def TreeRel (cmp : Option (Nat → Nat → Int)) (n : Nat) (s : SplayTree) (l : SMap) : Prop :=
  SInv cmp s l ∧ (∀ x ∈ l, x.1 ≠ 0) ∧ l.length ≤ n

theorem tree_shared_ok {cmp : Option (Nat → Nat → Int)} (hC : IsOrder (cmpKeys cmp)) {prog : Nat → List SMapOp} {N : Nat}
    (hN : N < 2 ^ 64) (hr : ∀ t op, op ∈ prog t → NoRemoval op) (hz : ∀ t, NonNullKeys (prog t)) {it : Nat}
    (hi : ∀ t op, op ∈ prog t → MovesIterator op → t = it) :
    SharedOk (sharedTree cmp) (SMap.step (cmpKeys cmp)) (TreeRel cmp) (fun _ _ => True) (fun _ => none) prog N where
  enter := by
    intro t op hop s
    have := hr t op hop
    cases op <;> first | rfl | exact this.elim
  settled := by
    intro n s l t op r hop hR _ hc
    obtain ⟨h1, h2, h3⟩ := hR
    have hnil : s.root.isNil = true → l = [] := fun e => by rw [← h1.list]; exact (isNil_toList _).1 e
    cases op with
    | put k v => simp [sharedTree, treeCheck] at hc
    | get k =>
      simp only [sharedTree, treeCheck] at hc
      split at hc
      · rename_i e
        cases hc
        have e := hnil e
        subst e
        exact ⟨rfl, h1, h2, Nat.zero_le _⟩
      · cases hc
    | remove k => exact (hr t _ hop).elim
    | removeValue v => exact (hr t _ hop).elim
    | reset => simp [sharedTree, treeCheck] at hc
    | next =>
      simp only [sharedTree, treeCheck] at hc
      split at hc
      · cases hc
        exact ⟨rfl, h1, h2, Nat.le_succ_of_le h3⟩
      · cases hc
  done := by
    intro n s l t op hop hR hn hc _
    obtain ⟨h1, h2, h3⟩ := hR
    obtain ⟨r, e1, e2, e3⟩ := splay_step hC h1 (by omega) h2 op
    refine ⟨r.2, ?_, e3, ?_, ?_⟩
    · show treeLeave cmp op none s = _
      rw [splayExec_locked (hr t op hop) hc, e1, ← e2]
    · exact step_nonnull h2 op (fun k v e => hz t k v (e ▸ hop))
    · have := step_length (C := cmpKeys cmp) (l := l) op
      omega
  stable := by
    intro n s l t u op op' s' htu hop hop' hR hn hc hc' _ hl hR'
    have hroot : s.root.isNil = false → s'.root.isNil = false := by
      intro e
      have h0 : l ≠ [] := by
        intro e'
        rw [← hR.1.list] at e'
        rw [(isNil_toList _).2 e'] at e
        cases e
      have := step_nonempty (C := cmpKeys cmp) (hr u op' hop') h0
      rw [← hR'.1.list] at this
      cases e' : s'.root.isNil with
      | false => rfl
      | true => exact absurd ((isNil_toList _).1 e') this
    cases op with
    | put k v => rfl
    | get k =>
      simp only [sharedTree, treeCheck] at hc ⊢
      cases e : s.root.isNil with
      | true => simp [e] at hc
      | false => simp [hroot e]
    | remove k => exact (hr t _ hop).elim
    | removeValue v => exact (hr t _ hop).elim
    | reset => rfl
    | next =>
      have hnext : s'.next = s.next := by
        have hm : ¬ MovesIterator op' := fun hm => htu ((hi t _ hop trivial).trans (hi u _ hop' hm).symm)
        simp only [sharedTree] at hl
        cases op' with
        | put k v =>
          simp only [treeLeave] at hl
          cases h1 : addValue cmp s k v with
          | ok s1 =>
            rw [h1] at hl
            simp only [Res.ok_bind] at hl
            cases hl
            exact addValue_next h1
          | ub => rw [h1] at hl; cases hl
          | fatal => rw [h1] at hl; cases hl
        | get k => exact treeGet_next hl
        | remove k => exact (hr u _ hop').elim
        | removeValue v => exact (hr u _ hop').elim
        | reset => exact absurd trivial hm
        | next => exact absurd trivial hm
      simp only [sharedTree, treeCheck] at hc ⊢
      rw [hnext]
      cases e : s.root.isNil with
      | true => simp [e] at hc
      | false => simpa [hroot e, e] using hc

/-- **C120** (partial) Any number of threads add entries to a splay tree and look them up, and one of them may iterate over it: in every
interleaving no thread runs into undefined behaviour, and all answers are those of an ordered map whose calls are made one after
the other.  What is missing, and false (below): threads that remove entries. -/
theorem C120_threads_partial {cmp : Option (Nat → Nat → Int)} (hC : IsOrder (keyOrder cmp)) (prog : Nat → List SMapOp)
    (hr : ∀ t op, op ∈ prog t → NoRemoval op) (hz : ∀ t, NonNullKeys (prog t)) {it : Nat}
    (hi : ∀ t op, op ∈ prog t → MovesIterator op → t = it) (xs : List Nat) (hx : xs.length < 2 ^ 64) :
    ∃ w, (sharedTree cmp).run (.start newSplayTree prog) xs = .ok w ∧
      OneByOne (fun ops => (SMap.run (keyOrder cmp) [] ops).1) prog w := by
  rw [← keyOrder_eq] at hC ⊢
  obtain ⟨w, h1, h2⟩ := shared_run (a := ([] : SMap)) (tree_shared_ok hC hx hr hz hi) xs
    (.start newSplayTree prog) (shared_start ⟨new_inv cmp, by simp, by simp⟩) (by simp [World.start]) (fun _ _ _ _ _ _ _ _ => trivial)
  exact ⟨w, h1, ⟨by rw [h2.answers, smap_seqRun], h2.order⟩⟩

/-- A thread iterates while two others add and look up entries. -/
example : ∃ prog : Nat → List SMapOp, (∀ t op, op ∈ prog t → NoRemoval op) ∧ (∀ t, NonNullKeys (prog t)) ∧
    (∀ t op, op ∈ prog t → MovesIterator op → t = 2) ∧
    ∃ w, (sharedTree none).run (.start newSplayTree prog) [0, 1, 0, 1, 0, 1, 1, 2, 2, 2, 2, 1, 0, 0, 0, 1, 0, 1, 1, 2, 1, 2] = .ok w ∧
      w.log = [(0, .put 5 50, 0), (1, .put 3 30, 0), (2, .reset, 0), (0, .get 3, 30), (1, .get 5, 50), (2, .next, 0)] := by
  refine ⟨fun t => match t with | 0 => [.put 5 50, .get 3] | 1 => [.put 3 30, .get 5] | 2 => [.reset, .next] | _ => [], ?_, ?_, ?_, _, rfl, ?_⟩
  · intro t op h
    match t, h with
    | 0, h => simp only [List.mem_cons, List.not_mem_nil, or_false] at h; rcases h with rfl | rfl <;> trivial
    | 1, h => simp only [List.mem_cons, List.not_mem_nil, or_false] at h; rcases h with rfl | rfl <;> trivial
    | 2, h => simp only [List.mem_cons, List.not_mem_nil, or_false] at h; rcases h with rfl | rfl <;> trivial
    | n + 3, h => simp at h
  · intro t k v h
    match t, h with
    | 0, h => simp at h; omega
    | 1, h => simp at h; omega
    | 2, h => simp at h
    | n + 3, h => simp at h
  · intro t op h hm
    match t, h with
    | 0, h => simp only [List.mem_cons, List.not_mem_nil, or_false] at h; rcases h with rfl | rfl <;> exact hm.elim
    | 1, h => simp only [List.mem_cons, List.not_mem_nil, or_false] at h; rcases h with rfl | rfl <;> exact hm.elim
    | 2, h => rfl
    | n + 3, h => simp at h
  · rfl

/-- **C120** (violated) A removal has, for a moment, no root, and the test before the semaphore is taken (splay-tree.c:887) finds no root: thread 1
looks up key 2, which thread 0 has put and nobody removes, and is told that it is not there. -/
theorem C120_lookup_violated : ∃ (prog : Nat → List SMapOp) (xs : List Nat) (w : World SplayTree SMapOp (Option (Option STree × Nat)) Nat),
    prog 0 = [.put 1 5, .put 2 7, .remove 1] ∧ prog 1 = [.get 2] ∧ (∀ t, 2 ≤ t → prog t = []) ∧
    (sharedTree none).run (.start newSplayTree prog) xs = .ok w ∧
    (∃ post, w.log = [(0, .put 1 5, 0), (0, .put 2 7, 0)] ++ (1, .get 2, 0) :: post) ∧
    ¬ OneByOne (fun ops => (SMap.run natOrder [] ops).1) prog w := by
  refine ⟨fun t => match t with | 0 => [.put 1 5, .put 2 7, .remove 1] | 1 => [.get 2] | _ => [],
    [0, 0, 0, 0, 0, 0, 0, 0, 1, 0], _, rfl, rfl, ?_, rfl, ⟨_, rfl⟩, ?_⟩
  · intro t ht
    match t, ht with
    | n + 2, _ => rfl
  · intro h
    have := h.answers
    revert this
    decide +kernel

/-- **C120** (violated) Between the test and the semaphore another thread can remove the last entry: `GetValueFromSplayTree` then reads the key of a
root that is not there (splay-tree.c:890-897). -/
theorem C120_get_violated : ∃ (prog : Nat → List SMapOp) (xs : List Nat),
    prog 0 = [.put 1 5, .remove 1] ∧ prog 1 = [.get 1] ∧ (∀ t, 2 ≤ t → prog t = []) ∧
    (sharedTree none).run (.start newSplayTree prog) xs = .ub := by
  refine ⟨fun t => match t with | 0 => [.put 1 5, .remove 1] | 1 => [.get 1] | _ => [],
    [0, 0, 0, 1, 0, 0, 0, 1, 1], rfl, rfl, ?_, rfl⟩
  intro t ht
  match t, ht with
  | n + 2, _ => rfl

/-- **C120** (violated) Two threads that iterate: one takes the last entry between the test and the semaphore of the other, which then splays the
tree at the NULL key (splay-tree.c:777-789) and starts over: after three calls the iteration over two entries still goes on. -/
theorem C120_iterate_violated : ∃ (prog : Nat → List SMapOp) (xs : List Nat) (w : World SplayTree SMapOp (Option (Option STree × Nat)) Nat),
    prog 0 = [.put 1 5, .put 2 7, .reset, .next, .next] ∧ prog 1 = [.next] ∧ (∀ t, 2 ≤ t → prog t = []) ∧
    (sharedTree none).run (.start newSplayTree prog) xs = .ok w ∧
    w.log.map (fun x => x.2.1) = [.put 1 5, .put 2 7, .reset, .next, .next, .next] ∧
    (∃ s, nextInSplay none w.obj = .ok (some (2, 7), s)) ∧
    (∃ r s, splayRun none newSplayTree [.put 1 5, .put 2 7, .reset, .next, .next, .next] = .ok (r, s) ∧
      nextInSplay none s = .ok (none, s)) := by
  refine ⟨fun t => match t with | 0 => [.put 1 5, .put 2 7, .reset, .next, .next] | 1 => [.next] | _ => [],
    [0, 0, 0, 0, 0, 0, 0, 0, 0, 0, 0, 0, 1, 0, 0, 0, 1, 1], _, rfl, rfl, ?_, rfl, rfl, ⟨_, rfl⟩, ⟨_, _, rfl, rfl⟩⟩
  intro t ht
  match t, ht with
  | n + 2, _ => rfl

end Wizard.Props
